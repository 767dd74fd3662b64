import Verif.Spec.Static
import Verif.Proofs.Act
import Verif.Proofs.Str
import Verif.Props.Dispatch
import Verif.Props.Mount

namespace Obsidian
open Spec
variable {U : Univ} {σ : Type}

theorem fromUtf8_eq {b : Bytes} {x : Str} : fromUtf8 b = some x ↔ utf8 x = b := by
  constructor
  · intro h
    rw [fromUtf8, Option.map_eq_some_iff] at h
    obtain ⟨a, h1, rfl⟩ := h
    have hs : b.toByteArray.utf8Decode?.isSome := by rw [h1]; rfl
    have h2 := ByteArray.utf8Encode_get_utf8Decode? (b := b.toByteArray) (h := hs)
    have h3 : b.toByteArray.utf8Decode?.get hs = a := by simp [h1]
    rw [h3] at h2
    have h4 := congrArg (fun x => x.data.toList) h2
    simpa [List.utf8Encode, utf8, List.data_toByteArray] using h4
  · rintro rfl
    have := List.utf8Decode?_utf8Encode (l := x)
    rw [fromUtf8]
    rw [List.utf8Encode] at this
    rw [utf8, this]; simp

theorem joinSlash_eq (ss : List Str) : joinSlash ss = pathOf ss := by
  rw [pathOf]
  induction ss with
  | nil => rfl
  | cons s ss ih =>
    cases ss with
    | nil => simp [joinSlash, List.intercalate]
    | cons t ss => rw [joinSlash, ih]; simp [List.intercalate]

/-- What is served for a file. -/
def served (fs : ReadFile σ) (w : σ) (path : Str) : Except Str Bytes := (readToString fs w path).map utf8

theorem served_text {fs : ReadFile σ} {w : σ} {path : Str} (h : IsText (fs w path)) :
    served fs w path = fs w path := by
  rw [served, readToString]
  cases hf : fs w path with
  | error e => rfl
  | ok b =>
    obtain ⟨x, hx⟩ := h b hf
    simp only [fromUtf8_eq.2 hx, Except.map, hx]

theorem served_binary {fs : ReadFile σ} {w : σ} {path : Str} {b : Bytes} (h : fs w path = .ok b)
    (hb : ∀ x, utf8 x ≠ b) : served fs w path = .error notUtf8 := by
  rw [served, readToString, h]
  cases hf : fromUtf8 b with
  | none => simp only [hf, Except.map]
  | some x => exact absurd (fromUtf8_eq.1 hf) (hb x)

theorem run_file (fs : ReadFile σ) (path : Str) (c : Context U) (w : σ) :
    ∃ pr r, ((Response.ok.fileAct fs path).bind fun r =>
      (.ret (c.build (.response r)).ok : Act σ (ContextResult U))).run w =
        ⟨.ok (.ok { c with response := some r }), w, pr⟩ ∧ r.headers = none ∧ r.body.fails = false ∧
      match served fs w path with
      | .ok b => r.status = 200 ∧ r.body.bytes = b
      | .error e => r.status = 404 ∧ r.body.bytes = utf8 e := by
  simp only [Response.fileAct, Act.bind, Act.run, served]
  cases readToString fs w path with
  | ok x =>
    exact ⟨[], Response.ok.file (.ok x), rfl, rfl, (Props.bytes_ofStr x).2, rfl, (Props.bytes_ofStr x).1⟩
  | error e =>
    exact ⟨[.error e], Response.ok.file (.error e), rfl, rfl, (Props.bytes_ofStr e).2, rfl,
      (Props.bytes_ofStr e).1⟩

/-- Serving a request whose handler reads the file at `path`. -/
theorem serve_file {a : App U σ} {req : Request U} {h : Handler U σ} {fs : ReadFile σ} {path : Str}
    (hh : handlerFor a.router req.method req.path = some h) (hch : chainFor a.router req.path = some [])
    (hp : ∀ c : Context U, c.request.path = req.path → h c =
      (Response.ok.fileAct fs path).bind fun r => .ret (c.build (.response r)).ok) (w : σ) :
    ∃ sent pr, (a.serve req).run w = ⟨.ok sent, w, pr⟩ ∧ FileAnswer (served fs w path) sent := by
  obtain ⟨chain, c, h1, h2, h3⟩ := serve_some hh
  rw [hch] at h1
  injection h1 with h1
  subst h1
  rw [h3, execNext, hp c h2.path]
  obtain ⟨pr, r, h4, h5, h6, h7⟩ := run_file fs path c w
  rw [Props.run_finish (by rw [h4]), h4]
  obtain ⟨m, h8, h9⟩ := Props.finish_response (c := { c with response := some r }) rfl
    (by simp [headerList, h5])
  refine ⟨_, pr, by rw [h8], h6, fun k => ?_, ?_⟩
  · show m.get k = none
    rw [h9]; simp [headerList, h5, lastValue]
  · cases hs : served fs w path <;> rw [hs] at h7 <;> exact h7

theorem virtual_reads (fs : ReadFile σ) (v d : Str) (c : Context U) :
    staticVirtualFileHandler fs v d c =
      (Response.ok.fileAct fs (pathOf (segments d ++ (segments c.request.path).drop (segments v).length))).bind
        fun r => .ret (c.build (.response r)).ok := by
  rw [staticVirtualFileHandler]; simp only [segs_eq, joinSlash_eq]

theorem dir_reads (fs : ReadFile σ) (c : Context U) :
    staticDirFileHandler fs c =
      (Response.ok.fileAct fs (pathOf (segments c.request.path))).bind
        fun r => .ret (c.build (.response r)).ok := by
  rw [staticDirFileHandler]; simp only [segs_eq, joinSlash_eq]

theorem segments_star (v : Str) : segments (v ++ "/*".toList) = segments v ++ [['*']] := by
  have : ("/*".toList : Str) = '/' :: ['*'] := by decide +kernel
  rw [this, Props.segments_join]
  have : segments ['*'] = [['*']] := by decide +kernel
  rw [this]

theorem segmentsFrom_noSlash {s : Str} (h : '/' ∉ s) (cur : Str) :
    segmentsFrom cur s = if cur ++ s = [] then [] else [cur ++ s] := by
  induction s generalizing cur with
  | nil => simp [segmentsFrom]
  | cons c s ih =>
    rw [segmentsFrom, if_neg (fun hc => h (by simp [hc])), ih (fun hc => h (by simp [hc]))]
    simp

theorem segments_pathOf {ss : List Str} (h : ∀ s ∈ ss, s ≠ [] ∧ '/' ∉ s) : segments (pathOf ss) = ss := by
  rw [← joinSlash_eq]
  induction ss with
  | nil => rfl
  | cons s ss ih =>
    have h1 : segments s = [s] := by
      rw [segments, segmentsFrom_noSlash (h s (by simp)).2]
      simp [(h s (by simp)).1]
    cases ss with
    | nil => exact h1
    | cons t ss =>
      rw [joinSlash, Props.segments_join, ih (fun s hs => h s (by simp [hs])), h1]; rfl

theorem pathOf_head {ss : List Str} (h : ∀ s ∈ ss, s ≠ [] ∧ '/' ∉ s) : (pathOf ss).head? ≠ some '/' := by
  rw [← joinSlash_eq]
  cases ss with
  | nil => simp [joinSlash]
  | cons s ss =>
    obtain ⟨h1, h2⟩ := h s (by simp)
    cases s with
    | nil => exact absurd rfl h1
    | cons c s =>
      have : c ≠ '/' := fun hc => h2 (by simp [hc])
      cases ss <;> simpa [joinSlash] using this

theorem locate_pathOf {ss : List Str} (h : ∀ s ∈ ss, s ≠ [] ∧ '/' ∉ s) (cwd : List Str) :
    locate cwd (pathOf ss) = ss.foldl go cwd := by
  rw [locate, segments_pathOf h, if_neg (pathOf_head h)]

theorem segments_names (p : Str) : ∀ s ∈ segments p, s ≠ [] ∧ '/' ∉ s := fun s hs =>
  ⟨segments_ne p s hs, segments_noSlash p s hs⟩

theorem go_prefix {xs : List Str} (h : NoDots xs) (at_ : List Str) : at_ <+: xs.foldl go at_ := by
  induction xs generalizing at_ with
  | nil => exact List.prefix_refl _
  | cons x xs ih =>
    refine List.IsPrefix.trans ?_ (ih (fun s hs => h s (by simp [hs])) _)
    rw [go, if_neg (h x (by simp))]
    split
    · exact List.prefix_refl _
    · exact List.prefix_append _ _

/-- Without middlewares in the log the chain is empty. -/
theorem chain_nil {M H : Type} {prog : List (Reg M H)} (hc : CleanRegs prog) {r : Router M H}
    (hb : build prog = (r, none)) (hm : ∀ e ∈ logOf prog, ∀ m, e.what ≠ .middleware m) {path : Str}
    (hf : isFound r path = true) : chainFor r path = some [] := by
  have mws : ∀ q, mwsAt (logOf prog) q = [] := by
    intro q
    rw [mwsAt, List.filterMap_eq_nil_iff]
    intro e he
    split
    · split
      · next m h => exact absurd h (hm e he m)
      · rfl
    · rfl
  have up : ∀ r p, upTo (logOf prog) p r = [] := by
    intro r
    induction r with
    | nil => intro p; rfl
    | cons c r ih => intro p; rw [upTo, ih, mws]; rfl
  have : ∃ ch, chainFor r path = some ch := by
    rw [isFound] at hf
    rw [chainFor]
    split at hf
    · exact ⟨_, rfl⟩
    · simp at hf
  obtain ⟨ch, h⟩ := this
  obtain ⟨q, b, _, rfl⟩ := (build_rep hc hb).chain h
  rw [h, Spec.chain, mws, up]; rfl

end Obsidian
