import Verif.Proofs.Static

/-
Serving files: C42 (mapping), C43 (staying in the directory), C44 (scopes), C56 (absolute directories),
C57 (content).
-/
namespace Obsidian.Props
open Obsidian Spec
variable {U : Univ} {σ : Type}

/-! ### Examples -/

/-- A file system for the examples: a list of paths and contents. -/
abbrev Files := List (Str × Bytes)

def readFiles : ReadFile Files := fun w p =>
  match w.lookup p with
  | some b => .ok b
  | none => .error (s "No such file or directory (os error 2)")

theorem mem_logOf_get {M H : Type} {prog : List (Reg M H)} (hn : NoRootMount prog) {p : Str} {h : H}
    (hm : Reg.get p h ∈ prog) : ⟨segments p, .route .get h⟩ ∈ logOf prog := by
  obtain ⟨pre, post, rfl⟩ := List.append_of_mem hm
  rw [logOf, logRegs_append, logRegs]
  exact mem_logRegs (by rw [logReg]; simp) (fun c hc => hn c (by simp [hc]))

theorem matches_length {pat req : List Str} {b : List (Str × Str)} (h : Matches pat req b)
    (hns : NoStar pat) : req.length = pat.length := by
  induction h with
  | nil => rfl
  | static _ _ _ ih => simp [ih (fun h => hns (by simp [h]))]
  | param _ ih => simp [ih (fun h => hns (by simp [h]))]
  | wild _ => exact absurd (by simp) hns

theorem noStarMount_of_noStar {M H : Type} {L : Log M H}
    (h : ∀ e ∈ L, NoStar e.segs ∨ ∃ ss, e.segs = ss ++ [['*']] ∧ NoStar ss ∧ e.what ≠ .nothing) : NoStarMount L := by
  intro e he pre post hs
  rcases h e he with h | ⟨ss, h1, h2, h3⟩
  · exact absurd (by rw [hs]; simp) h
  · refine ⟨?_, h3⟩
    rw [h1] at hs
    rcases List.eq_nil_or_concat post with rfl | ⟨post', x, rfl⟩
    · rfl
    · have := congrArg List.dropLast hs
      rw [List.dropLast_concat, List.concat_eq_append, ← List.cons_append, ← List.append_assoc,
        List.dropLast_concat] at this
      exact absurd (by rw [this]; simp) h2

/-! ### C42 -/

/-- **C42**, the handler of `use_static_to(v, d)`: in whatever context it runs, it reads exactly one
file, which is named by the directory followed by the pieces of the request path after the first ones
(as many as `v` has), and changes neither the request nor the world. -/
theorem C42_handler (fs : ReadFile σ) (v d : Str) (c : Context U) (w : σ) :
    let p := pathOf (segments d ++ (segments c.request.path).drop (segments v).length)
    LooksOnlyAt (fun fs' : ReadFile σ => staticVirtualFileHandler fs' v d c) p ∧
    ∃ pr r, (staticVirtualFileHandler fs v d c).run w = ⟨.ok (.ok { c with response := some r }), w, pr⟩ ∧
      r.headers = none ∧ r.body.fails = false ∧
      (IsText (fs w p) → match fs w p with
        | .ok b => r.status = 200 ∧ r.body.bytes = b
        | .error e => r.status = 404 ∧ r.body.bytes = utf8 e) := by
  dsimp only
  refine ⟨fun fs fs' w h => ?_, ?_⟩
  · simp only [virtual_reads, Response.fileAct, Act.bind, Act.run, readToString, h]
  · rw [virtual_reads]
    obtain ⟨pr, r, h1, h2, h3, h4⟩ := run_file fs
      (pathOf (segments d ++ (segments c.request.path).drop (segments v).length)) c w
    exact ⟨pr, r, h1, h2, h3, fun ht => by rw [served_text ht] at h4; exact h4⟩

/-- A request below the wildcard that a static handler is registered at. -/
theorem static_served {prog : List (Reg (Middleware U σ) (Handler U σ))} (hc : CleanRegs prog) {a : App U σ}
    (hb : build prog = (a.router, none)) (hsm : NoStarMount (logOf prog)) {pre : List Str}
    {h : Handler U σ} (he : ⟨pre ++ [['*']], .route .get h⟩ ∈ logOf prog) (hns : NoStar pre)
    {req : Request U} {r0 : List Str} {x : Str} {xs : List Str} {b : List (Str × Str)}
    (hmeth : req.method = .get) (hm : Matches pre r0 b) (hp : segments req.path = r0 ++ x :: xs)
    (hch : chainFor a.router req.path = some []) {fs : ReadFile σ} {file : Str}
    (hf : ∀ c : Context U, c.request.path = req.path → h c =
      (Response.ok.fileAct fs file).bind fun r => .ret (c.build (.response r)).ok) (w : σ) :
    (∃ sent pr, (a.serve req).run w = ⟨.ok sent, w, pr⟩ ∧ FileAnswer (served fs w file) sent) ∨
    ∃ e ∈ logOf prog, e.what ≠ .nothing ∧ flat (pre ++ [x]) <+: flat e.segs ∧
      (∃ b', FlatMatch e.segs (segments req.path) b') ∧
      ∀ m', handlerFor a.router m' req.path = routeAt (logOf prog) (flat e.segs) m' := by
  obtain ⟨_, ⟨h1, _⟩ | h1⟩ := C03_wildcard_catches hc hb hsm he hm hns hp
  · exact .inl (serve_file (by rw [hmeth]; exact h1) hch hf w)
  · exact .inr h1

/-- **C42** for `use_static_to`: a GET request whose path is the virtual path followed by `x1, …, xn` is
answered with the file `d/x1/…/xn`, unless another registered path claims it (as for any wildcard, see
C03). -/
theorem C42_use_static_to {prog : List (Reg (Middleware U σ) (Handler U σ))} (hc : CleanRegs prog) {a : App U σ}
    (hb : build prog = (a.router, none)) (hsm : NoStarMount (logOf prog)) (fs : ReadFile σ) (v d : Str)
    (he : .useStaticTo fs v d ∈ prog) (hroot : NoRootMount prog) (hns : NoStar (segments v))
    {req : Request U} {r0 : List Str} {x : Str} {xs : List Str} {b : List (Str × Str)}
    (hmeth : req.method = .get) (hm : Matches (segments v) r0 b) (hp : segments req.path = r0 ++ x :: xs)
    (hch : chainFor a.router req.path = some []) (w : σ)
    (ht : IsText (fs w (pathOf (segments d ++ x :: xs)))) :
    (∃ sent pr, (a.serve req).run w = ⟨.ok sent, w, pr⟩ ∧
      FileAnswer (fs w (pathOf (segments d ++ x :: xs))) sent) ∨
    ∃ e ∈ logOf prog, e.what ≠ .nothing ∧ flat (segments v ++ [x]) <+: flat e.segs ∧
      (∃ b', FlatMatch e.segs (segments req.path) b') ∧
      ∀ m', handlerFor a.router m' req.path = routeAt (logOf prog) (flat e.segs) m' := by
  have he' : (⟨segments v ++ [['*']], .route .get (staticVirtualFileHandler fs v d)⟩ : Entry _ _) ∈ logOf prog := by
    have := mem_logOf_get hroot he
    rwa [segments_star] at this
  have hlen : r0.length = (segments v).length := matches_length hm hns
  have hf : ∀ c : Context U, c.request.path = req.path → staticVirtualFileHandler fs v d c =
      (Response.ok.fileAct fs (pathOf (segments d ++ x :: xs))).bind fun r => .ret (c.build (.response r)).ok := by
    intro c h
    rw [virtual_reads, h, hp, ← hlen, List.drop_left]
  have := static_served hc hb hsm he' hns hmeth hm hp hch hf w
  rwa [served_text ht] at this

/-- **C42** for `use_static`: the file is named by the whole request path. -/
theorem C42_use_static {prog : List (Reg (Middleware U σ) (Handler U σ))} (hc : CleanRegs prog) {a : App U σ}
    (hb : build prog = (a.router, none)) (hsm : NoStarMount (logOf prog)) (fs : ReadFile σ) (d : Str)
    (he : .useStatic fs d ∈ prog) (hroot : NoRootMount prog) (hns : Static (segments d))
    {req : Request U} {x : Str} {xs : List Str}
    (hmeth : req.method = .get) (hp : segments req.path = segments d ++ x :: xs)
    (hch : chainFor a.router req.path = some []) (w : σ)
    (ht : IsText (fs w (pathOf (segments d ++ x :: xs)))) :
    (∃ sent pr, (a.serve req).run w = ⟨.ok sent, w, pr⟩ ∧
      FileAnswer (fs w (pathOf (segments d ++ x :: xs))) sent) ∨
    ∃ e ∈ logOf prog, e.what ≠ .nothing ∧ flat (segments d ++ [x]) <+: flat e.segs ∧
      (∃ b', FlatMatch e.segs (segments req.path) b') ∧
      ∀ m', handlerFor a.router m' req.path = routeAt (logOf prog) (flat e.segs) m' := by
  have he' : (⟨segments d ++ [['*']], .route .get (staticDirFileHandler fs)⟩ : Entry _ _) ∈ logOf prog := by
    have := mem_logOf_get hroot he
    rwa [segments_star] at this
  have hf : ∀ c : Context U, c.request.path = req.path → staticDirFileHandler fs c =
      (Response.ok.fileAct fs (pathOf (segments d ++ x :: xs))).bind fun r => .ret (c.build (.response r)).ok := by
    intro c h
    rw [dir_reads, h, hp]
  have := static_served hc hb hsm he' (fun h => (hns _ h).2 rfl) hmeth (matches_static hns) hp hch hf w
  rwa [served_text ht] at this


/-- With a single static directory and nothing else, every GET request below the virtual path is
answered with a file. -/
theorem C42_alone {a : App U σ} (fs : ReadFile σ) (v d : Str)
    (hb : build [.useStaticTo fs v d] = (a.router, none)) (hc : CleanPath v) (hns : NoStar (segments v))
    {req : Request U} {r0 : List Str} {x : Str} {xs : List Str} {b : List (Str × Str)}
    (hmeth : req.method = .get) (hm : Matches (segments v) r0 b) (hp : segments req.path = r0 ++ x :: xs) (w : σ) :
    ∃ sent pr, (a.serve req).run w = ⟨.ok sent, w, pr⟩ ∧
      (IsText (fs w (pathOf (segments d ++ x :: xs))) →
        FileAnswer (fs w (pathOf (segments d ++ x :: xs))) sent) ∧
      (∀ bytes, fs w (pathOf (segments d ++ x :: xs)) = .ok bytes → (∀ t, utf8 t ≠ bytes) →
        FileAnswer (.error (s "stream did not contain valid UTF-8")) sent) := by
  have hlog : logOf [Reg.useStaticTo fs v d] =
      [(⟨segments v ++ [['*']], .route .get (staticVirtualFileHandler fs v d)⟩ :
        Entry (Middleware U σ) (Handler U σ))] := by
    simp only [logOf, logRegs, Reg.useStaticTo, logReg, segments_star, List.nil_append]
  have hclean : CleanRegs [(Reg.useStaticTo fs v d : Reg (Middleware U σ) (Handler U σ))] := by
    simp only [CleanRegs, CleanReg, Reg.useStaticTo, and_true, CleanPath, segments_star]
    intro t ht
    rcases List.mem_append.1 ht with ht | ht
    · exact hc t ht
    · simp at ht; subst ht; simp
  have he : (⟨segments v ++ [['*']], .route .get (staticVirtualFileHandler fs v d)⟩ : Entry _ _) ∈
      logOf [(Reg.useStaticTo fs v d : Reg (Middleware U σ) (Handler U σ))] := by rw [hlog]; simp
  have hsm : NoStarMount (logOf [(Reg.useStaticTo fs v d : Reg (Middleware U σ) (Handler U σ))]) := by
    exact noStarMount_of_noStar (by rw [hlog]; intro e he; simp at he; subst he; exact .inr ⟨_, rfl, hns, by simp⟩)
  have hcatch := C03_wildcard_catches hclean hb hsm he hm hns hp
  have hh : handlerFor a.router .get req.path = some (staticVirtualFileHandler fs v d) := by
    rcases hcatch.2 with ⟨h1, _⟩ | ⟨e, h1, _, _, _, h2⟩
    · exact h1
    · rw [h2]
      rw [hlog] at h1 ⊢
      simp at h1; subst h1
      simp [routeAt, Entry.isAt]
  have hch := chain_nil hclean hb (fun e he m => by rw [hlog] at he; simp at he; subst he; simp) hcatch.1
  have hlen : r0.length = (segments v).length := matches_length hm hns
  obtain ⟨sent, pr, h1, h2⟩ := serve_file (fs := fs) (path := pathOf (segments d ++ x :: xs)) (by rw [hmeth]; exact hh) hch
    (fun c h => by rw [virtual_reads, h, hp, ← hlen, List.drop_left]) w
  refine ⟨sent, pr, h1, fun ht => by rwa [served_text ht] at h2, fun bytes hf hb => ?_⟩
  rw [served_binary hf hb] at h2; exact h2

/-- The example: `use_static_to("/static", "public/assets")`. -/
def staticProg : List (Reg (Middleware demoU Files) (Handler demoU Files)) :=
  [.useStaticTo readFiles (s "/static") (s "public/assets")]

theorem staticProg_ok : (build staticProg).2 = none := by decide +kernel

def fileReq (path : String) : Request demoU := ⟨.get, s path, none, [], Extensions.empty, Body.empty⟩

theorem fileReq_path (p : String) : (fileReq p).path = s p := rfl

theorem static_static : Matches (segments (s "/static")) [s "static"] [] := by
  have : segments (s "/static") = [s "static"] := by decide +kernel
  rw [this]; exact matches_static (by decide +kernel)

example : ∃ sent pr, ((appOf staticProg_ok).serve (fileReq "/static//css/site.css")).run
      [(s "public/assets/css/site.css", utf8 (s "body {}"))] =
        ⟨.ok sent, [(s "public/assets/css/site.css", utf8 (s "body {}"))], pr⟩ ∧
    sent.status = 200 ∧ sent.body.bytes = utf8 (s "body {}") := by
  obtain ⟨sent, pr, h1, h2, _⟩ := C42_alone (a := appOf staticProg_ok) readFiles (s "/static") (s "public/assets")
    (build_eq staticProg_ok) (by decide +kernel) (by decide +kernel) (req := fileReq "/static//css/site.css") rfl
    static_static (x := s "css") (xs := [s "site.css"]) (by decide +kernel)
    [(s "public/assets/css/site.css", utf8 (s "body {}"))]
  have hf : readFiles [(s "public/assets/css/site.css", utf8 (s "body {}"))]
      (pathOf (segments (s "public/assets") ++ s "css" :: [s "site.css"])) = .ok (utf8 (s "body {}")) := by
    have : pathOf (segments (s "public/assets") ++ s "css" :: [s "site.css"]) = s "public/assets/css/site.css" := by
      decide +kernel
    rw [this, readFiles]; simp
  have := h2 (by rw [hf]; intro b hb; injection hb with hb; exact ⟨_, hb⟩)
  rw [hf] at this
  exact ⟨sent, pr, h1, this.2.2⟩

/-! ### C43 -/

/-- **C43 fails**: with `use_static_to("/static", "public/assets")`, the request
`/static/../../secrets/key` is answered with the file `secrets/key`, which is outside the directory,
whatever the working directory. -/
theorem C43_false (cwd : List Str) (content : Str) :
    let file := s "public/assets/../../secrets/key"
    (∃ sent pr, ((appOf staticProg_ok).serve (fileReq "/static/../../secrets/key")).run
        [(file, utf8 content)] = ⟨.ok sent, [(file, utf8 content)], pr⟩ ∧ sent.status = 200 ∧ sent.body.bytes = utf8 content) ∧
    locate cwd file = cwd ++ [s "secrets", s "key"] ∧
    ¬ locate cwd (s "public/assets") <+: locate cwd file := by
  dsimp only
  have hl : ∀ p, (s p).head? ≠ some '/' → locate cwd (s p) = (segments (s p)).foldl go cwd := by
    intro p hp; rw [locate, if_neg hp]
  have e1 : segments (s "public/assets/../../secrets/key") =
      [s "public", s "assets", s "..", s "..", s "secrets", s "key"] := by decide +kernel
  have e2 : segments (s "public/assets") = [s "public", s "assets"] := by decide +kernel
  have g : ∀ (l : List Str) (x : Str), x ≠ s "." → x ≠ s ".." → go l x = l ++ [x] := by
    intro l x h1 h2; rw [go, if_neg h1, if_neg h2]
  have gd : ∀ l : List Str, go l (s "..") = l.dropLast := by
    intro l; rw [go, if_neg (by decide +kernel), if_pos rfl]
  have l1 : locate cwd (s "public/assets/../../secrets/key") = cwd ++ [s "secrets", s "key"] := by
    rw [hl _ (by decide +kernel), e1]
    simp only [List.foldl_cons, List.foldl_nil, gd]
    rw [g _ (s "public") (by decide +kernel) (by decide +kernel), g _ (s "assets") (by decide +kernel) (by decide +kernel),
      List.dropLast_concat, List.dropLast_concat, g _ (s "secrets") (by decide +kernel) (by decide +kernel),
      g _ (s "key") (by decide +kernel) (by decide +kernel)]
    simp
  have l2 : locate cwd (s "public/assets") = cwd ++ [s "public", s "assets"] := by
    rw [hl _ (by decide +kernel), e2]
    simp only [List.foldl_cons, List.foldl_nil]
    rw [g _ (s "public") (by decide +kernel) (by decide +kernel), g _ (s "assets") (by decide +kernel) (by decide +kernel)]
    simp
  refine ⟨?_, l1, ?_⟩
  · obtain ⟨sent, pr, h1, h2, _⟩ := C42_alone (a := appOf staticProg_ok) readFiles (s "/static") (s "public/assets")
      (build_eq staticProg_ok) (by decide +kernel) (by decide +kernel) (req := fileReq "/static/../../secrets/key") rfl
      static_static (x := s "..") (xs := [s "..", s "secrets", s "key"]) (by decide +kernel)
      [(s "public/assets/../../secrets/key", utf8 content)]
    have hf : readFiles [(s "public/assets/../../secrets/key", utf8 content)]
        (pathOf (segments (s "public/assets") ++ s ".." :: [s "..", s "secrets", s "key"])) = .ok (utf8 content) := by
      have : pathOf (segments (s "public/assets") ++ s ".." :: [s "..", s "secrets", s "key"]) =
          s "public/assets/../../secrets/key" := by decide +kernel
      rw [this, readFiles]; simp
    have := h2 (by rw [hf]; intro b hb; injection hb with hb; exact ⟨_, hb⟩)
    rw [hf] at this
    exact ⟨sent, pr, h1, this.2.2⟩
  · rw [l1, l2, List.prefix_append_right_inj]
    decide +kernel

/-- **C43, what holds** for `use_static_to(v, d)` with a relative directory: if no piece of the request
path is `..`, only a file in the directory is looked at. Missing: requests with `..`, where the claim is
false, and absolute directories (see C56). -/
theorem C43_no_dots_partial (v d : Str) (hd : ¬ Absolute d) (c : Context U) (cwd : List Str)
    (h : NoDots (segments c.request.path)) :
    ∃ p, LooksOnlyAt (fun fs : ReadFile σ => staticVirtualFileHandler fs v d c) p ∧
      locate cwd d <+: locate cwd p := by
  refine ⟨pathOf (segments d ++ (segments c.request.path).drop (segments v).length), fun fs fs' w h => ?_, ?_⟩
  · simp only [virtual_reads, Response.fileAct, Act.bind, Act.run, readToString, h]
  · rw [locate_pathOf, List.foldl_append, locate, if_neg (show ¬ d.head? = some '/' from hd)]
    · exact go_prefix (fun t ht => h t (List.mem_of_mem_drop ht)) _
    · intro t ht
      rcases List.mem_append.1 ht with ht | ht
      · exact segments_names d t ht
      · exact segments_names _ t (List.mem_of_mem_drop ht)

example : ¬ Absolute (s "public/assets") ∧ NoDots (segments (s "/static/css/..%2f../site.css")) := by
  refine ⟨by unfold Absolute; decide +kernel, ?_⟩
  intro t ht
  have : segments (s "/static/css/..%2f../site.css") = [s "static", s "css", s "..%2f..", s "site.css"] := by
    decide +kernel
  rw [this] at ht
  simp only [List.mem_cons, List.not_mem_nil, or_false] at ht
  rcases ht with rfl | rfl | rfl | rfl <;> decide +kernel

/-- **C43, what holds** for `use_static(d)`: if the request path is the directory followed by pieces
other than `..`, only a file in the directory is looked at. Missing: requests with `..`, and requests
whose path is the directory only up to the slashes, where the claim is false. -/
theorem C43_use_static_partial (d : Str) (hd : ¬ Absolute d) (c : Context U) (cwd : List Str) {xs : List Str}
    (hp : segments c.request.path = segments d ++ xs) (h : NoDots xs) :
    ∃ p, LooksOnlyAt (fun fs : ReadFile σ => staticDirFileHandler fs c) p ∧
      locate cwd d <+: locate cwd p := by
  refine ⟨pathOf (segments c.request.path), fun fs fs' w h => ?_, ?_⟩
  · simp only [dir_reads, Response.fileAct, Act.bind, Act.run, readToString, h]
  · rw [locate_pathOf (segments_names _), hp, List.foldl_append, locate, if_neg (show ¬ d.head? = some '/' from hd)]
    exact go_prefix h _

/-- `use_static("/public")` and a route `/publish`. -/
def publishProg : List (Reg (Middleware demoU Files) (Handler demoU Files)) :=
  [.useStatic readFiles (s "/public"), .get (s "/publish") (fun c => .ret (.ok c))]

theorem publishProg_ok : (build publishProg).2 = none := by decide +kernel

theorem publishProg_clean : CleanRegs publishProg := by
  simp only [publishProg, Reg.useStatic, CleanRegs, CleanReg, and_true]; decide +kernel

/-- **C43 fails** also without `..`: with `use_static("/public")` and a route `/publish`, the request
`/publi/c/x` is dispatched to the static handler, which reads `publi/c/x`, outside `public`. -/
theorem C43_false_slashes (cwd : List Str) (content : Str) :
    (∃ sent pr, ((appOf publishProg_ok).serve (fileReq "/publi/c/x")).run [(s "publi/c/x", utf8 content)] =
      ⟨.ok sent, [(s "publi/c/x", utf8 content)], pr⟩ ∧ sent.status = 200 ∧ sent.body.bytes = utf8 content) ∧
    ¬ locate cwd (s "public") <+: locate cwd (s "publi/c/x") := by
  constructor
  · have hb := build_eq publishProg_ok
    have hl : lookup (logOf publishProg) (s "/publi/c/x") = some (s "public*", []) := by decide +kernel
    obtain ⟨h1, h2, _, _⟩ := (build_rep publishProg_clean hb).obs_some hl
    have hlog : logOf publishProg = [⟨[s "public", s "*"], .route .get (staticDirFileHandler readFiles)⟩,
        ⟨[s "publish"], .route .get (fun c => .ret (.ok c))⟩] := by
      have e1 : segments (s "/public" ++ "/*".toList) = [s "public", s "*"] := by decide +kernel
      have e2 : segments (s "/publish") = [s "publish"] := by decide +kernel
      simp only [publishProg, Reg.useStatic, logOf, logRegs, logReg, e1, e2, List.nil_append, List.cons_append]
    have hh : handlerFor (build publishProg).1 .get (s "/publi/c/x") = some (staticDirFileHandler readFiles) := by
      rw [h2, hlog]
      have e3 : flat [s "public", s "*"] = s "public*" := by decide +kernel
      have e4 : flat [s "publish"] ≠ s "public*" := by decide +kernel
      simp only [routeAt, Entry.isAt, List.filterMap_cons, List.filterMap_nil, e3, e4, decide_true, decide_false,
        if_true, Bool.false_eq_true, if_false]
      rfl
    have hch := chain_nil publishProg_clean hb (fun e he m => by
      rw [hlog] at he
      simp only [List.mem_cons, List.not_mem_nil, or_false] at he
      rcases he with rfl | rfl <;> simp) h1
    obtain ⟨sent, pr, h3, h4⟩ := serve_file (a := appOf publishProg_ok) (req := fileReq "/publi/c/x") (fs := readFiles)
      (path := pathOf (segments (s "/publi/c/x"))) (by rw [appOf_router]; exact hh) (by rw [appOf_router]; exact hch) (fun c h => by rw [dir_reads, h, fileReq_path])
      [(s "publi/c/x", utf8 content)]
    have hf : readFiles [(s "publi/c/x", utf8 content)] (pathOf (segments (s "/publi/c/x"))) = .ok (utf8 content) := by
      have : pathOf (segments (s "/publi/c/x")) = s "publi/c/x" := by decide +kernel
      rw [this, readFiles]; simp
    rw [served_text (by rw [hf]; intro b hb; injection hb with hb; exact ⟨_, hb⟩), hf] at h4
    exact ⟨sent, pr, h3, h4.2.2⟩
  · have hl : ∀ p, (s p).head? ≠ some '/' → locate cwd (s p) = (segments (s p)).foldl go cwd := by
      intro p hp; rw [locate, if_neg hp]
    have g : ∀ (l : List Str) (x : Str), x ≠ s "." → x ≠ s ".." → go l x = l ++ [x] := by
      intro l x h1 h2; rw [go, if_neg h1, if_neg h2]
    have e1 : segments (s "public") = [s "public"] := by decide +kernel
    have e2 : segments (s "publi/c/x") = [s "publi", s "c", s "x"] := by decide +kernel
    rw [hl _ (by decide +kernel), hl _ (by decide +kernel), e1, e2]
    simp only [List.foldl_cons, List.foldl_nil]
    rw [g _ (s "public") (by decide +kernel) (by decide +kernel), g _ (s "publi") (by decide +kernel) (by decide +kernel),
      g _ (s "c") (by decide +kernel) (by decide +kernel), g _ (s "x") (by decide +kernel) (by decide +kernel),
      List.append_assoc, List.append_assoc, List.prefix_append_right_inj]
    decide +kernel

/-! ### C44 -/

/-- What happens to static directories in scopes: if the handler of `use_static_to(v, d)` ends up below
`pre`, the pieces of `pre` count as the virtual path. -/
theorem C44_in_scopes {prog : List (Reg (Middleware U σ) (Handler U σ))} (hc : CleanRegs prog) {a : App U σ}
    (hb : build prog = (a.router, none)) (hsm : NoStarMount (logOf prog)) (fs : ReadFile σ) (v d : Str)
    {pre : List Str}
    (he : ⟨pre ++ segments v ++ [['*']], .route .get (staticVirtualFileHandler fs v d)⟩ ∈ logOf prog)
    (hns : NoStar (pre ++ segments v))
    {req : Request U} {r0 : List Str} {x : Str} {xs : List Str} {b : List (Str × Str)}
    (hmeth : req.method = .get) (hm : Matches (pre ++ segments v) r0 b) (hp : segments req.path = r0 ++ x :: xs)
    (hch : chainFor a.router req.path = some []) (w : σ) :
    let file := pathOf (segments d ++ (r0 ++ x :: xs).drop (segments v).length)
    (∃ sent pr, (a.serve req).run w = ⟨.ok sent, w, pr⟩ ∧ (IsText (fs w file) → FileAnswer (fs w file) sent)) ∨
    ∃ e ∈ logOf prog, e.what ≠ .nothing ∧ flat (pre ++ segments v ++ [x]) <+: flat e.segs ∧
      (∃ b', FlatMatch e.segs (segments req.path) b') ∧
      ∀ m', handlerFor a.router m' req.path = routeAt (logOf prog) (flat e.segs) m' := by
  dsimp only
  have hf : ∀ c : Context U, c.request.path = req.path → staticVirtualFileHandler fs v d c =
      (Response.ok.fileAct fs (pathOf (segments d ++ (r0 ++ x :: xs).drop (segments v).length))).bind
        fun r => .ret (c.build (.response r)).ok := by
    intro c h
    rw [virtual_reads, h, hp]
  rcases static_served hc hb hsm he hns hmeth hm hp hch hf w with ⟨sent, pr, h1, h2⟩ | h
  · exact .inl ⟨sent, pr, h1, fun ht => by rwa [served_text ht] at h2⟩
  · exact .inr h

/-- `scope("api", |r| r.use_static_to("/files", "pub"))`. -/
def scopeProg : List (Reg (Middleware demoU Files) (Handler demoU Files)) :=
  [.scope (s "api") [.useStaticTo readFiles (s "/files") (s "pub")]]

theorem scopeProg_ok : (build scopeProg).2 = none := by decide +kernel

theorem scopeProg_clean : CleanRegs scopeProg := by
  simp only [scopeProg, Reg.useStaticTo, CleanRegs, CleanReg, and_true]; decide +kernel

/-- **C44 fails**: the request `/api/files/a.txt` does not get the file `pub/a.txt` (the answer is 404 if
it is the only file), but `pub/files/a.txt`. -/
theorem C44_false (content : Str) :
    (∃ sent pr, ((appOf scopeProg_ok).serve (fileReq "/api/files/a.txt")).run [(s "pub/a.txt", utf8 content)] =
      ⟨.ok sent, [(s "pub/a.txt", utf8 content)], pr⟩ ∧ sent.status = 404) ∧
    (∃ sent pr, ((appOf scopeProg_ok).serve (fileReq "/api/files/a.txt")).run [(s "pub/files/a.txt", utf8 content)] =
      ⟨.ok sent, [(s "pub/files/a.txt", utf8 content)], pr⟩ ∧ sent.status = 200 ∧ sent.body.bytes = utf8 content) := by
  have hb := build_eq scopeProg_ok
  have hl : lookup (logOf scopeProg) (s "/api/files/a.txt") = some (s "apifiles*", []) := by decide +kernel
  obtain ⟨h1, h2, _, _⟩ := (build_rep scopeProg_clean hb).obs_some hl
  have hlog : logOf scopeProg = [⟨[s "api"], .nothing⟩, ⟨[s "api", s "files", s "*"], .route .get
      (staticVirtualFileHandler readFiles (s "/files") (s "pub"))⟩] := by
    have e1 : segments (s "/files" ++ "/*".toList) = [s "files", s "*"] := by decide +kernel
    have e2 : segments (s "api") = [s "api"] := by decide +kernel
    simp only [scopeProg, Reg.useStaticTo, logOf, logRegs, logReg, mountLog, e1, e2, List.nil_append,
      List.map_cons, List.map_nil, Entry.under, List.cons_append]
    rfl
  have hh : handlerFor (build scopeProg).1 .get (s "/api/files/a.txt") =
      some (staticVirtualFileHandler readFiles (s "/files") (s "pub")) := by
    rw [h2, hlog]
    have e3 : flat [s "api", s "files", s "*"] = s "apifiles*" := by decide +kernel
    have e4 : flat [s "api"] ≠ s "apifiles*" := by decide +kernel
    simp only [routeAt, Entry.isAt, List.filterMap_cons, List.filterMap_nil, e3, e4, decide_true, decide_false,
      if_true, Bool.false_eq_true, if_false]
    rfl
  have hch := chain_nil scopeProg_clean hb (fun e he m => by
    rw [hlog] at he
    simp only [List.mem_cons, List.not_mem_nil, or_false] at he
    rcases he with rfl | rfl <;> simp) h1
  have file : pathOf (segments (s "pub") ++ (segments (s "/api/files/a.txt")).drop (segments (s "/files")).length) =
      s "pub/files/a.txt" := by decide +kernel
  have serve := fun w => serve_file (a := appOf scopeProg_ok) (req := fileReq "/api/files/a.txt") (fs := readFiles)
      (path := s "pub/files/a.txt") (by rw [appOf_router]; exact hh) (by rw [appOf_router]; exact hch)
      (fun c h => by rw [virtual_reads, h, fileReq_path, file]) w
  constructor
  · obtain ⟨sent, pr, h3, h4⟩ := serve [(s "pub/a.txt", utf8 content)]
    have hf : readFiles [(s "pub/a.txt", utf8 content)] (s "pub/files/a.txt") =
        .error (s "No such file or directory (os error 2)") := by
      have : (s "pub/files/a.txt" == s "pub/a.txt") = false := by decide +kernel
      rw [readFiles, List.lookup, this]; rfl
    rw [served_text (by rw [hf]; intro b hb; exact nomatch hb), hf] at h4
    exact ⟨sent, pr, h3, h4.2.2.1⟩
  · obtain ⟨sent, pr, h3, h4⟩ := serve [(s "pub/files/a.txt", utf8 content)]
    have hf : readFiles [(s "pub/files/a.txt", utf8 content)] (s "pub/files/a.txt") = .ok (utf8 content) := by
      rw [readFiles]; simp
    rw [served_text (by rw [hf]; intro b hb; injection hb with hb; exact ⟨_, hb⟩), hf] at h4
    exact ⟨sent, pr, h3, h4.2.2⟩

/-- **C44, what holds**: a router with a static directory that is mounted at the root works like
outside. Missing: all other scopes, where the claim is false. -/
theorem C44_root_partial {a : App U σ} (fs : ReadFile σ) (p v d : Str) (hroot : segments p = [])
    (hb : build [.useRouter p [.useStaticTo fs v d]] = (a.router, none)) (hc : CleanPath v) (hns : NoStar (segments v))
    {req : Request U} {r0 : List Str} {x : Str} {xs : List Str} {b : List (Str × Str)}
    (hmeth : req.method = .get) (hm : Matches (segments v) r0 b) (hp : segments req.path = r0 ++ x :: xs) (w : σ)
    (ht : IsText (fs w (pathOf (segments d ++ x :: xs)))) :
    ∃ sent pr, (a.serve req).run w = ⟨.ok sent, w, pr⟩ ∧
      FileAnswer (fs w (pathOf (segments d ++ x :: xs))) sent := by
  have hlog : logOf [.useRouter p [Reg.useStaticTo fs v d]] =
      [(⟨segments v ++ [['*']], .route .get (staticVirtualFileHandler fs v d)⟩ :
        Entry (Middleware U σ) (Handler U σ))] := by
    simp only [logOf, logRegs, Reg.useStaticTo, logReg, segments_star, List.nil_append, mountLog, hroot, if_true]
  have hclean : CleanRegs [(.useRouter p [Reg.useStaticTo fs v d] : Reg (Middleware U σ) (Handler U σ))] := by
    simp only [CleanRegs, CleanReg, Reg.useStaticTo, and_true, CleanPath, segments_star, hroot]
    refine ⟨fun t ht => absurd ht (by simp), fun t ht => ?_⟩
    rcases List.mem_append.1 ht with ht | ht
    · exact hc t ht
    · simp at ht; subst ht; simp
  have he : (⟨[] ++ segments v ++ [['*']], .route .get (staticVirtualFileHandler fs v d)⟩ : Entry _ _) ∈
      logOf [(.useRouter p [Reg.useStaticTo fs v d] : Reg (Middleware U σ) (Handler U σ))] := by rw [hlog]; simp
  have hsm : NoStarMount (logOf [(.useRouter p [Reg.useStaticTo fs v d] : Reg (Middleware U σ) (Handler U σ))]) :=
    noStarMount_of_noStar (by rw [hlog]; intro e he; simp at he; subst he; exact .inr ⟨_, rfl, hns, by simp⟩)
  have hcatch := C03_wildcard_catches hclean hb hsm he hm hns hp
  have hh : handlerFor a.router .get req.path = some (staticVirtualFileHandler fs v d) := by
    rcases hcatch.2 with ⟨h1, _⟩ | ⟨e, h1, _, _, _, h2⟩
    · exact h1
    · rw [h2]
      rw [hlog] at h1 ⊢
      simp at h1; subst h1
      simp [routeAt, Entry.isAt]
  have hch := chain_nil hclean hb (fun e he m => by rw [hlog] at he; simp at he; subst he; simp) hcatch.1
  have hlen : r0.length = (segments v).length := matches_length hm hns
  obtain ⟨sent, pr, h1, h2⟩ := serve_file (fs := fs) (path := pathOf (segments d ++ x :: xs)) (by rw [hmeth]; exact hh) hch
    (fun c h => by rw [virtual_reads, h, hp, ← hlen, List.drop_left]) w
  exact ⟨sent, pr, h1, by rwa [served_text ht] at h2⟩

example : (build [(.useRouter (s "/") [.useStaticTo readFiles (s "/static") (s "public")] :
    Reg (Middleware demoU Files) (Handler demoU Files))]).2 = none ∧ segments (s "/") = [] := by decide +kernel

/-! ### C56 -/

/-- **C56 fails**: the leading slash of the directory is lost. With `use_static_to(v, "/var/www")`, and
a server that is not started in `/`, no file of `/var/www` is ever read, unless the server runs in a
directory above it through some `..`. -/
theorem C56_false (v x : Str) (hx : x ≠ s "." ∧ x ≠ s "..") (c : Context U)
    (hc : (segments c.request.path).drop (segments v).length = [x]) :
    let cwd := [s "home", s "app"]
    ∃ p, LooksOnlyAt (fun fs : ReadFile σ => staticVirtualFileHandler fs v (s "/var/www") c) p ∧
      locate cwd (s "/var/www") = [s "var", s "www"] ∧
      locate cwd p = [s "home", s "app", s "var", s "www", x] := by
  dsimp only
  have hxs : x ∈ segments c.request.path := List.mem_of_mem_drop (by rw [hc]; simp)
  refine ⟨pathOf (segments (s "/var/www") ++ [x]), fun fs fs' w h => ?_, by decide +kernel, ?_⟩
  · simp only [virtual_reads, Response.fileAct, Act.bind, Act.run, readToString, hc, h]
  · rw [locate_pathOf, List.foldl_append]
    · have : (segments (s "/var/www")).foldl go [s "home", s "app"] = [s "home", s "app", s "var", s "www"] := by
        decide +kernel
      rw [this, List.foldl_cons, List.foldl_nil, go, if_neg hx.1, if_neg hx.2]
      rfl
    · intro t ht
      rcases List.mem_append.1 ht with ht | ht
      · exact segments_names _ t ht
      · simp at ht; subst ht; exact segments_names _ _ hxs

/-- **C56, what holds**: with a relative directory, or a server started in the root directory, the file
that is read is the one reached from the directory along the pieces of the request path. Missing:
absolute directories with another working directory, where the claim is false. -/
theorem C56_relative_partial (v d : Str) (cwd : List Str) (hd : ¬ Absolute d ∨ cwd = []) (c : Context U) :
    ∃ p, LooksOnlyAt (fun fs : ReadFile σ => staticVirtualFileHandler fs v d c) p ∧
      locate cwd p = ((segments c.request.path).drop (segments v).length).foldl go (locate cwd d) := by
  refine ⟨pathOf (segments d ++ (segments c.request.path).drop (segments v).length), fun fs fs' w h => ?_, ?_⟩
  · simp only [virtual_reads, Response.fileAct, Act.bind, Act.run, readToString, h]
  · rw [locate_pathOf, List.foldl_append, locate]
    · split
      · next h =>
        rcases hd with hd | hd
        · exact absurd h hd
        · rw [hd]
      · rfl
    · intro t ht
      rcases List.mem_append.1 ht with ht | ht
      · exact segments_names d t ht
      · exact segments_names _ t (List.mem_of_mem_drop ht)

example : locate [s "home", s "app"] (s "../data/./pub") = [s "home", s "data", s "pub"] := by decide +kernel

/-! ### C57 -/

/-- **C57 fails**: a file that is not UTF-8 text (an image, say) is answered with 404. -/
theorem C57_false (bytes : Bytes) (hb : ∀ t, utf8 t ≠ bytes) :
    let w : Files := [(s "public/assets/logo.png", bytes)]
    readFiles w (s "public/assets/logo.png") = .ok bytes ∧
    ∃ sent pr, ((appOf staticProg_ok).serve (fileReq "/static/logo.png")).run w = ⟨.ok sent, w, pr⟩ ∧
      sent.status = 404 := by
  dsimp only
  have hf : readFiles [(s "public/assets/logo.png", bytes)] (s "public/assets/logo.png") = .ok bytes := by
    rw [readFiles]; simp
  refine ⟨hf, ?_⟩
  obtain ⟨sent, pr, h1, _, h2⟩ := C42_alone (a := appOf staticProg_ok) readFiles (s "/static") (s "public/assets")
    (build_eq staticProg_ok) (by decide +kernel) (by decide +kernel) (req := fileReq "/static/logo.png") rfl
    static_static (x := s "logo.png") (xs := []) (by decide +kernel) [(s "public/assets/logo.png", bytes)]
  have : pathOf (segments (s "public/assets") ++ [s "logo.png"]) = s "public/assets/logo.png" := by decide +kernel
  rw [this] at h2
  exact ⟨sent, pr, h1, (h2 bytes hf hb).2.2.1⟩

example : ∀ t, utf8 t ≠ [0x89, 0x50, 0x4E, 0x47] := by
  intro t h
  have := fromUtf8_eq.2 h
  have e : fromUtf8 [0x89, 0x50, 0x4E, 0x47] = none := by decide +kernel
  rw [e] at this; exact nomatch this

/-- **C57, what holds**: a readable file that is UTF-8 text is answered with 200 and its content, in any
context in which the handler runs. Missing: other files, where the claim is false. -/
theorem C57_text_partial (fs : ReadFile σ) (v d : Str) (c : Context U) (w : σ) (text : Str)
    (h : fs w (pathOf (segments d ++ (segments c.request.path).drop (segments v).length)) = .ok (utf8 text)) :
    ∃ r, (staticVirtualFileHandler fs v d c).run w = ⟨.ok (.ok { c with response := some r }), w, []⟩ ∧
      r.status = 200 ∧ r.body.bytes = utf8 text ∧ r.body.fails = false := by
  refine ⟨Response.ok.file (.ok text), ?_, rfl, (bytes_ofStr text).1, (bytes_ofStr text).2⟩
  rw [virtual_reads]
  simp only [Response.fileAct, Act.bind, Act.run, readToString, h, fromUtf8_eq.2 rfl]
  rfl

end Obsidian.Props
