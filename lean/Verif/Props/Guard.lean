import Verif.Spec.Guard
import Verif.Props.Middleware
import Verif.Props.Blind

/- C96: middlewares that guard a path. -/
namespace Obsidian.Props
open Obsidian Spec
variable {M H : Type} {U : Univ} {σ : Type}

/-- Where a request for something below a registered path can lead: below the path, or to a wildcard
above it. -/
theorem find_below {L : Log M H} (h : Tidy L) {e : Entry M H} (he : e ∈ L) {post first : List Str}
    {b : List (Str × Str)} (hm : Matches post first b) : ∀ pre, e.segs = pre ++ post → NoStar post →
    ∀ rest, (∀ x ∈ first ++ rest, x ≠ []) → ∀ q b', find L (flat pre) (first ++ rest) = some (q, b') →
      flat e.segs <+: q ∨ ∃ u v, flat e.segs = u ++ v ∧ v ≠ [] ∧ q = u ++ ['*'] := by
  induction hm with
  | nil =>
    intro pre hpre _ rest hne q b' hf
    rw [List.append_nil] at hpre
    rw [hpre]
    exact .inl (find_prefix hne hf).1
  | wild _ => intro pre _ hs; simp [NoStar] at hs
  | @static x ps rs b h1 h2 hm ih =>
    intro pre hpre hstar rest hne q b' hf
    obtain ⟨_, hp, hk⟩ := h.seg he hpre
    have hx := h.clean e he x (by rw [hpre]; simp)
    have hk' := head_star_of hx h2
    have ih := ih (pre ++ [x]) (by simp [hpre]) (fun hx => hstar (by simp [hx])) rest
      (fun y hy => hne y (by simp at hy ⊢; exact .inr hy))
    have hfl : flat (pre ++ [x]) = flat pre ++ x := by simp [flat_append]
    have hall : flat e.segs = flat pre ++ (x ++ flat ps) := by rw [hpre, flat_append]; simp [flat]
    rw [hfl] at ih
    rw [List.cons_append, find, hp h1] at hf
    have hwild : (if known L (flat pre ++ ['*']) then some (flat pre ++ ['*'], ([] : List (Str × Str))) else none) =
        some (q, b') → ∃ u v, flat e.segs = u ++ v ∧ v ≠ [] ∧ q = u ++ ['*'] := by
      intro hq
      split at hq
      · cases hq
        exact ⟨_, _, hall, by simp [hx.ne_nil], rfl⟩
      · cases hq
    dsimp only at hf
    rw [if_pos ⟨hk', hk⟩] at hf
    by_cases hr : (rs ++ rest).isEmpty = true
    · have hrs : rs = [] := by simp at hr; exact hr.1
      have hps : ps = [] := by
        subst hrs
        cases hm with
        | nil => rfl
        | wild h => simp at h
      subst hps
      simp only [flat, List.append_nil] at hall
      rw [if_pos hr] at hf
      split at hf
      · next r hr' =>
        split at hr'
        · cases hf; cases hr'
          left; rw [hall]; exact List.prefix_refl _
        · split at hr'
          · cases hf; cases hr'
            left; rw [hall]; exact List.prefix_append _ _
          · cases hr'
      · exact .inr (hwild hf)
    · rw [if_neg hr] at hf
      split at hf
      · next r hr' => cases hf; exact ih _ _ hr'
      · exact .inr (hwild hf)
  | @param x v ps rs b hm ih =>
    intro pre hpre hstar rest hne q b' hf
    obtain ⟨hp, _, hk⟩ := h.seg he hpre
    have ih := ih (pre ++ [':' :: x]) (by simp [hpre]) (fun hx => hstar (by simp [hx])) rest
      (fun y hy => hne y (by simp at hy ⊢; exact .inr hy))
    have hfl : flat (pre ++ [':' :: x]) = flat pre ++ ':' :: x := by simp [flat_append]
    have hall : flat e.segs = flat pre ++ (':' :: x ++ flat ps) := by rw [hpre, flat_append]; simp [flat]
    rw [hfl] at ih
    rw [List.cons_append, find, hp x rfl] at hf
    dsimp only at hf
    by_cases hr : (rs ++ rest).isEmpty = true
    · have hrs : rs = [] := by simp at hr; exact hr.1
      have hps : ps = [] := by
        subst hrs
        cases hm with
        | nil => rfl
        | wild h => simp at h
      subst hps
      simp only [flat, List.append_nil] at hall
      rw [if_pos hr] at hf
      split at hf
      · cases hf; left; rw [hall]; exact List.prefix_refl _
      · cases hf
    · rw [if_neg hr, Option.map_eq_some_iff] at hf
      obtain ⟨⟨r, b''⟩, h1, h2⟩ := hf
      cases h2
      exact ih _ _ h1

theorem lookup_below {L : Log M H} (h : Tidy L) {e : Entry M H} (he : e ∈ L) (hs : NoStar e.segs) {path : Str}
    (hb : Below e.segs (segments path)) {q : Str} {b : List (Str × Str)} (hl : lookup L path = some (q, b)) :
    flat e.segs <+: q ∨ ∃ u v, flat e.segs = u ++ v ∧ v ≠ [] ∧ q = u ++ ['*'] := by
  obtain ⟨first, rest, b', h1, hm⟩ := hb
  have hne := segments_ne path
  rw [lookup] at hl
  by_cases h0 : segments path = []
  · rw [h0] at h1
    obtain ⟨rfl, rfl⟩ := List.append_eq_nil_iff.1 h1.symm
    left
    generalize e.segs = es at hm
    cases hm with
    | nil => simp [flat]
    | wild h => simp at h
  · rw [if_neg h0] at hl
    cases hf : find L [] (segments path) with
    | none => rw [hf] at hl; cases hl
    | some r =>
      rw [hf] at hl
      obtain ⟨q', b''⟩ := r
      dsimp only at hl
      split at hl
      · cases hl
        rw [h1] at hf hne
        exact find_below h he hm [] rfl hs rest hne _ _ hf
      · cases hl

theorem mem_chain_flat {L : Log M H} {Q : List Str} {q : Str} {m : M}
    (hm : (⟨Q, .middleware m⟩ : Entry M H) ∈ L) (hQ : flat Q <+: q) : m ∈ Spec.chain L q := by
  have hat : m ∈ mwsAt L (flat Q) := mem_mwsAt.2 ⟨_, hm, rfl, rfl⟩
  obtain ⟨t, rfl⟩ := hQ
  rw [Spec.chain, List.mem_append]
  by_cases h0 : flat Q = []
  · left; rwa [h0] at hat
  · right; exact mem_upTo.2 ⟨flat Q, t, rfl, h0, by simpa using hat⟩

/-- **C96 fails**: a middleware for `/admin`, and the request `/admin/secret`, which is served by the
handler of `/*` without it. -/
theorem C96_false : ∃ (prog : Prog) (r : Router Nat Nat), CleanRegs prog ∧ build prog = (r, none) ∧
    prog = [.get (s "/*") 1, .useServiceTo (s "/admin") 7, .get (s "/admin/users") 2] ∧
    Below (segments (s "/admin")) (segments (s "/admin/secret")) ∧
    handlerFor r .get (s "/admin/secret") = some 1 ∧ chainFor r (s "/admin/secret") = some [] ∧
    chainFor r (s "/admin/users") = some [7] := by
  refine ⟨_, _, ?_, build_eq (by decide +kernel), rfl, ?_, by decide +kernel, by decide +kernel, by decide +kernel⟩
  · simp only [CleanRegs, CleanReg]; decide +kernel
  · exact ⟨[s "admin"], [s "secret"], [], by decide +kernel, by
      rw [show segments (s "/admin") = [s "admin"] by decide +kernel]
      exact .static (by decide +kernel) (by decide +kernel) .nil⟩

/-- **C96 fails** for paths with a wildcard: a middleware for `/admin/*` is not called for `/admin/users`. -/
theorem C96_star_false : ∃ (prog : Prog) (r : Router Nat Nat), CleanRegs prog ∧ build prog = (r, none) ∧
    prog = [.useServiceTo (s "/admin/*") 7, .get (s "/admin/users") 2] ∧
    Below (segments (s "/admin/*")) (segments (s "/admin/users")) ∧
    handlerFor r .get (s "/admin/users") = some 2 ∧ chainFor r (s "/admin/users") = some [] := by
  refine ⟨_, _, ?_, build_eq (by decide +kernel), rfl, ?_, by decide +kernel, by decide +kernel⟩
  · simp only [CleanRegs, CleanReg]; decide +kernel
  · exact ⟨[s "admin", s "users"], [], [], by decide +kernel, by
      rw [show segments (s "/admin/*") = [s "admin", ['*']] by decide +kernel]
      exact .static (by decide +kernel) (by decide +kernel) (.wild (by simp))⟩

theorem star_route {L : Log M H} (ht : Tidy L) {u : Str} {m : Method} {h : H}
    (hk : routeAt L (u ++ ['*']) m = some h) : ∃ P, ⟨P ++ [['*']], .route m h⟩ ∈ L ∧ flat P = u := by
  obtain ⟨e, he, hf, hw⟩ := routeAt_mem hk
  obtain ⟨P, post, h3, rfl⟩ := star_seg (u := []) (ht.clean e he) hf
  have hpost : post = [] := by
    rw [h3, flat_append, flat] at hf
    have : flat post = [] := by simpa using hf
    cases post with
    | nil => rfl
    | cons x post =>
      have := ht.ne he x (by rw [h3]; simp)
      simp_all [flat]
  subst hpost
  refine ⟨P, ?_, rfl⟩
  rw [← h3]; obtain ⟨es, w⟩ := e; cases hw; exact he

/-- **C96, what holds**: a request for the guarded path (without wildcard) or for something below it is
served by a handler only if the middleware is in its chain, or if the handler is one of a wildcard above
the path.  Missing: those wildcards, where it is false. -/
theorem C96_guarded_partial {prog : List (Reg M H)} (hc : CleanRegs prog) {r : Router M H}
    (hb : build prog = (r, none)) {Q : List Str} {g : M} (hg : ⟨Q, .middleware g⟩ ∈ logOf prog) (hs : NoStar Q)
    {path : Str} (hpath : Below Q (segments path)) {m : Method} {h : H} (hh : handlerFor r m path = some h) :
    (∃ c, chainFor r path = some c ∧ g ∈ c) ∨
    ∃ P, ⟨P ++ [['*']], .route m h⟩ ∈ logOf prog ∧ flat P <+: flat Q ∧ flat P ≠ flat Q := by
  have hr := build_rep hc hb
  obtain ⟨q, b, hl, hk⟩ := hr.handler hh
  rcases lookup_below hr.tidy hg hs hpath hl with hq | ⟨u, v, h1, h2, rfl⟩
  · exact .inl ⟨_, (hr.obs_some hl).2.2.1, mem_chain_flat hg hq⟩
  · right
    obtain ⟨P, hP, hPu⟩ := star_route hr.tidy hk
    exact ⟨P, hP, by rw [hPu, h1]; exact List.prefix_append _ _, by rw [hPu, h1]; simpa using h2⟩

theorem each_eq {α : Type} {xs ys : List α} (h : Each (fun a b => a = b) xs ys) : xs = ys := by
  induction h with
  | nil => rfl
  | cons h _ ih => rw [h, ih]

theorem chain_logged {prog : List (Reg M H)} (hc : CleanRegs prog) {r : Router M H} (hb : build prog = (r, none))
    {path : Str} {c : List M} (hch : chainFor r path = some c) (m : M) (hm : m ∈ c) :
    ∃ e ∈ logOf prog, e.what = .middleware m := by
  obtain ⟨e, _, _, _, h⟩ := C14_only_below_partial hc hb hch
  obtain ⟨Q, hQ, _⟩ := h m hm
  exact ⟨_, hQ, rfl⟩

theorem execNext_barred {D : Context U → Prop} {g : Middleware U σ} (hg : Bars D g) (h h' : Handler U σ)
    (pre post : List (Middleware U σ)) (hpre : ∀ m ∈ pre, Preserves D m) (c : Context U) (hc : D c) :
    execNext h (pre ++ g :: post) c = execNext h' (pre ++ g :: post) c := by
  induction pre generalizing c with
  | nil => exact hg c hc _ _
  | cons m pre ih =>
    rw [List.cons_append, execNext, execNext]
    exact hpre m (by simp) c hc _ _ fun c' hc' => ih (fun m hm => hpre m (by simp [hm])) c' hc'

/-- What is called before the guard. -/
theorem chain_guard {L : Log M H} {Q : List Str} {g : M} (hg : (⟨Q, .middleware g⟩ : Entry M H) ∈ L) {q : Str}
    (hq : flat Q <+: q) : ∃ pre post, Spec.chain L q = pre ++ g :: post ∧
      ∀ m ∈ pre, ∃ e ∈ L, e.what = .middleware m ∧ CanPrecede Q e.segs := by
  have hat : g ∈ mwsAt L (flat Q) := mem_mwsAt.2 ⟨_, hg, rfl, rfl⟩
  obtain ⟨a, b, hab⟩ := List.append_of_mem hat
  obtain ⟨t, rfl⟩ := hq
  have hlog : ∀ p, ∀ m ∈ mwsAt L p, ∃ e ∈ L, e.what = .middleware m ∧ flat e.segs = p := by
    intro p m hm
    obtain ⟨e, he, h1, h2⟩ := mem_mwsAt.1 hm
    exact ⟨e, he, h2, h1⟩
  by_cases h0 : flat Q = []
  · rw [h0] at hab
    refine ⟨a, b ++ upTo L [] (flat Q ++ t), by rw [Spec.chain, hab]; simp, fun m hm => ?_⟩
    obtain ⟨e, he, h1, h2⟩ := hlog [] m (by rw [hab]; simp [hm])
    exact ⟨e, he, h1, .inl h2⟩
  · obtain ⟨w, x, hw⟩ : ∃ w x, flat Q = w ++ [x] := ⟨_, _, (List.dropLast_concat_getLast h0).symm⟩
    have hup : upTo L [] (flat Q) = mwsAt L (flat Q) ++ upTo L [] w := by
      rw [hw, upTo_append]; simp [upTo]
    refine ⟨mwsAt L [] ++ upTo L (flat Q) t ++ a, b ++ upTo L [] w, ?_, fun m hm => ?_⟩
    · rw [Spec.chain, upTo_append, List.nil_append, hup, hab]; simp
    · rcases List.mem_append.1 hm with hm | hm
      · rcases List.mem_append.1 hm with hm | hm
        · obtain ⟨e, he, h1, h2⟩ := hlog [] m hm
          exact ⟨e, he, h1, .inl h2⟩
        · obtain ⟨u, v, _, _, h3⟩ := mem_upTo.1 hm
          obtain ⟨e, he, h1, h2⟩ := hlog _ m h3
          exact ⟨e, he, h1, .inr ⟨h0, h2 ▸ List.prefix_append _ _⟩⟩
      · obtain ⟨e, he, h1, h2⟩ := hlog (flat Q) m (by rw [hab]; simp [hm])
        exact ⟨e, he, h1, .inr ⟨h0, h2 ▸ List.prefix_refl _⟩⟩

theorem chain_barred {L : Log (Middleware U σ) (Handler U σ)} {Q : List Str} {g : Middleware U σ}
    (hg : ⟨Q, .middleware g⟩ ∈ L) {D : Context U → Prop} (hbar : Bars D g)
    (hkeep : ∀ e ∈ L, ∀ m, e.what = .middleware m → CanPrecede Q e.segs → Preserves D m) {q : Str}
    (hq : flat Q <+: q) (h h' : Handler U σ) (c : Context U) (hc : D c) :
    execNext h (Spec.chain L q) c = execNext h' (Spec.chain L q) c := by
  obtain ⟨pre, post, h1, h2⟩ := chain_guard hg hq
  rw [h1]
  refine execNext_barred hbar h h' pre post (fun m hm => ?_) c hc
  obtain ⟨e, he, h3, h4⟩ := h2 m hm
  exact hkeep e he m h3 h4

/-- **C96**, what it is for: where a middleware for a path bars requests, what the handlers of the
application do makes no difference to such a request for the path or for something below it, if no
wildcard above the path has a route for its method. -/
theorem C96_barred_partial {prog prog' : List (Reg (Middleware U σ) (Handler U σ))}
    (hal : Alike (fun m m' => m = m') (fun _ _ => True) prog prog') (hc : CleanRegs prog) {a a' : App U σ}
    (hb : build prog = (a.router, none)) (hb' : build prog' = (a'.router, none)) (hst : a'.appState = a.appState)
    {Q : List Str} {g : Middleware U σ} (hg : ⟨Q, .middleware g⟩ ∈ logOf prog) (hs : NoStar Q)
    {D : Context U → Prop} (hbar : Bars D g)
    (hkeep : ∀ e ∈ logOf prog, ∀ m, e.what = .middleware m → CanPrecede Q e.segs → Preserves D m)
    {req : Request U} (hreq : Below Q (segments req.path)) (hD : ∀ c, Starts a req c → D c)
    (hw : ∀ P h, ⟨P ++ [['*']], .route req.method h⟩ ∈ logOf prog → flat P <+: flat Q → flat P = flat Q) :
    a'.serve req = a.serve req := by
  obtain ⟨_, hfor, hch, hpar⟩ := (C82_routing_blind hal).2 req.path
  have e1 : (build prog).1 = a.router := by rw [hb]
  have e2 : (build prog').1 = a'.router := by rw [hb']
  rw [e1, e2] at hfor hch hpar
  cases hh : handlerFor a.router req.method req.path with
  | none =>
    have hh' : handlerFor a'.router req.method req.path = none := by
      have := hfor req.method
      rw [hh] at this
      generalize handlerFor a'.router req.method req.path = o at this
      cases this; rfl
    rw [serve_none hh, serve_none hh']
  | some h =>
    obtain ⟨h', hh'⟩ : ∃ h', handlerFor a'.router req.method req.path = some h' := by
      have := hfor req.method
      rw [hh] at this
      generalize handlerFor a'.router req.method req.path = o at this
      cases this; exact ⟨_, rfl⟩
    obtain ⟨ch, c, k1, k2, k3⟩ := serve_some hh
    obtain ⟨ch', c', k1', k2', k3'⟩ := serve_some hh'
    have hcc : c = c' := (k2.congr hpar hst.symm).unique k2'
    have hchs : ch' = ch := by
      rw [k1, k1'] at hch
      cases hch with
      | some hch => exact (each_eq hch).symm
    subst hcc hchs
    obtain ⟨q, b, hl, hk⟩ := (build_rep hc hb).handler hh
    have hq : flat Q <+: q := by
      rcases lookup_below (build_rep hc hb).tidy hg hs hreq hl with hq | ⟨u, v, h1, h2, rfl⟩
      · exact hq
      · obtain ⟨P, hP, hPu⟩ := star_route (build_rep hc hb).tidy hk
        exact absurd (hw P h hP (hPu ▸ h1 ▸ List.prefix_append _ _)) (by rw [hPu, h1]; simpa using h2)
    rw [((build_rep hc hb).obs_some hl).2.2.1] at k1
    injection k1 with k1
    subst k1
    rw [k3, k3', chain_barred hg hbar hkeep hq h' h c (hD c k2)]

/-! ### C97 -/

/-- The entry without its handler. -/
def bare (e : Entry M H) : Entry M Unit :=
  ⟨e.segs, match e.what with | .route m _ => .route m () | .middleware m => .middleware m | .nothing => .nothing⟩

theorem known_bare (L : Log M H) (q : Str) : known (L.map bare) q = known L q := by
  simp only [known, List.any_map]; rfl

theorem paramAt_bare (L : Log M H) (p : Str) : paramAt (L.map bare) p = paramAt L p := by
  simp only [paramAt, List.flatMap_map]; rfl

theorem hasEntry_bare (L : Log M H) (q : Str) : hasEntry (L.map bare) q = hasEntry L q := by
  simp only [hasEntry, List.any_map]
  congr 1; funext e
  obtain ⟨ss, w⟩ := e
  cases w <;> rfl

theorem mwsAt_bare (L : Log M H) (q : Str) : mwsAt (L.map bare) q = mwsAt L q := by
  simp only [mwsAt, List.filterMap_map]
  congr 1; funext e
  obtain ⟨ss, w⟩ := e
  cases w <;> rfl

theorem routeAt_bare (L : Log M H) (q : Str) (m : Method) :
    routeAt (L.map bare) q m = (routeAt L q m).map fun _ => () := by
  simp only [routeAt, List.filterMap_map, ← List.getLast?_map, List.map_filterMap]
  congr 2; funext e
  obtain ⟨ss, w⟩ := e
  cases w with
  | route m' h =>
    simp only [Function.comp, bare, Entry.isAt]
    by_cases h1 : flat ss = q
    · by_cases h2 : m' = m <;> simp [h1, h2]
    · simp [h1]
  | middleware _ => simp only [Function.comp, bare, Entry.isAt]; by_cases h1 : flat ss = q <;> simp [h1]
  | nothing => simp only [Function.comp, bare, Entry.isAt]; by_cases h1 : flat ss = q <;> simp [h1]

theorem same_bare {Q : List Str} {L L' : Log M H} (h : SameButBelow Q L L') : L'.map bare = L.map bare := by
  induction h with
  | nil => rfl
  | cons h _ ih =>
    rw [List.map_cons, List.map_cons, ih]
    rcases h with rfl | ⟨_, m, h, h', h1, h2⟩
    · rfl
    · rw [h1, h2]; rfl

theorem same_route {Q : List Str} {L L' : Log M H} (h : SameButBelow Q L L') {q : Str}
    (hq : ∀ e ∈ L, flat e.segs = q → ¬ Q <+: e.segs) (m : Method) : routeAt L' q m = routeAt L q m := by
  rw [routeAt, routeAt]
  congr 1
  induction h with
  | nil => rfl
  | @cons e e' L L' h _ ih =>
    have ih := ih fun e he => hq e (by simp [he])
    rw [List.filterMap_cons, List.filterMap_cons, ih]
    rcases h with rfl | ⟨h0, m', h, h', h1, h2⟩
    · rfl
    · have hne : ¬ flat e.segs = q := fun hf => hq e (by simp) hf h0
      have n1 : e.isAt q = false := by simp [Entry.isAt, hne]
      have n2 : e'.isAt q = false := by rw [h2]; simp [Entry.isAt, hne]
      rw [n1, n2]; rfl

theorem upTo_mws {L L' : Log M H} (h : ∀ q, mwsAt L' q = mwsAt L q) (q : Str) :
    Spec.chain L' q = Spec.chain L q := by
  rw [Spec.chain, Spec.chain, h, upTo_congr h]

/-- **C97.** Where a middleware for a path bars requests, the handlers that are registered at the path or
below it make no difference to such a request, whatever its path and however it is written: with any
other handlers in their places, the application does the same. -/
theorem C97_behind_a_guard {prog prog' : List (Reg (Middleware U σ) (Handler U σ))} {Q : List Str}
    (hsame : SameButBelow Q (logOf prog) (logOf prog')) (hc : CleanRegs prog) (hc' : CleanRegs prog')
    {a a' : App U σ} (hb : build prog = (a.router, none)) (hb' : build prog' = (a'.router, none))
    (hst : a'.appState = a.appState) {g : Middleware U σ} (hg : ⟨Q, .middleware g⟩ ∈ logOf prog)
    {D : Context U → Prop} (hbar : Bars D g)
    (hkeep : ∀ e ∈ logOf prog, ∀ m, e.what = .middleware m → CanPrecede Q e.segs → Preserves D m)
    {req : Request U} (hD : ∀ c, Starts a req c → D c) : a'.serve req = a.serve req := by
  have hr := build_rep hc hb
  have hr' := build_rep hc' hb'
  have hbare := same_bare hsame
  have hlook : lookup (logOf prog') req.path = lookup (logOf prog) req.path := by
    refine lookup_congr (fun p => ?_) (fun p => ?_) (fun p => ?_) _
    · rw [← paramAt_bare, hbare, paramAt_bare]
    · rw [← known_bare, hbare, known_bare]
    · rw [← hasEntry_bare, hbare, hasEntry_bare]
  cases hl : lookup (logOf prog) req.path with
  | none =>
    have hl' := hlook.trans hl
    rw [serve_none ((hr.obs_none hl).2.1 _), serve_none ((hr'.obs_none hl').2.1 _)]
  | some qb =>
    obtain ⟨q, b⟩ := qb
    have hl' := hlook.trans hl
    obtain ⟨_, h2, h3, h4⟩ := hr.obs_some hl
    obtain ⟨_, h2', h3', h4'⟩ := hr'.obs_some hl'
    have hchain : Spec.chain (logOf prog') q = Spec.chain (logOf prog) q :=
      upTo_mws (fun q => by rw [← mwsAt_bare, hbare, mwsAt_bare]) q
    have hpar : ∀ x, paramFor a.router req.path x = paramFor a'.router req.path x := fun x => by rw [h4, h4']
    have hrb : (routeAt (logOf prog') q req.method).map (fun _ => ()) =
        (routeAt (logOf prog) q req.method).map fun _ => () := by
      rw [← routeAt_bare, hbare, routeAt_bare]
    cases hh : routeAt (logOf prog) q req.method with
    | none =>
      rw [hh] at hrb
      have hh' : routeAt (logOf prog') q req.method = none := by simpa using hrb
      rw [serve_none (a := a) (by rw [h2, hh]), serve_none (a := a') (by rw [h2', hh'])]
    | some h =>
      obtain ⟨h', hh'⟩ : ∃ h', routeAt (logOf prog') q req.method = some h' := by
        rw [hh] at hrb
        cases hx : routeAt (logOf prog') q req.method with
        | none => rw [hx] at hrb; cases hrb
        | some h' => exact ⟨h', rfl⟩
      obtain ⟨ch, c, k1, k2, k3⟩ := serve_some (a := a) (req := req) (by rw [h2, hh])
      obtain ⟨ch', c', k1', k2', k3'⟩ := serve_some (a := a') (req := req) (by rw [h2', hh'])
      have hcc : c = c' := (k2.congr hpar hst.symm).unique k2'
      rw [h3] at k1; rw [h3', hchain] at k1'
      injection k1 with k1; injection k1' with k1'
      subst k1 k1' hcc
      rw [k3, k3']
      by_cases hbelow : ∃ e ∈ logOf prog, flat e.segs = q ∧ Q <+: e.segs
      · obtain ⟨e, he, rfl, hQ⟩ := hbelow
        obtain ⟨t, hQ⟩ := hQ
        have hq : flat Q <+: flat e.segs := by rw [← hQ, flat_append]; exact List.prefix_append _ _
        rw [chain_barred hg hbar hkeep hq h' h c (hD c k2)]
      · have := same_route hsame (fun e he h1 h2 => hbelow ⟨e, he, h1, h2⟩) req.method
        rw [hh, hh'] at this
        cases this; rfl

/-- Requests without the header `authorization`. -/
def Anonymous (c : Context demoU) : Prop := c.request.headers.lookup (s "authorization") = none

instance (c : Context demoU) : Decidable (Anonymous c) := by unfold Anonymous; infer_instance

/-- A middleware that lets only requests with this header through. -/
def authorize : Middleware demoU W := fun c next =>
  if Anonymous c then .ret (c.build (.status 403)).ok else next c

/-- A middleware that adds the header: it undoes the condition, but is called after the guard. -/
def impersonate : Middleware demoU W := fun c next =>
  next { c with request := { c.request with headers := (s "authorization", s "x") :: c.request.headers } }

/-- An application with a guarded path. -/
def guardedProg (secret : Handler demoU W) : List (Reg (Middleware demoU W) (Handler demoU W)) :=
  [.useService (tickMiddleware 5), .useServiceTo (s "/admin") authorize, .useServiceTo (s "/adm") impersonate,
   .get (s "/admin/users") secret, .get (s "/hello") (sayHandler 1 "hi")]

theorem guardedProg_log (h : Handler demoU W) : logOf (guardedProg h) =
    [⟨[], .middleware (tickMiddleware 5)⟩, ⟨[s "admin"], .middleware authorize⟩,
     ⟨[s "adm"], .middleware impersonate⟩, ⟨[s "admin", s "users"], .route .get h⟩, ⟨[s "hello"], .route .get (sayHandler 1 "hi")⟩] := by
  have h1 : segments (s "/admin") = [s "admin"] := by decide +kernel
  have h4 : segments (s "/adm") = [s "adm"] := by decide +kernel
  have h2 : segments (s "/admin/users") = [s "admin", s "users"] := by decide +kernel
  have h3 : segments (s "/hello") = [s "hello"] := by decide +kernel
  simp only [guardedProg, logOf, logRegs, logReg, h1, h2, h3, h4, List.nil_append, List.cons_append]
  simp

theorem guardedProg_ok (h : Handler demoU W) : (build (guardedProg h)).2 = none := by
  have h1 := (C82_renamed (M := Unit) (H := Bool) (fun _ => tickMiddleware 5)
    (fun b => if b then h else sayHandler 1 "hi")
    [.useService (), .useServiceTo (s "/admin") (), .useServiceTo (s "/adm") (), .get (s "/admin/users") true, .get (s "/hello") false]).1
  have h2 := (C82_routing_blind (RM := fun _ _ => True) (RH := fun h h' => h' = h) (prog := guardedProg h)
    (prog' := mapCalls (fun _ => tickMiddleware 5) (fun b => if b then h else sayHandler 1 "hi")
      [.useService (), .useServiceTo (s "/admin") (), .useServiceTo (s "/adm") (), .get (s "/admin/users") true, .get (s "/hello") false])
    (.cons (.useService trivial) (.cons (.useServiceTo trivial) (.cons (.useServiceTo trivial)
      (.cons (.get rfl) (.cons (.get rfl) .nil)))))).1
  rw [← h2, h1]; decide +kernel

theorem guardedProg_clean (h : Handler demoU W) : CleanRegs (guardedProg h) := by
  simp only [guardedProg, CleanRegs, CleanReg, and_true, true_and]; decide +kernel

/-- The application. -/
def guardedApp (secret : Handler demoU W) : App demoU W := ⟨(build (guardedProg secret)).1, none⟩

theorem guardedApp_build (h : Handler demoU W) : build (guardedProg h) = ((guardedApp h).router, none) := by
  simp only [guardedApp]; exact build_eq (guardedProg_ok h)

theorem guardedApp_state (h : Handler demoU W) : (guardedApp h).appState = none := by rw [guardedApp]

theorem guarded_keeps (h : Handler demoU W) :
    ∀ e ∈ logOf (guardedProg h), ∀ m, e.what = .middleware m → CanPrecede [s "admin"] e.segs → Preserves Anonymous m := by
  intro e he m hm hp
  rw [guardedProg_log] at he
  simp only [List.mem_cons, List.not_mem_nil, or_false] at he
  rcases he with rfl | rfl | rfl | rfl | rfl
  · cases hm; intro c hc n n' hn; simp only [tickMiddleware, hn c hc]
  · cases hm; intro c hc n n' _; simp only [authorize, if_pos hc]
  · exact absurd hp (by simp [CanPrecede, flat, s])
  · cases hm
  · cases hm

theorem authorize_bars : Bars Anonymous authorize := fun c hc n n' => by simp only [authorize, if_pos hc]

/-- C96: a request without the header for `/admin/users`, or anything else below `/admin`, is treated alike
by the applications with two different handlers. -/
example (h h' : Handler demoU W) (path : String) (hp : Below [s "admin"] (segments (s path))) :
    (guardedApp h').serve (demoReq .get path) = (guardedApp h).serve (demoReq .get path) := by
  refine C96_barred_partial (prog := guardedProg h) (prog' := guardedProg h') (Q := [s "admin"]) (g := authorize)
    (D := Anonymous)
    (.cons (.useService rfl) (.cons (.useServiceTo rfl) (.cons (.useServiceTo rfl)
      (.cons (.get trivial) (.cons (.get trivial) .nil)))))
    (guardedProg_clean h) (guardedApp_build h) (guardedApp_build h') (by rw [guardedApp_state, guardedApp_state]) ?_ (by decide +kernel)
    authorize_bars (guarded_keeps h) hp ?_ ?_
  · rw [guardedProg_log]; simp
  · intro c hc; show c.request.headers.lookup _ = none; rw [hc.headers]; rfl
  · intro P k hk
    rw [guardedProg_log] at hk
    simp only [List.mem_cons, List.not_mem_nil, or_false, Entry.mk.injEq, reduceCtorEq, and_false, false_or] at hk
    rcases hk with ⟨hk, _⟩ | ⟨hk, _⟩
    · have := congrArg List.getLast? hk
      simp [s] at this
    · have := congrArg List.getLast? hk
      simp [s] at this

example : Below [s "admin"] (segments (s "/admin/users")) :=
  ⟨[s "admin"], [s "users"], [], by decide +kernel, .static (by decide +kernel) (by decide +kernel) .nil⟩

/-- C97: the handler behind the guard has no influence on requests without the header, for any path. -/
example (h h' : Handler demoU W) (path : String) :
    (guardedApp h').serve (demoReq .get path) = (guardedApp h).serve (demoReq .get path) := by
  refine C97_behind_a_guard (prog := guardedProg h) (prog' := guardedProg h') (Q := [s "admin"])
    (g := authorize) (D := Anonymous) ?_ (guardedProg_clean _) (guardedProg_clean _)
    (guardedApp_build h) (guardedApp_build h') (by rw [guardedApp_state, guardedApp_state]) ?_
    authorize_bars (guarded_keeps h) ?_
  · rw [guardedProg_log, guardedProg_log]
    exact .cons (.inl rfl) (.cons (.inl rfl) (.cons (.inl rfl)
      (.cons (.inr ⟨⟨[s "users"], rfl⟩, _, _, _, rfl, rfl⟩) (.cons (.inl rfl) .nil))))
  · rw [guardedProg_log]; simp
  · intro c hc; show c.request.headers.lookup _ = none; rw [hc.headers]; rfl

/-- The guard answers with 403, and the handler is reached with the header. -/
example : (((guardedApp (sayHandler 2 "secret")).serve (demoReq .get "/admin/users")).run 0).out.toOption.map (·.status) =
      some 403 ∧
    (((guardedApp (sayHandler 2 "secret")).serve
      ⟨.get, s "/admin/users", none, [(s "authorization", s "x")], Extensions.empty, Body.empty⟩).run 0).out.toOption.map
        (fun x => (x.status, x.body.bytes)) = some (200, utf8 (s "secret")) := by decide +kernel

end Obsidian.Props
