import Verif.Props.Middleware
import Verif.Props.Dispatch
import Verif.Props.Static
import Verif.Props.Percent
import Verif.Spec.Form

/-
C75: requests that global middlewares do not see.  C76: files that requests cannot name.
-/
namespace Obsidian.Props
open Obsidian Spec
variable {U : Univ} {σ : Type}

/-! ### C75 -/

theorem unknown_nowhere : isFound demoApp.router (demoReq .get "/nowhere").path = false := by decide +kernel

theorem known_hello : isFound demoApp.router (s "/hello") = true := by decide +kernel

theorem no_delete_hello : handlerFor demoApp.router (demoReq .delete "/hello").method (demoReq .delete "/hello").path = none :=
  Option.isNone_iff_eq_none.1 (by decide +kernel)

/-- **C75 is false**: a global middleware that counts every request does not see a request for an
unknown path, nor one with a method that has no handler. -/
theorem C75_false :
    ∃ (prog : List (Reg (Middleware demoU W) (Handler demoU W))) (g : Middleware demoU W) (a : App demoU W),
      .useService g ∈ prog ∧ build prog = (a.router, none) ∧
      (∀ (c : Context demoU) (r : ContextResult demoU) (w : W), ((g c fun _ => .ret r).run w).world ≠ w) ∧
      isFound a.router (s "/nowhere") = false ∧ isFound a.router (s "/hello") = true ∧
      AnswersOnly (a.serve (demoReq .get "/nowhere")) 404 "404 Not Found" ∧
      AnswersOnly (a.serve (demoReq .delete "/hello")) 404 "404 Not Found" := by
  refine ⟨demoAppProg, tickMiddleware 5, demoApp, by rw [demoAppProg]; exact List.mem_cons_self, by rw [demoApp_router]; exact demoAppProg_build, ?_,
    unknown_nowhere, known_hello, C25_unknown_paths demoApp (demoReq .get "/nowhere") unknown_nowhere,
    C24_no_handler demoApp (demoReq .delete "/hello") no_delete_hello⟩
  intro c r w
  have : ((tickMiddleware 5 c fun _ => .ret r).run w).world = (w + 5) * 2 := rfl
  rw [this]
  show (Nat.mul (Nat.add w 5) 2 : Nat) ≠ w
  have : Nat.mul (Nat.add w 5) 2 = (w + 5 : Nat) * 2 := rfl
  omega

/-- **C75, what holds**: the first global middleware receives every request that has a handler, before
anything else runs, and its result is what is answered.  Missing: the other requests, which nothing sees
(C24, C25); later global middlewares, which run if the earlier ones call `next` (C26). -/
theorem C75_handled_partial {prog : List (Reg (Middleware U σ) (Handler U σ))} (hn : NoRootMount prog)
    {a : App U σ} (hb : build prog = (a.router, none)) {g : Middleware U σ} {gs : List (Middleware U σ)}
    (hg : services prog = g :: gs) (req : Request U) {h : Handler U σ}
    (hh : handlerFor a.router req.method req.path = some h) :
    ∃ c next, Starts a req c ∧ a.serve req = (g c next).bind (fun r => .ofPure (finish r)) := by
  obtain ⟨chain, c, h1, h2, h3⟩ := serve_some hh
  have hf : isFound a.router req.path = true := by
    rw [handlerFor] at hh
    rw [isFound]
    split at hh
    · simp
    · simp at hh
  obtain ⟨rest, h4, _⟩ := C12_services_first hn hb hf
  rw [h1] at h4
  injection h4 with h4
  subst h4
  rw [hg, List.cons_append, execNext] at h3
  exact ⟨c, _, h2, h3⟩

theorem demoAppProg_noRootMount : NoRootMount demoAppProg := by
  intro c hc p sub h
  simp only [demoAppProg, List.mem_cons, List.not_mem_nil, or_false] at hc
  rcases hc with rfl | rfl | rfl | rfl | rfl <;> simp at h

theorem demoAppProg_services : services demoAppProg = [tickMiddleware 5] := by
  simp only [services, demoAppProg, List.filterMap_cons, List.filterMap_nil]

example : ∃ c next, Starts demoApp (demoReq .get "/hello") c ∧
    demoApp.serve (demoReq .get "/hello") =
      (tickMiddleware 5 c next).bind (fun r => .ofPure (finish r)) :=
  C75_handled_partial (prog := demoAppProg) (a := demoApp) demoAppProg_noRootMount
    (by rw [demoApp_router]; exact demoAppProg_build)
    (gs := []) demoAppProg_services (demoReq .get "/hello") (h := sayHandler 1 "hi")
    (demoApp_handler (ss := [s "hello"]) (by rw [demoAppProg_log]; simp [demoReq]) (by decide +kernel)
      (by decide +kernel))

/-! ### C76 -/

/-- **C76 is false**: the file `my file.txt` exists; the request that a client has to send for it is
answered with 404. -/
theorem C76_false (content : Str) :
    let files := [(s "public/assets/my file.txt", utf8 content)]
    WritesSegment (s "my file.txt") (s "my%20file.txt") ∧
    ∃ sent pr, ((appOf staticProg_ok).serve (fileReq "/static/my%20file.txt")).run files =
      ⟨.ok sent, files, pr⟩ ∧ sent.status = 404 := by
  dsimp only
  refine ⟨?_, ?_⟩
  · have e1 : utf8 (s "my file.txt") = [109, 121] ++ ([32] ++ [102, 105, 108, 101, 46, 116, 120, 116]) := by
      decide +kernel
    have e2 : utf8 (s "my%20file.txt") =
        [109, 121] ++ (([37, 50, 48] ++ []) ++ [102, 105, 108, 101, 46, 116, 120, 116]) := by decide +kernel
    rw [WritesSegment, e1, e2]
    refine pathBytes_append (pathBytes_plain (by decide)) (pathBytes_append
      (.cons (.percent (m := 2) (n := 0) ?_ ?_ ?_) .nil) (pathBytes_plain (by decide)))
    all_goals first | exact .inr (by decide +kernel) | decide +kernel
  · obtain ⟨sent, pr, h1, h2, _⟩ := C42_alone (a := appOf staticProg_ok) readFiles (s "/static") (s "public/assets")
      (build_eq staticProg_ok) (by decide +kernel) (by decide +kernel) (req := fileReq "/static/my%20file.txt") rfl
      static_static (x := s "my%20file.txt") (xs := []) (by decide +kernel)
      [(s "public/assets/my file.txt", utf8 content)]
    have hf : readFiles [(s "public/assets/my file.txt", utf8 content)]
        (pathOf (segments (s "public/assets") ++ s "my%20file.txt" :: [])) =
        .error (s "No such file or directory (os error 2)") := by
      have : pathOf (segments (s "public/assets") ++ s "my%20file.txt" :: []) = s "public/assets/my%20file.txt" := by
        decide +kernel
      have h' : (s "public/assets/my%20file.txt" == s "public/assets/my file.txt") = false := by decide +kernel
      rw [this, readFiles, List.lookup, h']; rfl
    have := h2 (by rw [hf]; intro b hb; simp at hb)
    rw [hf] at this
    exact ⟨sent, pr, h1, this.2.2.1⟩

theorem segment_plain {text seg : Str} (hw : WritesSegment text seg) (hn : 37 ∉ utf8 seg) : text = seg := by
  have := fromUtf8_eq.2 ((pathBytes_length hw).2.1 hn)
  rw [fromUtf8_eq.2 rfl] at this
  injection this with this
  exact this.symm

/-- **C76, what holds**: files whose names are sent without percent signs (byte 37) are served. Missing:
other names, which are not decoded: the file that is looked for has the percent signs in its name. -/
theorem C76_plain_partial {a : App U σ} (fs : ReadFile σ) (v d : Str)
    (hb : build [.useStaticTo fs v d] = (a.router, none)) (hc : CleanPath v) (hs : Static (segments v))
    {req : Request U} (hmeth : req.method = .get) {names segs : List Str} (hne : segs ≠ [])
    (hp : segments req.path = segments v ++ segs) (hw : Each WritesSegment names segs)
    (hpl : ∀ seg ∈ segs, 37 ∉ utf8 seg) (w : σ)
    (ht : IsText (fs w (pathOf (segments d ++ names)))) :
    ∃ sent pr, (a.serve req).run w = ⟨.ok sent, w, pr⟩ ∧
      FileAnswer (fs w (pathOf (segments d ++ names))) sent := by
  have he : names = segs := by
    clear hp hne ht
    induction hw with
    | nil => rfl
    | cons h1 _ ih => rw [segment_plain h1 (hpl _ List.mem_cons_self), ih fun s hs => hpl s (List.mem_cons_of_mem _ hs)]
  subst he
  cases names with
  | nil => exact absurd rfl hne
  | cons x xs =>
    obtain ⟨sent, pr, h1, h2, _⟩ := C42_alone fs v d hb hc (noStar_static hs) hmeth (matches_static hs) hp w
    exact ⟨sent, pr, h1, h2 ht⟩

example : ∃ sent pr, ((appOf staticProg_ok).serve (fileReq "/static/my+file.txt")).run
      [(s "public/assets/my+file.txt", utf8 (s "hello"))] =
        ⟨.ok sent, [(s "public/assets/my+file.txt", utf8 (s "hello"))], pr⟩ ∧
    sent.status = 200 ∧ sent.body.bytes = utf8 (s "hello") := by
  have hf : readFiles [(s "public/assets/my+file.txt", utf8 (s "hello"))]
      (pathOf (segments (s "public/assets") ++ [s "my+file.txt"])) = .ok (utf8 (s "hello")) := by
    have : pathOf (segments (s "public/assets") ++ [s "my+file.txt"]) = s "public/assets/my+file.txt" := by
      decide +kernel
    rw [this, readFiles]; simp
  obtain ⟨sent, pr, h1, h2⟩ := C76_plain_partial (a := appOf staticProg_ok) readFiles (s "/static") (s "public/assets")
    (build_eq staticProg_ok) (by decide +kernel) (by decide +kernel) (req := fileReq "/static/my+file.txt") rfl
    (names := [s "my+file.txt"]) (segs := [s "my+file.txt"]) (by simp) (by decide +kernel)
    (.cons (pathBytes_plain (by decide +kernel)) .nil) (by decide +kernel)
    [(s "public/assets/my+file.txt", utf8 (s "hello"))]
    (by rw [hf]; intro b hb; injection hb with hb; exact ⟨_, hb⟩)
  rw [hf] at h2
  exact ⟨sent, pr, h1, h2.2.2⟩

end Obsidian.Props
