import Verif.Props.Example

/-
C89: the pages of the example application that are files.
-/
namespace Obsidian.Props
open Obsidian Spec
variable {U : Univ} {σ : Type} {M H : Type}

/-! ### The pages that read files -/

/-- The request is answered with the file: if it can be read and is text, 200 and the text; otherwise 404 and
why not. -/
def AnswersFile (fs : ReadFile σ) (name : Str) (req : Request U) (host : Str) (act : Act σ Sent) : Prop :=
  ∀ w, ∃ sent lines, act.run w = ⟨.ok sent, w, .debug :: .text (requestLine req host) :: lines⟩ ∧
    (∀ k, sent.headers.get k = none) ∧ sent.body.fails = false ∧
    (∀ text, fs w name = .ok (utf8 text) → sent.status = 200 ∧ sent.body.bytes = utf8 text ∧ lines = []) ∧
    (∀ why, fs w name = .error why → sent.status = 404 ∧ sent.body.bytes = utf8 why ∧ lines = [.error why]) ∧
    (∀ bytes, fs w name = .ok bytes → (∀ text, bytes ≠ utf8 text) → sent.status = 404)

theorem file_runs (fs : ReadFile σ) (name : Str) (c : Context U) (w : σ) :
    ∃ R lines, ((Response.ok.fileAct fs name).bind fun r => Act.ret (c.build (.response r)).ok).run w =
        ⟨.ok (.ok { c with response := some R }), w, lines⟩ ∧ headerList R = [] ∧ R.body.fails = false ∧
      (∀ text, fs w name = .ok (utf8 text) → R.status = 200 ∧ R.body.bytes = utf8 text ∧ lines = []) ∧
      (∀ why, fs w name = .error why → R.status = 404 ∧ R.body.bytes = utf8 why ∧ lines = [.error why]) ∧
      (∀ bytes, fs w name = .ok bytes → (∀ text, bytes ≠ utf8 text) → R.status = 404) := by
  cases hf : fs w name with
  | error why =>
    refine ⟨Response.ok.file (.error why), [.error why], ?_, rfl, (bytes_ofStr _).2, nofun, ?_, nofun⟩
    · simp only [Response.fileAct, Act.bind, Act.run, readToString, hf]; rfl
    · intro why' h; injection h with h; subst h; exact ⟨rfl, (bytes_ofStr _).1, rfl⟩
  | ok bytes =>
    cases hu : fromUtf8 bytes with
    | some text =>
      have hu' := fromUtf8_eq.1 hu
      refine ⟨Response.ok.file (.ok text), [], ?_, rfl, (bytes_ofStr _).2, ?_, nofun, ?_⟩
      · simp only [Response.fileAct, Act.bind, Act.run, readToString, hf, hu]; rfl
      · intro text' h; injection h with h; rw [← h, ← hu']; exact ⟨rfl, (bytes_ofStr _).1, rfl⟩
      · intro b h hn; injection h with h; exact absurd (h.symm.trans hu'.symm) (hn text)
    | none =>
      refine ⟨Response.ok.file (.error notUtf8), [.error notUtf8], ?_, rfl, (bytes_ofStr _).2, ?_, nofun, ?_⟩
      · simp only [Response.fileAct, Act.bind, Act.run, readToString, hf, hu]; rfl
      · intro text' h; injection h with h; rw [fromUtf8_eq.2 h.symm] at hu; exact nomatch hu
      · intro b h hn; rfl

theorem file_answers {env : ExampleEnv U σ} {a : App U σ} (hb : build (exampleProg env) = (a.router, none))
    {req : Request U} {host : Str} (hs : hostOf req = some host) (hv : Visible host)
    {h : ExampleHandler} (hh : handlerFor (build exTable).1 req.method req.path = some h) {name : Str}
    (hrun : ∀ c, Prepared env req c → h.run env c = (Response.ok.fileAct env.fs name).bind fun r => .ret (c.build (.response r)).ok) :
    AnswersFile env.fs name req host (a.serve req) := by
  intro w
  obtain ⟨c, hc, hserve⟩ := (example_runs hb hh).1 host hs hv
  obtain ⟨R, lines, r1, r2, r3, r4, r5, r6⟩ := file_runs env.fs name c w
  obtain ⟨m, f1, f2⟩ := finish_response (c := { c with response := some R }) (r := R) rfl (by rw [r2]; simp)
  refine ⟨⟨R.status, m, R.body⟩, lines, ?_, fun k => by rw [f2, r2]; rfl, r3, r4, r5, r6⟩
  rw [hserve, hrun c hc]
  have : (((Response.ok.fileAct env.fs name).bind fun r => Act.ret (c.build (.response r)).ok).run w).out =
      .ok (.ok { c with response := some R }) := by rw [r1]
  simp only [Act.run_print, Act.run_bind_ok this, r1, f1]
  simp [Act.ofPure]

/-- **C89**: the pages of the example that are files. -/
theorem C89_files_partial {env : ExampleEnv U σ} {a : App U σ} (hb : build (exampleProg env) = (a.router, none))
    {req : Request U} (hm : req.method = .get) {host : Str} (hs : hostOf req = some host) (hv : Visible host) :
    (segments req.path = [s "jsontest"] → AnswersFile env.fs (s "./testjson.html") req host (a.serve req)) ∧
    (segments req.path = [s "form", s "formtest"] → AnswersFile env.fs (s "/.test.html") req host (a.serve req)) ∧
    (∀ rest, segments req.path = s "files" :: rest →
      AnswersFile env.fs (pathOf (s "assets" :: rest)) req host (a.serve req)) := by
  refine ⟨fun h => ?_, fun h => ?_, fun rest h => ?_⟩
  · have hseg : segments (s "/jsontest") = [s "jsontest"] := by decide +kernel
    refine file_answers hb hs hv (h := .jsonTest) (by rw [c06_handler _ (h.trans hseg.symm), hm]; decide +kernel) (fun c hc => ?_)
    rw [ExampleHandler.run]; simp only [Context.buildFileAct, Act.bind_assoc]; rfl
  · have hseg : segments (s "/form/formtest") = [s "form", s "formtest"] := by decide +kernel
    refine file_answers hb hs hv (h := .formTest) (by rw [c06_handler _ (h.trans hseg.symm), hm]; decide +kernel) (fun c hc => ?_)
    rw [ExampleHandler.run]; simp only [Context.buildFileAct, Act.bind_assoc]; rfl
  · refine file_answers hb hs hv (h := .files) (by rw [below_files h, hm]; rfl) (fun c hc => ?_)
    rw [ExampleHandler.run, virtual_reads, hc.path, h,
      show segments "/files/".toList = [s "files"] by decide +kernel, show segments "/assets/".toList = [s "assets"] by decide +kernel]
    rfl

end Obsidian.Props
