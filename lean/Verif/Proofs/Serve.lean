import Verif.Proofs.Act
import Verif.Props.Total
import Verif.Spec.Server

/- Serving a request in terms of what can be observed of the router. -/
namespace Obsidian
open Spec
variable {U : Univ} {σ : Type}

theorem serve_none {a : App U σ} {req : Request U}
    (h : handlerFor a.router req.method req.path = none) : a.serve req = .ret pageNotFound := by
  obtain ⟨res, hr⟩ := Props.C21_lookup_total a.router req.path
  rw [handlerFor, hr] at h
  rw [App.serve, hr]
  cases res with
  | none => rfl
  | some v =>
    simp only [Option.map_eq_none_iff] at h
    simp only [resolveEndpoint, h]

theorem serve_some {a : App U σ} {req : Request U} {h : Handler U σ}
    (hh : handlerFor a.router req.method req.path = some h) :
    ∃ chain c, chainFor a.router req.path = some chain ∧ Starts a req c ∧
      a.serve req = (execNext h chain c).bind (fun r => .ofPure (finish r)) := by
  obtain ⟨res, hr⟩ := Props.C21_lookup_total a.router req.path
  rw [handlerFor, hr] at hh
  cases res with
  | none => simp at hh
  | some v =>
    simp only [Option.map_eq_some_iff] at hh
    obtain ⟨route, h1, rfl⟩ := hh
    refine ⟨v.getMiddlewares, match a.appState with
        | some ⟨t, x⟩ => (Context.new req v.getParams).add t x
        | none => Context.new req v.getParams, by rw [chainFor, hr], ?_, ?_⟩
    · cases hs : a.appState with
      | none => exact ⟨rfl, rfl, rfl, rfl, rfl, fun x => by rw [paramFor, hr]; rfl, rfl,
          fun t v h => by simp [hs] at h, fun _ => rfl⟩
      | some tv =>
        obtain ⟨t, x⟩ := tv
        refine ⟨rfl, rfl, rfl, rfl, rfl, fun x => by rw [paramFor, hr]; rfl, rfl, ?_, ?_⟩
        · intro t' v' h
          rw [hs] at h
          injection h with h
          injection h with h1 h2
          subst h1
          rw [eq_of_heq h2]; rfl
        · intro h; simp [hs] at h
    · rw [App.serve, hr]
      simp only [resolveEndpoint, h1]
      cases a.appState <;> rfl

/-- The initial context is determined by the application and the request. -/
theorem Spec.Starts.unique {a : App U σ} {req : Request U} {c c' : Context U} (h : Starts a req c)
    (h' : Starts a req c') : c = c' := by
  obtain ⟨⟨m, p, q, hs, e, b⟩, pd, r⟩ := c
  obtain ⟨⟨m', p', q', hs', e', b'⟩, pd', r'⟩ := c'
  obtain ⟨h1, h2, h3, h4, h5, h6, h7, h8, h9⟩ := h
  obtain ⟨k1, k2, k3, k4, k5, k6, k7, k8, k9⟩ := h'
  simp only at *
  have hp : pd = pd' := funext fun x => by rw [h6, k6]
  have he : e = e' := by
    cases hs : a.appState with
    | none => rw [h9 hs, k9 hs]
    | some tv => obtain ⟨t, v⟩ := tv; rw [h8 t v hs, k8 t v hs]
  subst h1 h2 h3 h4 h5 h7 k1 k2 k3 k4 k5 k7 hp he
  rfl

/-- Routers that cannot be told apart at a path, and equal states, give the same initial context. -/
theorem Spec.Starts.congr {a a' : App U σ} {req : Request U} {c : Context U}
    (hp : ∀ x, paramFor a.router req.path x = paramFor a'.router req.path x)
    (hs : a.appState = a'.appState) (h : Starts a req c) : Starts a' req c :=
  ⟨h.method, h.path, h.query, h.headers, h.body, fun x => by rw [h.params, hp], h.response,
    fun t v e => h.state t v (hs.trans e), fun e => h.noState (hs.trans e)⟩

/-- Routers that cannot be told apart at a path serve requests for it in the same way. -/
theorem serve_congr {a a' : App U σ} {req : Request U} (h : SameAt a.router a'.router req.path)
    (hs : a.appState = a'.appState) : a.serve req = a'.serve req := by
  obtain ⟨_, h2, h3, h4⟩ := h
  cases hh : handlerFor a.router req.method req.path with
  | none => rw [serve_none hh, serve_none (by rw [← h2, hh])]
  | some k =>
    obtain ⟨ch, c, e1, e2, e3⟩ := serve_some hh
    obtain ⟨ch', c', e1', e2', e3'⟩ := serve_some (a := a') (by rw [← h2, hh])
    have hch : ch = ch' := by rw [h3, e1'] at e1; injection e1 with e1; exact e1.symm
    have hc : c = c' := (e2.congr h4 hs).unique e2'
    rw [e3, e3', hch, hc]

end Obsidian
