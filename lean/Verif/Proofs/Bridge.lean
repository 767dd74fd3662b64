import Verif.Proofs.LogFacts2
import Verif.Spec.Observe

/- Observations of a router in terms of the log. -/
namespace Obsidian.Spec
open Obsidian
variable {M H : Type}

theorem Rep.obs_none {r : Router M H} {L : Log M H} (h : Rep r.routes.head L) {path : Str}
    (hl : lookup L path = none) : isFound r path = false ∧ (∀ m, handlerFor r m path = none) ∧
      chainFor r path = none ∧ ∀ x, paramFor r path x = none := by
  have := h.search path
  rw [hl] at this
  simp only at this
  simp [isFound, handlerFor, chainFor, paramFor, this]

theorem Rep.obs_some {r : Router M H} {L : Log M H} (h : Rep r.routes.head L) {path q : Str}
    {b : List (Str × Str)} (hl : lookup L path = some (q, b)) :
    isFound r path = true ∧ (∀ m, handlerFor r m path = routeAt L q m) ∧
      chainFor r path = some (chain L q) ∧ ∀ x, paramFor r path x = b.lookup x := by
  have := h.search path
  rw [hl] at this
  obtain ⟨v, h1, h2, h3, h4⟩ := this
  simp [isFound, handlerFor, chainFor, paramFor, h1, h2, h3, h4]

theorem Rep.found {r : Router M H} {L : Log M H} (h : Rep r.routes.head L) {path : Str}
    (hf : isFound r path = true) : ∃ q b, lookup L path = some (q, b) := by
  cases hl : lookup L path with
  | none => rw [(h.obs_none hl).1] at hf; simp at hf
  | some qb => exact ⟨qb.1, qb.2, rfl⟩

theorem Rep.handler {r : Router M H} {L : Log M H} (h : Rep r.routes.head L) {path : Str} {m : Method}
    {k : H} (hf : handlerFor r m path = some k) :
    ∃ q b, lookup L path = some (q, b) ∧ routeAt L q m = some k := by
  cases hl : lookup L path with
  | none => rw [(h.obs_none hl).2.1] at hf; simp at hf
  | some qb => exact ⟨qb.1, qb.2, rfl, by rw [← (h.obs_some hl).2.1, hf]⟩

theorem Rep.chain {r : Router M H} {L : Log M H} (h : Rep r.routes.head L) {path : Str} {c : List M}
    (hf : chainFor r path = some c) :
    ∃ q b, lookup L path = some (q, b) ∧ c = Spec.chain L q := by
  cases hl : lookup L path with
  | none => rw [(h.obs_none hl).2.2.1] at hf; simp at hf
  | some qb =>
    refine ⟨qb.1, qb.2, rfl, ?_⟩
    rw [(h.obs_some hl).2.2.1] at hf
    simpa using hf.symm

theorem Rep.sameAt {r r' : Router M H} {L L' : Log M H} (h : Rep r.routes.head L)
    (h' : Rep r'.routes.head L') {path : Str}
    (hl : lookup L path = lookup L' path)
    (hr : ∀ q b, lookup L path = some (q, b) →
      (∀ m, routeAt L q m = routeAt L' q m) ∧ Spec.chain L q = Spec.chain L' q) : SameAt r r' path := by
  cases ho : lookup L path with
  | none =>
    obtain ⟨a1, a2, a3, a4⟩ := h.obs_none ho
    obtain ⟨b1, b2, b3, b4⟩ := h'.obs_none (hl ▸ ho)
    exact ⟨by rw [a1, b1], fun m => by rw [a2, b2], by rw [a3, b3], fun x => by rw [a4, b4]⟩
  | some qb =>
    obtain ⟨a1, a2, a3, a4⟩ := h.obs_some ho
    obtain ⟨b1, b2, b3, b4⟩ := h'.obs_some (hl ▸ ho)
    obtain ⟨c1, c2⟩ := hr _ _ ho
    exact ⟨by rw [a1, b1], fun m => by rw [a2, b2, c1], by rw [a3, b3, c2], fun x => by rw [a4, b4]⟩

end Obsidian.Spec
