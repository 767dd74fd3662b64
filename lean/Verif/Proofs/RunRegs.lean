import Verif.Proofs.Program

/- Programs of registrations. -/
namespace Obsidian.Spec
open Obsidian
variable {M H : Type}

theorem segments_slash_cons (p : Str) : segments ('/' :: p) = segments p := by
  simp [segments, segmentsFrom]

theorem cleanPath_slash {p : Str} (h : CleanPath p) : CleanPath ('/' :: p) := by
  rw [CleanPath, segments_slash_cons]; exact h

/-- What one call does: accepted exactly as the specification says, the log grows accordingly. -/
def CallOK (c : Reg M H) (r : Router M H) (L : Log M H) : Prop :=
  ((c.run r).2 = none ↔ RegOK c L) ∧
  ((c.run r).2 = none → Rep (c.run r).1.routes.head (logReg c L))

theorem route_call {r : Router M H} {L : Log M H} (h : Rep r.routes.head L) {path : Str}
    (hc : CleanPath path) (m : Method) (hd : H) :
    ((r.insertRoute m path hd).2 = none ↔ RouteOK L m (segments path)) ∧
    ((r.insertRoute m path hd).2 = none →
      Rep (r.insertRoute m path hd).1.routes.head (L ++ [⟨segments path, .route m hd⟩])) := by
  obtain ⟨h1, h2, h3⟩ := h.insertRoute hc m hd
  by_cases hs : StarsOK (segments path)
  · by_cases hn : NoClash L (segments path)
    · obtain ⟨h4, h5⟩ := h3 hs hn
      refine ⟨?_, fun _ => h5⟩
      rw [h4, RouteOK]
      cases routeAt L (flat (segments path)) m <;> simp [hs, hn]
    · obtain ⟨⟨a, b, h4⟩, _⟩ := h2 hs hn
      rw [h4]; simp [RouteOK, hn]
  · obtain ⟨p, h4, _⟩ := h1 hs
    rw [h4]; simp [RouteOK, hs]

theorem mw_call {r : Router M H} {L : Log M H} (h : Rep r.routes.head L) {path : Str}
    (hc : CleanPath path) (m : M) :
    ((r.useServiceTo path m).2 = none ↔ StarsOK (segments path) ∧ NoClash L (segments path)) ∧
    ((r.useServiceTo path m).2 = none → Rep (r.useServiceTo path m).1.routes.head
      (if segments path = [] then L else L ++ [⟨segments path, .middleware m⟩])) := by
  obtain ⟨h1, h2, h3⟩ := h.useServiceTo hc m
  by_cases hs : StarsOK (segments path)
  · by_cases hn : NoClash L (segments path)
    · obtain ⟨h4, h5⟩ := h3 hs hn
      exact ⟨by simp [h4, hs, hn], fun _ => h5⟩
    · obtain ⟨⟨a, b, h4⟩, _⟩ := h2 hs hn
      rw [h4]; simp [hn]
  · obtain ⟨p, h4, _⟩ := h1 hs
    rw [h4]; simp [hs]

theorem mount_call {r s : Router M H} {L S : Log M H} (h : Rep r.routes.head L)
    (h' : Rep s.routes.head S) {path : Str} (hc : CleanPath path) :
    ((r.useRouter path s).2 = none ↔ StarsOK (segments path) ∧
      (segments path = [] ∨ (NoClash L (segments path) ∧ Free L (flat (segments path))))) ∧
    ((r.useRouter path s).2 = none →
      Rep (r.useRouter path s).1.routes.head (mountLog (segments path) L S)) := by
  obtain ⟨h1, h2, h3, h4, h5⟩ := h.useRouter h' hc
  by_cases hs : StarsOK (segments path)
  · by_cases h0 : segments path = []
    · obtain ⟨h6, h7⟩ := h2 hs h0
      refine ⟨⟨fun _ => ⟨hs, Or.inl h0⟩, fun _ => h6⟩, fun _ => ?_⟩
      rw [mountLog, if_pos h0]; exact h7
    · by_cases hn : NoClash L (segments path)
      · by_cases hf : Free L (flat (segments path))
        · obtain ⟨h6, h7⟩ := h5 hs h0 hn hf
          exact ⟨by simp [h6, hs, hn, hf], fun _ => h7⟩
        · obtain ⟨h6, h7⟩ := h4 hs h0 hn hf
          rw [h6]; simp [hf, h0]
      · obtain ⟨⟨a, b, h6⟩, _⟩ := h3 hs hn
        rw [h6]; simp [hn, h0]
  · obtain ⟨p, h6, _⟩ := h1 hs
    rw [h6]; simp [hs]

mutual
theorem run_call : ∀ (c : Reg M H) (r : Router M H) (L : Log M H), CleanReg c →
    Rep r.routes.head L → CallOK c r L
  | .get p h, r, L, hc, hr => by
    simp only [CleanReg] at hc
    simpa [CallOK, Reg.run, Router.get, RegOK, logReg] using route_call hr hc .get h
  | .post p h, r, L, hc, hr => by
    simp only [CleanReg] at hc
    simpa [CallOK, Reg.run, Router.post, RegOK, logReg] using route_call hr hc .post h
  | .put p h, r, L, hc, hr => by
    simp only [CleanReg] at hc
    simpa [CallOK, Reg.run, Router.put, RegOK, logReg] using route_call hr hc .put h
  | .patch p h, r, L, hc, hr => by
    simp only [CleanReg] at hc
    simpa [CallOK, Reg.run, Router.patch, RegOK, logReg] using route_call hr hc .patch h
  | .delete p h, r, L, hc, hr => by
    simp only [CleanReg] at hc
    simpa [CallOK, Reg.run, Router.delete, RegOK, logReg] using route_call hr hc .delete h
  | .useService m, r, L, hc, hr => by
    simpa [CallOK, Reg.run, RegOK, logReg] using hr.useService m
  | .useServiceTo p m, r, L, hc, hr => by
    simp only [CleanReg] at hc
    have := mw_call hr hc m
    rw [CallOK, Reg.run, RegOK, logReg]; exact this
  | .useRouter p sub, r, L, hc, hr => by
    simp only [CleanReg] at hc
    obtain ⟨i1, i2⟩ := run_calls sub Router.new [] hc.2 Rep.new
    rw [CallOK, Reg.run, RegOK, logReg]
    cases hb : runRegs sub Router.new with
    | mk s e =>
      rw [hb] at i1 i2
      cases e with
      | none =>
        have := mount_call hr (i2 rfl) hc.1
        exact ⟨by rw [this.1]; simp [i1.1 rfl], this.2⟩
      | some e =>
        have : ¬ RegsOK sub [] := fun x => by simpa using i1.2 x
        simp [this]
  | .scope p sub, r, L, hc, hr => by
    simp only [CleanReg] at hc
    obtain ⟨i1, i2⟩ := run_calls sub Router.new [] hc.2 Rep.new
    rw [CallOK, Reg.run, RegOK, logReg]
    cases hb : runRegs sub Router.new with
    | mk s e =>
      rw [hb] at i1 i2
      cases e with
      | none =>
        have := mount_call hr (i2 rfl) (cleanPath_slash hc.1)
        rw [segments_slash_cons] at this
        exact ⟨by rw [this.1]; simp [i1.1 rfl], this.2⟩
      | some e =>
        have : ¬ RegsOK sub [] := fun x => by simpa using i1.2 x
        simp [this]
theorem run_calls : ∀ (cs : List (Reg M H)) (r : Router M H) (L : Log M H), CleanRegs cs →
    Rep r.routes.head L → ((runRegs cs r).2 = none ↔ RegsOK cs L) ∧
      ((runRegs cs r).2 = none → Rep (runRegs cs r).1.routes.head (logRegs cs L))
  | [], r, L, _, hr => by simpa [runRegs, RegsOK, logRegs] using hr
  | c :: cs, r, L, hc, hr => by
    simp only [CleanRegs] at hc
    obtain ⟨i1, i2⟩ := run_call c r L hc.1 hr
    rw [runRegs, RegsOK, logRegs]
    cases hb : c.run r with
    | mk r' e =>
      rw [hb] at i1 i2
      cases e with
      | none =>
        have := run_calls cs r' (logReg c L) hc.2 (i2 rfl)
        exact ⟨by simp only; rw [this.1]; simp [i1.1 rfl], this.2⟩
      | some e =>
        have : ¬ RegOK c L := fun x => by simpa using i1.2 x
        simp [this]
end

theorem build_iff {prog : List (Reg M H)} (hc : CleanRegs prog) :
    (build prog).2 = none ↔ RegsOK prog [] := (run_calls prog Router.new [] hc Rep.new).1

theorem build_rep {prog : List (Reg M H)} (hc : CleanRegs prog) {r : Router M H}
    (h : build prog = (r, none)) : Rep r.routes.head (logOf prog) := by
  have := (run_calls prog Router.new [] hc Rep.new).2
  rw [show runRegs prog Router.new = (r, none) from h] at this
  exact this rfl

end Obsidian.Spec
