import Verif.Model.App

/- Laws of computations. -/
namespace Obsidian
namespace Act
variable {σ α β γ : Type}

@[simp] theorem ret_bind (a : α) (f : α → Act σ β) : (ret a).bind f = f a := rfl
@[simp] theorem panic_bind (c : Crash) (f : α → Act σ β) : (panic c).bind f = panic c := rfl
@[simp] theorem print_bind (l : Line) (k : Act σ α) (f : α → Act σ β) :
    (print l k).bind f = print l (k.bind f) := rfl
@[simp] theorem step_bind (g : σ → σ) (k : σ → Act σ α) (f : α → Act σ β) :
    (step g k).bind f = step g (fun w => (k w).bind f) := rfl

theorem bind_assoc (x : Act σ α) (f : α → Act σ β) (g : β → Act σ γ) :
    (x.bind f).bind g = x.bind (fun a => (f a).bind g) := by
  induction x with
  | ret a => rfl
  | panic c => rfl
  | step h k ih => simp [ih]
  | print l k ih => simp [ih]

theorem bind_ret (x : Act σ α) : x.bind ret = x := by
  induction x with
  | ret a => rfl
  | panic c => rfl
  | step h k ih => simp [ih]
  | print l k ih => simp [ih]

@[simp] theorem pure_eq (a : α) : (pure a : Act σ α) = ret a := rfl
@[simp] theorem bind_eq (x : Act σ α) (f : α → Act σ β) : (x >>= f) = x.bind f := rfl

instance : LawfulMonad (Act σ) := LawfulMonad.mk'
  (id_map := fun x => bind_ret x)
  (pure_bind := fun _ _ => rfl)
  (bind_assoc := bind_assoc)

@[simp] theorem run_ret (a : α) (w : σ) : (ret a : Act σ α).run w = ⟨.ok a, w, []⟩ := rfl
@[simp] theorem run_panic (c : Crash) (w : σ) : (panic c : Act σ α).run w = ⟨.error c, w, []⟩ := rfl
@[simp] theorem run_step (f : σ → σ) (k : σ → Act σ α) (w : σ) : (step f k).run w = (k w).run (f w) := rfl
@[simp] theorem run_print (l : Line) (k : Act σ α) (w : σ) :
    (print l k).run w = ⟨(k.run w).out, (k.run w).world, l :: (k.run w).printed⟩ := rfl

/-- Running a sequence. -/
theorem run_bind (x : Act σ α) (f : α → Act σ β) (w : σ) :
    (x.bind f).run w =
      match (x.run w).out with
      | .ok a => ⟨((f a).run (x.run w).world).out, ((f a).run (x.run w).world).world,
          (x.run w).printed ++ ((f a).run (x.run w).world).printed⟩
      | .error c => ⟨.error c, (x.run w).world, (x.run w).printed⟩ := by
  induction x generalizing w with
  | ret a => simp
  | panic c => simp
  | step h k ih => simp only [step_bind, run_step]; exact ih _ _
  | print l k ih =>
    simp only [print_bind, run_print, ih]
    cases (k.run w).out <;> simp

theorem run_bind_ok {x : Act σ α} {f : α → Act σ β} {w : σ} {a : α} (h : (x.run w).out = .ok a) :
    (x.bind f).run w = ⟨((f a).run (x.run w).world).out, ((f a).run (x.run w).world).world,
          (x.run w).printed ++ ((f a).run (x.run w).world).printed⟩ := by
  rw [run_bind, h]

theorem run_bind_error {x : Act σ α} {f : α → Act σ β} {w : σ} {c : Crash}
    (h : (x.run w).out = .error c) :
    (x.bind f).run w = ⟨.error c, (x.run w).world, (x.run w).printed⟩ := by
  rw [run_bind, h]

end Act
end Obsidian
