import Verif.Spec.Calls

/-
Programs without nested routers.
-/
namespace Obsidian.Spec
variable {M H : Type}

mutual
/-- The calls that a call amounts to when there are no nested routers: the calls of a nested router are
made with its path in front. -/
def unmountReg : Reg M H → List (Reg M H)
  | .useRouter p sub | .scope p sub => (unmount sub).map (prefixReg p)
  | c => [c]
/-- A program without nested routers. -/
def unmount : List (Reg M H) → List (Reg M H)
  | [] => []
  | c :: cs => unmountReg c ++ unmount cs
end

mutual
/-- Routers are nested as in C18: not at the root or below a wildcard, not empty, and without
`use_service_to` for their root. -/
def TameReg : Reg M H → Prop
  | .useRouter p sub | .scope p sub =>
    segments p ≠ [] ∧ NoStar (segments p) ∧ sub ≠ [] ∧ NoRootMw sub ∧ Tame sub
  | _ => True
/-- All routers are nested as in C18. -/
def Tame : List (Reg M H) → Prop
  | [] => True
  | c :: cs => TameReg c ∧ Tame cs
end

end Obsidian.Spec
