import Verif.Spec.Complain

/- What comes out of lists of optional values, some of which are empty. -/
namespace Obsidian.Spec
open Obsidian

/-- What comes out. -/
inductive ListOutcome where
  | values (vs : List Val)
  | error (e : FormError)
  | panic

/-- The outcome with a further value in front. -/
def ListOutcome.before (v : Val) : ListOutcome → ListOutcome
  | .values vs => .values (v :: vs)
  | .error e => .error e
  | .panic => .panic

/-- A type whose values are made of one text: no lists or tuples. -/
def OneText : Ty → Prop
  | .scalar _ | .unit | .fails _ => True
  | .option t | .newtype t => OneText t
  | .seq _ | .tuple _ _ => False

/-- The text, which is not empty, is one for the value. -/
def TextFor : Ty → Str → Val → Prop
  | .scalar k, x, v => Written k x v
  | .unit, _, v => v = .unit
  | .option t, x, v => ∃ w, v = .some w ∧ TextFor t x w
  | .newtype t, x, v => TextFor t x v
  | _, _, _ => False

/-- The text, which is not empty, is refused by the type with the error. -/
def TextRefused : Ty → Str → FormError → Prop
  | .scalar k, x, e => ScalarComplaint k x e
  | .option t, x, e | .newtype t, x, e => TextRefused t x e
  | .fails e', _, e => e = e'
  | _, _, _ => False

/-- What comes out of the values of a `Vec<Option<T>>`, for a type `T` of one text. -/
inductive Options (t : Ty) : List Str → ListOutcome → Prop
  /-- a value that is the last one -/
  | last {x v} : x ≠ [] → TextFor t x v → Options t [x] (.values [.some v])
  /-- a value, and others after it -/
  | more {x v rest o} : x ≠ [] → TextFor t x v → rest ≠ [] → Options t rest o →
      Options t (x :: rest) (o.before (.some v))
  /-- a value that is not of the type -/
  | wrong {x e rest} : x ≠ [] → TextRefused t x e → Options t (x :: rest) (.error e)
  /-- an empty value that is the last one -/
  | emptyLast : Options t [[]] .panic
  /-- an empty value before the last one, which is lost -/
  | emptyLoses {y} : Options t [[], y] (.values [.none])
  /-- an empty value before others, the first of which is skipped -/
  | emptySkips {y rest o} : rest ≠ [] → Options t rest o → Options t ([] :: y :: rest) (o.before .none)

end Obsidian.Spec
