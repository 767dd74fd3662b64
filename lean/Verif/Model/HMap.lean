/-
`std::collections::HashMap` as used by the code: `insert`, `get`.  The iteration order is not part
of this model; the one place where the code iterates over a hash map (decoding of forms) takes an
arbitrary order of the entries as a parameter (see `Verif.Model.Form`).
-/
namespace Obsidian

/-- Models `std::collections::HashMap<K, V>` as an association list without duplicate keys. -/
structure HMap (K V : Type) where
  entries : List (K × V)

namespace HMap
variable {K V : Type} [DecidableEq K]

/-- `HashMap::default()` / `HashMap::new()`. -/
def empty : HMap K V := ⟨[]⟩

/-- `HashMap::get`. -/
def get (m : HMap K V) (k : K) : Option V := m.entries.lookup k

/-- `HashMap::insert`, without its return value (which is `m.get k`): the old value is replaced. -/
def insert (m : HMap K V) (k : K) (v : V) : HMap K V :=
  ⟨(k, v) :: m.entries.filter (fun e => !(e.1 == k))⟩

end HMap
end Obsidian
