/-!
# Finite maps

`HashMap<K, V>` is modelled by an association list.  `insert` removes an earlier entry of the same key,
so a map built by the operations below has one entry per key; iteration order is the list order, about
which theorems make no assumption.
-/

namespace AstroRun

/-- `std::collections::HashMap<K, V>` -/
abbrev AMap (K V : Type) := List (K × V)

namespace AMap
variable {K V : Type} [DecidableEq K]

/-- `HashMap::get` -/
def get? (m : AMap K V) (k : K) : Option V :=
  match m with
  | [] => none
  | (k', v) :: m => if k' = k then some v else get? m k

/-- `HashMap::remove` -/
def erase (m : AMap K V) (k : K) : AMap K V := m.filter fun e => !decide (e.1 = k)

/-- `HashMap::insert` -/
def insert (m : AMap K V) (k : K) (v : V) : AMap K V := (k, v) :: erase m k

/-- `HashMap::contains_key` -/
def contains (m : AMap K V) (k : K) : Bool := (get? m k).isSome

/-- `HashMap::keys` -/
def keys (m : AMap K V) : List K := m.map Prod.fst

end AMap
end AstroRun
