/-!
# `std::map` as a sorted association list

`std::map<std::string, V>` keeps its entries sorted by key (byte order). Only `find`, assignment
`m[k] = v` and `erase(k)` are used by the code modelled here.
-/
namespace Iode

/-- Byte-wise lexicographic order of `std::string::operator<`. -/
def nameLt : List Char → List Char → Bool
  | [], [] => false
  | [], _ :: _ => true
  | _ :: _, [] => false
  | a :: as, b :: bs => if a.toNat < b.toNat then true else if b.toNat < a.toNat then false else nameLt as bs

abbrev SMap (V : Type u) := List (List Char × V)

namespace SMap
variable {V : Type u}

/-- `m.find(k)`, `m.at(k)`. -/
def find (k : List Char) : SMap V → Option V
  | [] => none
  | (k', v) :: l => if k = k' then some v else find k l

/-- `m[k] = v`. -/
def insert (k : List Char) (v : V) : SMap V → SMap V
  | [] => [(k, v)]
  | (k', v') :: l =>
    if k = k' then (k, v) :: l
    else if nameLt k k' then (k, v) :: (k', v') :: l
    else (k', v') :: insert k v l

/-- `m.erase(k)`. -/
def erase (k : List Char) (m : SMap V) : SMap V := m.filter (fun e => !(decide (k = e.1)))

/-- The keys in iteration order. -/
def keys (m : SMap V) : List (List Char) := m.map Prod.fst

/-- `m.contains(k)`. -/
def has (k : List Char) (m : SMap V) : Bool := (find k m).isSome

end SMap
end Iode
