import Verif.Access

set_option autoImplicit false

/-!
# The flattened neighbourhood

Model of /repo/src/flatten.rs.
-/

namespace Verif
variable {T : Type}

/-- A `sort_unstable` of a `Vec<Neighbour>`: its result, and whether it panics.  The standard library
compares with `<`, that is `partial_cmp` (/repo/src/flatten.rs 29-33), which is false on a NaN, and not
with the `cmp` that panics (35-43); recent versions may panic on an order that is not total. -/
structure NSort where
  sort : List Neighbour → List Neighbour
  panics : List Neighbour → Bool

/-- Contract of `sort_unstable` on a `Vec<Neighbour>`, ordered by distance: a permutation; sorted,
without panic, when there is no NaN; ties in any order. -/
structure NSortLawful (nsort : NSort) : Prop where
  perm : ∀ l, (nsort.sort l).Perm l
  sorted : ∀ l, (∀ n ∈ l, n.distance.isNaN = false) →
    (nsort.sort l).Pairwise (fun a b => a.distance.key ≤ b.distance.key)
  ok : ∀ l, (∀ n ∈ l, n.distance.isNaN = false) → nsort.panics l = false

/-- the call of `sort_unstable` (/repo/src/flatten.rs 83) -/
def nsortC (nsort : NSort) (l : List Neighbour) : Except Panic (List Neighbour) :=
  if nsort.panics l = true then .error .nan else .ok (nsort.sort l)

/-- `FlatPoint` (/repo/src/flatten.rs 45-56). -/
structure FlatPoint where
  origin : DataId
  pid : PointId
  neighbours : List Neighbour
deriving DecidableEq

/-- `flatten_point` (/repo/src/flatten.rs 72-88): the lists of all the layers one after the other,
sorted. -/
def flattenPoint (nsort : NSort) (s : Idx T) (p : Ref T) :
    Except Panic FlatPoint :=
  match nsortC nsort (getNeighborhoodId s p).flatten with
  | .error e => .error e
  | .ok v => .ok ⟨p.origin, p.pid, v⟩

/-- `FlatNeighborhood` (/repo/src/flatten.rs 90-95): a hash map, as a function. -/
abbrev FlatNeighborhood := DataId → Option FlatPoint

/-- `HashMap::insert`: replaces the value of an existing key. -/
def FlatNeighborhood.insert (m : FlatNeighborhood) (k : DataId) (v : FlatPoint) : FlatNeighborhood :=
  fun k' => if k' = k then some v else m k'

/-- `FlatNeighborhood::get_neighbours` (/repo/src/flatten.rs 97-106). -/
def FlatNeighborhood.getNeighbours (m : FlatNeighborhood) (id : DataId) : Option (List Neighbour) :=
  (m id).map (·.neighbours)

/-- the `for` loop on the iterator (/repo/src/flatten.rs 118-126); the first argument bounds the number
of calls of `next`. -/
def flatLoop (nsort : NSort) (s : Idx T) :
    Nat → IterPos → FlatNeighborhood → Except Panic FlatNeighborhood
  | 0, _, _ => .error .fuel
  | n + 1, pos, m =>
    match iterNext s pos with
    | .error e => .error e
    | .ok (none, _) => .ok m
    | .ok (some p, pos') =>
      match flattenPoint nsort s p with
      | .error e => .error e
      | .ok f => flatLoop nsort s n pos' (m.insert p.origin f)

/-- `FlatNeighborhood::from(&Hnsw)` (/repo/src/flatten.rs 108-128). -/
def flatFrom (nsort : NSort) (s : Idx T) : Except Panic FlatNeighborhood :=
  flatLoop nsort s (s.points.length + 1) none fun _ => none

end Verif
