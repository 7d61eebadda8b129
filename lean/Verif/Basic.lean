import Verif.F32

set_option autoImplicit false

/-!
# Points, neighbours, heaps

Basic data of the index: point identifiers, points, neighbour records, and the abstraction of
the standard library containers used by the algorithms.
-/

namespace Verif

/-- `PointId(u8, i32)`: layer and rank in layer (/repo/src/hnsw.rs 43-45).
Simplification: both are natural numbers; a layer is `< 16` and a rank `< 2^31` in a real index
(the dump model states these bounds where they matter); negative ranks only occur in ids made up
by a client, see `getPointData`. -/
structure PointId where
  layer : Nat
  rank : Nat
deriving DecidableEq, Repr

/-- `DataId = usize`, on a 64 bit platform (/repo/src/hnsw.rs 47-48). -/
abbrev DataId := UInt64

/-- The immutable part of an `Arc<Point>` (/repo/src/hnsw.rs 164-173): internal id, client id,
vector.  The mutable neighbour lists are kept in the state `Idx.nb`, addressed by `pid`.
Simplification: `PointData::V` and `PointData::S` (owned or mapped vectors, 129-154) are not
distinguished here. -/
structure Ref (T : Type) where
  pid : PointId
  origin : DataId
  data : List T
deriving DecidableEq, Repr

/-- `PointWithOrder` (/repo/src/hnsw.rs 263-271): a point and a distance to some reference. -/
structure PWO (T : Type) where
  pt : Ref T
  dist : F32
deriving DecidableEq, Repr

/-- Why a call panicked. -/
inductive Panic where
  /-- a heap or a sort panicked on NaN: `panic!("got a NaN in a distance")`, /repo/src/hnsw.rs 294, which the
  standard library does not reach, or the panic of `sort_unstable` on an order that is not total -/
  | nan
  /-- an `assert!` failed (965, 966, 1298, 1345, 1378, 1626) -/
  | assertion
  /-- `unwrap` on `None` -/
  | unwrapNone
  /-- vector index out of range -/
  | index
  /-- integer overflow / endless loop looking for a non empty layer (1510-1515) -/
  | overflow
  /-- explicit panic of insertion: search with ef = 1 returned more than 1 point (1106-1112) -/
  | tooMany
  /-- the model's step budget is exhausted; proved unreachable -/
  | fuel
deriving DecidableEq, Repr

/-- The standard containers the algorithms depend on: a binary heap of `PointWithOrder` (max heap
on `dist_to_ref`) with its iteration order `items` and its `into_sorted_vec`, the sort used by
`sort_unstable`, and the iteration order of a hash map.  Only the laws in `Policy.Lawful` are assumed; so every theorem holds for any
internal tie breaking.
`hashOrder p l k` is the iteration order of the `k`-th map created by the selection of neighbours
of point `p` at layer `l` (each map instance may have its own order).
`pushPanics`, `intoSortedPanics` and `sortPanics` tell when an operation panics, which is allowed only on NaN. -/
structure Policy (T : Type) where
  H : Type
  empty : H
  push : H → PWO T → H
  pop : H → Option (PWO T × H)
  items : H → List (PWO T)
  intoSorted : H → List (PWO T)
  sort : List (PWO T) → List (PWO T)
  hashOrder : PointId → Nat → Nat → List (Ref T) → List (Ref T)
  pushPanics : H → PWO T → Bool
  intoSortedPanics : H → Bool
  sortPanics : List (PWO T) → Bool

/-- No element is at distance NaN. -/
def NoNaN {T : Type} (l : List (PWO T)) : Prop := ∀ y ∈ l, y.dist.isNaN = false

/-- The heaps that never held a NaN since they were last empty.  The order of a heap is kept by comparisons, all of
which are false on NaN (`partial_cmp`, /repo/src/hnsw.rs 283-287): nothing is known of the order of a heap that held
one, even after it left. -/
inductive Policy.Built {T : Type} (P : Policy T) : P.H → Prop
  | nil {h : P.H} : P.items h = [] → Built P h
  | push {h : P.H} {x : PWO T} : Built P h → x.dist.isNaN = false → Built P (P.push h x)
  | pop {h h' : P.H} {x : PWO T} : Built P h → P.pop h = some (x, h') → Built P h'

/-- Laws of the containers.  Whatever the distances, no element is lost, duplicated or changed. Without NaN, `pop`/`peek`
give a maximum, sorting sorts and nothing panics. With a NaN the order is arbitrary and an operation may panic.

The heap and the sort of the standard library compare elements with `<`, `<=`, `>=`, that is with
`partial_cmp` (/repo/src/hnsw.rs 283-287), which answers `None` on NaN. The panicking `cmp` (289-297) is not called
by them; the laws allow both. -/
structure Policy.Lawful {T : Type} (P : Policy T) : Prop where
  items_empty : P.items P.empty = []
  items_push : ∀ h x, (P.items (P.push h x)).Perm (x :: P.items h)
  pop_none : ∀ h, P.pop h = none ↔ P.items h = []
  pop_perm : ∀ h x h', P.pop h = some (x, h') → (P.items h).Perm (x :: P.items h')
  pop_max : ∀ h, P.Built h → ∀ x h', P.pop h = some (x, h') → ∀ y ∈ P.items h, y.dist.key ≤ x.dist.key
  intoSorted_perm : ∀ h, (P.intoSorted h).Perm (P.items h)
  intoSorted_sorted : ∀ h, P.Built h → (P.intoSorted h).Pairwise (fun a b => a.dist.key ≤ b.dist.key)
  sort_perm : ∀ l, (P.sort l).Perm l
  sort_sorted : ∀ l, NoNaN l → (P.sort l).Pairwise (fun a b => a.dist.key ≤ b.dist.key)
  hash_perm : ∀ p l k r, (P.hashOrder p l k r).Perm r
  push_ok : ∀ h x, P.Built h → x.dist.isNaN = false → P.pushPanics h x = false
  intoSorted_ok : ∀ h, P.Built h → P.intoSortedPanics h = false
  sort_ok : ∀ l, NoNaN l → P.sortPanics l = false

namespace Policy
variable {T : Type} (P : Policy T)

/-- `BinaryHeap::len`. -/
def len (h : P.H) : Nat := (P.items h).length

/-- `BinaryHeap::peek`: the element `pop` would return. -/
def peek (h : P.H) : Option (PWO T) := (P.pop h).map (·.1)

/-- `BinaryHeap::push`. -/
def pushC (h : P.H) (x : PWO T) : Except Panic P.H :=
  if P.pushPanics h x = true then .error .nan else .ok (P.push h x)

/-- `sort_unstable`. -/
def sortC (l : List (PWO T)) : Except Panic (List (PWO T)) :=
  if P.sortPanics l = true then .error .nan else .ok (P.sort l)

/-- `into_sorted_vec`. -/
def intoSortedC (h : P.H) : Except Panic (List (PWO T)) :=
  if P.intoSortedPanics h = true then .error .nan else .ok (P.intoSorted h)

/-- pushing a list one by one. -/
def pushAll (h : P.H) : List (PWO T) → Except Panic P.H
  | [] => .ok h
  | x :: xs => match P.pushC h x with
    | .error e => .error e
    | .ok h' => pushAll h' xs

end Policy

/-- The mutable state of an index: `PointIndexation` and the neighbour lists of its points
(/repo/src/hnsw.rs 164-173, 391-404).
`nb p l` is the content of `neighbours[l]` of the point with id `p`. -/
structure Idx (T : Type) where
  layers : List (List (Ref T))
  nb : PointId → Nat → List (PWO T)
  nbPoint : Nat
  entry : Option (Ref T)

/-- The parameters of an `Hnsw` (/repo/src/hnsw.rs 736-760), distance included. -/
structure Cfg (T : Type) where
  maxNb : Nat
  efC : Nat
  extend : Bool
  keepPruned : Bool
  maxLayer : Nat
  eval : List T → List T → F32

/-- `NB_LAYER_MAX` (/repo/src/hnsw.rs 41). -/
def nbLayerMax : Nat := 16

/-- `get_max_nb_connection() -> u8`, i.e. `max_nb_connection as u8` (/repo/src/hnsw.rs 820-822). -/
def Cfg.maxNbU8 {T : Type} (c : Cfg T) : Nat := c.maxNb % 256

namespace Idx
variable {T : Type}

/-- `PointIndexation::new` (/repo/src/hnsw.rs 448-467), for `max_layer` layers. -/
def new (maxLayer : Nat) : Idx T :=
  { layers := List.replicate maxLayer [], nb := fun _ _ => [], nbPoint := 0, entry := none }

/-- all points of the table. -/
def points (s : Idx T) : List (Ref T) := s.layers.flatten

/-- `points_by_layer[l]`, empty when out of range. -/
def layer (s : Idx T) (l : Nat) : List (Ref T) := (s.layers[l]?).getD []

/-- overwrite `neighbours[l]` of one point. -/
def setNb (s : Idx T) (p : PointId) (l : Nat) (v : List (PWO T)) : Idx T :=
  { s with nb := fun p' l' => if p' = p ∧ l' = l then v else s.nb p' l' }

end Idx

/-- `Neighbour`, the public answer record (/repo/src/hnsw.rs 99-124). -/
structure Neighbour where
  dId : DataId
  distance : F32
  pId : PointId
deriving DecidableEq, Repr

/-- conversion made by the answers (/repo/src/hnsw.rs 1523-1532) and by
`get_neighborhood_id` (231-235). -/
def PWO.toNeighbour {T : Type} (p : PWO T) : Neighbour := ⟨p.pt.origin, p.dist, p.pt.pid⟩

end Verif
