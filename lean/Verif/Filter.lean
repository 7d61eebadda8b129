import Verif.Search

set_option autoImplicit false

/-!
# The filter on a vector of ids, and parallel searches
-/

namespace Verif
variable {T : Type}

/-- The loop of `slice::binary_search` (core library): `size` elements from `base` remain; the first
argument bounds the number of iterations. -/
def bsLoop (v : List DataId) (id : DataId) : Nat → Nat → Nat → Nat
  | 0, _, base => base
  | n + 1, size, base =>
    if size ≤ 1 then base
    else
      let half := size / 2
      let mid := base + half
      let base' := if id < (v[mid]?).getD 0 then base else mid
      bsLoop v id n (size - half) base'

/-- `impl FilterT for Vec<usize>` (/repo/src/filter.rs 11-15): `self.binary_search(id).is_ok()`. -/
def vecFilter (v : List DataId) (id : DataId) : Bool :=
  if v.length = 0 then false
  else decide (v[bsLoop v id v.length v.length 0]? = some id)

/-- the answers in the order of their arrival on the channel -/
def arrivals (P : Policy T) (cfg : Cfg T) (s : Idx T) (datas : List (List T)) (knbn ef : Nat) :
    List Nat → Except Panic (List (Nat × List Neighbour))
  | [] => .ok []
  | i :: is =>
    match datas[i]? with
    | none => .error .index
    | some q =>
      match search P cfg s q knbn ef with
      | .error e => .error e
      | .ok a =>
        match arrivals P cfg s datas knbn ef is with
        | .error e => .error e
        | .ok as => .ok ((i, a) :: as)

/-- the map from request number to rank in the answers, built by successive insertions -/
def rankMap : List (Nat × List Neighbour) → Nat → (Nat → Option Nat) → (Nat → Option Nat)
  | [], _, m => m
  | (k, _) :: es, i, m => rankMap es (i + 1) (fun x => if x = k then some i else m x)

/-- the answers in the order of the requests -/
def collectAnswers (res : List (Nat × List Neighbour)) (m : Nat → Option Nat) :
    List Nat → Except Panic (List (List Neighbour))
  | [] => .ok []
  | i :: is =>
    match m i with
    | none => .error .unwrapNone
    | some r =>
      match res[r]? with
      | none => .error .index
      | some x =>
        match collectAnswers res m is with
        | .error e => .error e
        | .ok as => .ok (x.2 :: as)

/-- `Hnsw::parallel_search` (/repo/src/hnsw.rs 1567-1590).  `order` is the order in which the worker
threads deliver the answers of the requests `0..datas.len()`.  A panic of a worker makes the call
panic. -/
def parallelSearch (P : Policy T) (cfg : Cfg T) (s : Idx T) (datas : List (List T)) (knbn ef : Nat)
    (order : List Nat) : Except Panic (List (List Neighbour)) :=
  match arrivals P cfg s datas knbn ef order with
  | .error e => .error e
  | .ok res => collectAnswers res (rankMap res 0 fun _ => none) (List.range datas.length)

end Verif
