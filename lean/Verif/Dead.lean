import Verif.Insert

set_option autoImplicit false

/-!
# Functions that nothing calls

`search_general` (/repo/src/hnsw.rs 1403-1457) and `from_negative_binaryheap_to_sorted_vector`
(/repo/src/hnsw.rs 1593-1614), kept in the source under `#[allow(unused)]`.
-/

namespace Verif
variable {T : Type} (P : Policy T)

/-- descent of `search_general` from layer `l` to layer 1 (/repo/src/hnsw.rs 1422-1436): each layer is searched
with `ef = 1`. -/
def descendGeneral (eval : List T → List T → F32) (q : List T) (s : Idx T) :
    Nat → Ref T × F32 → Except Panic (Ref T × F32)
  | 0, x => .ok x
  | l + 1, x =>
    match searchLayer P eval q 1 none s x.1 (l + 1) with
    | .error e => .error e
    | .ok h =>
      match fromPositive P (P.items h) P.empty with
      | .error e => .error e
      | .ok nh =>
        match P.pop nh with
        | none => descendGeneral eval q s l x
        | some (c, _) =>
          descendGeneral eval q s l
            (if (eval q c.pt.data).lt x.2 = true then (c.pt, eval q c.pt.data) else x)

/-- `search_general` (/repo/src/hnsw.rs 1408-1457). -/
def searchGeneral (cfg : Cfg T) (s : Idx T) (q : List T) (knbn efArg : Nat) :
    Except Panic (List Neighbour) :=
  match s.entry with
  | none => .ok []
  | some ep =>
    match descendGeneral P cfg.eval q s ep.pid.layer (ep, cfg.eval q ep.data) with
    | .error e => .error e
    | .ok x =>
      let ef := max efArg knbn
      match searchLayer P cfg.eval q ef none s x.1 0 with
      | .error e => .error e
      | .ok h =>
        match P.intoSortedC h with
        | .error e => .error e
        | .ok v => .ok ((v.take (min knbn (min ef v.length))).map PWO.toNeighbour)

/-- `from_negative_binaryheap_to_sorted_vector` (/repo/src/hnsw.rs 1597-1614), on the iteration list of the
heap. -/
def fromNegative : List (PWO T) → Except Panic (List (PWO T))
  | [] => .ok []
  | p :: ps =>
    if p.dist.le F32.zero = false then .error .assertion
    else
      match fromNegative ps with
      | .error e => .error e
      | .ok v => .ok (⟨p.pt, p.dist.neg⟩ :: v)

end Verif
