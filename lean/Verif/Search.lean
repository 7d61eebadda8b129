import Verif.Basic

set_option autoImplicit false

/-!
# Search

`search_layer` (/repo/src/hnsw.rs 911-1042) and `search_filter` (1462-1535).
The loop body is cut in two pure pieces, `head` (choice of the next candidate) and `scanList`
(scan of its neighbours), that are shared by the snapshot version below and by the concurrent
version used by insertion (`Verif/Insert.lean`).
-/

namespace Verif
variable {T : Type}

/-- The local variables of `search_layer`: `candidate_points`, `return_points`,
`visited_point_id` (/repo/src/hnsw.rs 931, 946, 949). The hash map of visited points is a list of
points, looked up by id. -/
structure SL (P : Policy T) where
  cand : P.H
  ret : P.H
  vis : List (Ref T)

/-- Outcome of scanning neighbours: go on, or return from `search_layer`
(/repo/src/hnsw.rs 998-1002). -/
inductive Scan (P : Policy T) where
  | go (st : SL P)
  | stop (r : P.H)

/-- Outcome of the loop head (/repo/src/hnsw.rs 960-980). -/
inductive Head (P : Policy T) where
  | done (r : P.H)
  | panic (e : Panic)
  | expand (c : Ref T) (st : SL P)

section
variable (P : Policy T) (eval : List T → List T → F32) (q : List T) (ef : Nat)
  (filt : Option (DataId → Bool))

/-- `if return_points.len() > ef { return_points.pop(); }` (/repo/src/hnsw.rs 1029-1031). -/
def trim (r : P.H) : P.H :=
  if ef < P.len r then
    match P.pop r with
    | some (_, r') => r'
    | none => r
  else r

/-- insertion in `return_points` (/repo/src/hnsw.rs 1015-1028). -/
def pushRet (r : P.H) (e : PWO T) : Except Panic P.H :=
  match filt with
  | none => P.pushC r e
  | some φ =>
    if φ e.pt.origin then
      let r' := if P.len r = 1 then
          match P.peek r with
          | some x => if φ x.pt.origin then r else P.empty
          | none => r
        else r
      P.pushC r' e
    else .ok r

/-- treatment of one neighbour `e` of the expanded candidate (/repo/src/hnsw.rs 991-1034). -/
def scanE (e : Ref T) (st : SL P) : Except Panic (Scan P) :=
  if e.pid ∈ st.vis.map (·.pid) then .ok (.go st)
  else
    match P.peek st.ret with
    | none => .ok (.stop st.ret)
    | some f =>
      let d := eval q e.data
      if (d.lt f.dist || decide (P.len st.ret < ef)) = true then
        match P.pushC st.cand ⟨e, d.neg⟩ with
        | .error x => .error x
        | .ok cand' =>
          match pushRet P filt st.ret ⟨e, d⟩ with
          | .error x => .error x
          | .ok ret' => .ok (.go ⟨cand', trim P ef ret', e :: st.vis⟩)
      else .ok (.go ⟨st.cand, st.ret, e :: st.vis⟩)

/-- the `for e in neighbours_c_l` loop (/repo/src/hnsw.rs 991-1034). -/
def scanList : List (PWO T) → SL P → Except Panic (Scan P)
  | [], st => .ok (.go st)
  | e :: es, st =>
    match scanE P eval q ef filt e.pt st with
    | .error x => .error x
    | .ok (.stop r) => .ok (.stop r)
    | .ok (.go st') => scanList es st'

/-- head of the `while` loop: pop the nearest candidate, check signs, fast return
(/repo/src/hnsw.rs 960-980). -/
def head (st : SL P) : Head P :=
  match P.pop st.cand with
  | none => .done st.ret
  | some (c, cand') =>
    match P.peek st.ret with
    | none => .panic .unwrapNone
    | some f =>
      if F32.zero.le f.dist = false then .panic .assertion
      else if c.dist.le F32.zero = false then .panic .assertion
      else if (f.dist.lt c.dist.neg && (filt.isNone || decide (ef ≤ P.len st.ret))) = true then
        .done st.ret
      else .expand c.pt ⟨cand', st.ret, st.vis⟩

/-- initial local state (/repo/src/hnsw.rs 943-958). -/
def slInit (ep : Ref T) : SL P :=
  { cand := P.push P.empty ⟨ep, (eval q ep.data).neg⟩
    ret := P.push P.empty ⟨ep, eval q ep.data⟩
    vis := [ep] }

/-- the `while` loop on a fixed graph `nbf` (/repo/src/hnsw.rs 960-1041); the first argument
bounds the number of iterations (proved sufficient in `slLoop_no_fuel`). -/
def slLoop (nbf : PointId → List (PWO T)) : Nat → SL P → Except Panic P.H
  | 0, _ => .error .fuel
  | n + 1, st =>
    match head P ef filt st with
    | .done r => .ok r
    | .panic e => .error e
    | .expand c st' =>
      match scanList P eval q ef filt (nbf c.pid) st' with
      | .error x => .error x
      | .ok (.stop r) => .ok r
      | .ok (.go st'') => slLoop nbf n st''

/-- `search_layer` on a quiescent index (/repo/src/hnsw.rs 911-1042).
Ranks are natural numbers here, so the test `entry_point.p_id.1 < 0` (938-941) never fires. -/
def searchLayer (s : Idx T) (ep : Ref T) (layer : Nat) : Except Panic P.H :=
  match s.layers[layer]? with
  | none => .error .index
  | some [] => .ok P.empty
  | some (_ :: _) =>
    slLoop P eval q ef filt (fun p => s.nb p layer) (s.points.length + 2) (slInit P eval q ep)

/-- scan of the pivot's neighbours in the descent (/repo/src/hnsw.rs 1489-1503). -/
def scanPivot : List (PWO T) → Ref T × F32 → Ref T × F32
  | [], x => x
  | n :: ns, x =>
    scanPivot ns (if (eval q n.pt.data).lt x.2 = true then (n.pt, eval q n.pt.data) else x)

/-- descent from layer `l` to layer 1 (/repo/src/hnsw.rs 1486-1504). -/
def descend (s : Idx T) : Nat → Ref T × F32 → Ref T × F32
  | 0, x => x
  | l + 1, x => descend s l (scanPivot eval q (s.nb x.1.pid (l + 1)) x)

/-- lowest non empty layer (/repo/src/hnsw.rs 1509-1515); `none` when all layers are empty, in
which case the code overflows its `u8` counter. -/
def lowestLayer (s : Idx T) : Option Nat := s.layers.findIdx? (fun l => !l.isEmpty)

end

/-- `search_filter`, also `search_possible_filter` (/repo/src/hnsw.rs 1462-1546). -/
def searchFilter (P : Policy T) (cfg : Cfg T) (s : Idx T) (q : List T) (knbn efArg : Nat)
    (filt : Option (DataId → Bool)) : Except Panic (List Neighbour) :=
  match s.entry with
  | none => .ok []
  | some ep =>
    let pivot := (descend cfg.eval q s ep.pid.layer (ep, cfg.eval q ep.data)).1
    let ef := max efArg knbn
    match lowestLayer s with
    | none => .error .overflow
    | some l =>
      match searchLayer P cfg.eval q ef filt s pivot l with
      | .error e => .error e
      | .ok h =>
        match P.intoSortedC h with
        | .error e => .error e
        | .ok v => .ok ((v.take (min knbn (min ef v.length))).map PWO.toNeighbour)

/-- `Hnsw::search` (/repo/src/hnsw.rs 1552-1554). -/
def search (P : Policy T) (cfg : Cfg T) (s : Idx T) (q : List T) (knbn efArg : Nat) :
    Except Panic (List Neighbour) :=
  searchFilter P cfg s q knbn efArg none

end Verif
