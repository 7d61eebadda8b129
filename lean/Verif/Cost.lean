import Verif.Search

set_option autoImplicit false

/-!
# The work of a search

`search_filter` and `search_layer` (/repo/src/hnsw.rs 911-1042, 1462-1535) written once more, the distance,
the filter and the neighbour lists being reached only through functions that note each use.
`searchFilterW_res` (`Verif/CostLemmas.lean`) shows that the result is that of `searchFilter`.
-/

namespace Verif
variable {T : Type}

/-- The uses that are noted: a distance from the query to a point, the list of a point in a layer, a call of
the filter. -/
inductive Use (T : Type)
  | dist (p : Ref T)
  | read (p : PointId) (layer : Nat)
  | accept (id : DataId)

/-- a computation that notes what it uses and may panic -/
structure Work (T : Type) (α : Type) where
  log : List (Use T)
  res : Except Panic α

/-- nothing is used -/
def Work.of {α : Type} (x : Except Panic α) : Work T α := ⟨[], x⟩

/-- one computation after the other; after a panic nothing more is done -/
def Work.bind {α β : Type} (x : Work T α) (f : α → Work T β) : Work T β :=
  match x.res with
  | .ok a => ⟨x.log ++ (f a).log, (f a).res⟩
  | .error e => ⟨x.log, .error e⟩

/-- the points whose distance was computed -/
def dists : List (Use T) → List (Ref T)
  | [] => []
  | .dist p :: us => p :: dists us
  | _ :: us => dists us

/-- the lists that were read -/
def reads : List (Use T) → List (PointId × Nat)
  | [] => []
  | .read p l :: us => (p, l) :: reads us
  | _ :: us => reads us

/-- the ids given to the filter -/
def accepts : List (Use T) → List DataId
  | [] => []
  | .accept i :: us => i :: accepts us
  | _ :: us => accepts us

section
variable (P : Policy T) (eval : List T → List T → F32) (q : List T) (ef : Nat)
  (filt : Option (DataId → Bool))

/-- `self.dist_f.eval(point, e.data.get_v())` -/
def evalW (e : Ref T) : Work T F32 := ⟨[.dist e], .ok (eval q e.data)⟩

/-- `filter.hnsw_filter(&id)` -/
def acceptW (φ : DataId → Bool) (id : DataId) : Work T Bool := ⟨[.accept id], .ok (φ id)⟩

/-- `&point.neighbours.read()[layer]` -/
def readW (s : Idx T) (p : PointId) (layer : Nat) : Work T (List (PWO T)) :=
  ⟨[.read p layer], .ok (s.nb p layer)⟩

/-- the test of the only point of `return_points` (/repo/src/hnsw.rs 1020-1025) -/
def clearW (φ : DataId → Bool) (r : P.H) : Work T P.H :=
  if P.len r = 1 then
    match P.peek r with
    | some x => (acceptW φ x.pt.origin).bind fun b => .of (.ok (if b then r else P.empty))
    | none => .of (.ok r)
  else .of (.ok r)

/-- insertion in `return_points` (/repo/src/hnsw.rs 1015-1028) -/
def pushRetW (r : P.H) (e : PWO T) : Work T P.H :=
  match filt with
  | none => .of (P.pushC r e)
  | some φ =>
    (acceptW φ e.pt.origin).bind fun b =>
      if b then (clearW P φ r).bind fun r' => .of (P.pushC r' e) else .of (.ok r)

/-- treatment of one neighbour of the expanded candidate (/repo/src/hnsw.rs 991-1034) -/
def scanEW (e : Ref T) (st : SL P) : Work T (Scan P) :=
  if e.pid ∈ st.vis.map (·.pid) then .of (.ok (.go st))
  else
    match P.peek st.ret with
    | none => .of (.ok (.stop st.ret))
    | some f =>
      (evalW eval q e).bind fun d =>
        if (d.lt f.dist || decide (P.len st.ret < ef)) = true then
          (Work.of (P.pushC st.cand ⟨e, d.neg⟩)).bind fun cand' =>
            (pushRetW P filt st.ret ⟨e, d⟩).bind fun ret' =>
              .of (.ok (.go ⟨cand', trim P ef ret', e :: st.vis⟩))
        else .of (.ok (.go ⟨st.cand, st.ret, e :: st.vis⟩))

/-- the `for e in neighbours_c_l` loop (/repo/src/hnsw.rs 991-1034) -/
def scanListW : List (PWO T) → SL P → Work T (Scan P)
  | [], st => .of (.ok (.go st))
  | e :: es, st =>
    (scanEW P eval q ef filt e.pt st).bind fun o =>
      match o with
      | .stop r => .of (.ok (.stop r))
      | .go st' => scanListW es st'

/-- the `while` loop (/repo/src/hnsw.rs 960-1041) -/
def slLoopW (s : Idx T) (layer : Nat) : Nat → SL P → Work T P.H
  | 0, _ => .of (.error .fuel)
  | n + 1, st =>
    match head P ef filt st with
    | .done r => .of (.ok r)
    | .panic e => .of (.error e)
    | .expand c st' =>
      (readW s c.pid layer).bind fun ns =>
        (scanListW P eval q ef filt ns st').bind fun o =>
          match o with
          | .stop r => .of (.ok r)
          | .go st'' => slLoopW s layer n st''

/-- `search_layer` (/repo/src/hnsw.rs 911-1042) -/
def searchLayerW (s : Idx T) (ep : Ref T) (layer : Nat) : Work T P.H :=
  match s.layers[layer]? with
  | none => .of (.error .index)
  | some [] => .of (.ok P.empty)
  | some (_ :: _) =>
    (evalW eval q ep).bind fun d =>
      slLoopW P eval q ef filt s layer (s.points.length + 2)
        { cand := P.push P.empty ⟨ep, d.neg⟩, ret := P.push P.empty ⟨ep, d⟩, vis := [ep] }

/-- scan of the pivot's neighbours in the descent (/repo/src/hnsw.rs 1489-1503) -/
def scanPivotW : List (PWO T) → Ref T × F32 → Work T (Ref T × F32)
  | [], x => .of (.ok x)
  | n :: ns, x =>
    (evalW eval q n.pt).bind fun d => scanPivotW ns (if d.lt x.2 = true then (n.pt, d) else x)

/-- descent from layer `l` to layer 1 (/repo/src/hnsw.rs 1486-1504) -/
def descendW (s : Idx T) : Nat → Ref T × F32 → Work T (Ref T × F32)
  | 0, x => .of (.ok x)
  | l + 1, x =>
    (readW s x.1.pid (l + 1)).bind fun ns => (scanPivotW eval q ns x).bind fun y => descendW s l y

end

/-- the search of the lowest layer and the answer (/repo/src/hnsw.rs 1505-1534) -/
def bottomW (P : Policy T) (cfg : Cfg T) (s : Idx T) (q : List T) (knbn efArg : Nat)
    (filt : Option (DataId → Bool)) (pivot : Ref T) : Work T (List Neighbour) :=
  let ef := max efArg knbn
  match lowestLayer s with
  | none => .of (.error .overflow)
  | some l =>
    (searchLayerW P cfg.eval q ef filt s pivot l).bind fun h =>
      (Work.of (P.intoSortedC h)).bind fun v =>
        .of (.ok ((v.take (min knbn (min ef v.length))).map PWO.toNeighbour))

/-- `search_filter` (/repo/src/hnsw.rs 1462-1535) -/
def searchFilterW (P : Policy T) (cfg : Cfg T) (s : Idx T) (q : List T) (knbn efArg : Nat)
    (filt : Option (DataId → Bool)) : Work T (List Neighbour) :=
  match s.entry with
  | none => .of (.ok [])
  | some ep =>
    (evalW cfg.eval q ep).bind fun d =>
      (descendW cfg.eval q s ep.pid.layer (ep, d)).bind fun x =>
        bottomW P cfg s q knbn efArg filt x.1

end Verif
