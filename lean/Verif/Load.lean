import Verif.DataMap

set_option autoImplicit false

/-!
# Reload

Model of the reading half of /repo/src/hnswio.rs.
-/

namespace Verif
variable {T : Type}

/-- what the reload is told of the distance: `type_name::<D>()` and the function -/
structure Dist (T : Type) where
  name : String
  eval : List T → List T → F32

/-- point id of a neighbour (/repo/src/hnswio.rs 1260-1268); without full mode it keeps its default
value. The rank is the 32 bits of an `i32`. -/
def loadNbPid (mode : UInt8) : Rd Bytes PointId :=
  if mode = 1 then do
    let layer ← readNat .panic 1
    let rank ← readNat .panic 4
    pure ⟨layer, rank⟩
  else pure ⟨0, 0⟩

/-- one neighbour in the graph file (/repo/src/hnswio.rs 1256-1275). -/
def loadNeighbour (mode : UInt8) : Rd Bytes Neighbour := do
  let dId ← readNat .panic 8
  let pId ← loadNbPid mode
  let dist ← readNat .panic 4
  pure ⟨UInt64.ofNat dId, F32.ofRaw dist, pId⟩

/-- one list of neighbours (/repo/src/hnswio.rs 1249-1279). -/
def loadList (mode : UInt8) : Rd Bytes (List Neighbour) := do
  let n ← readNat .panic 8
  Rd.rep n (loadNeighbour mode)

/-- `load_point_graph` (/repo/src/hnswio.rs 1221-1289): reads `nb_layer` lists and completes them to
16. -/
def loadPointGraph (d : Descr) : Rd Bytes (DataId × PointId × List (List Neighbour)) := do
  let magic ← readNat .panic 4
  Rd.require (magic = magicPoint) .err
  let origin ← readNat .panic 8
  let layer ← readNat .panic 1
  let rank ← readNat .panic 4
  let lists ← Rd.rep d.nbLayer.toNat (loadList d.mode)
  pure (UInt64.ofNat origin, ⟨layer, rank⟩,
    lists ++ List.replicate (nbLayerMax - d.nbLayer.toNat) [])

/-- what `load_point_data` and `skip_point_data` have in common (/repo/src/hnswio.rs 1128-1153,
1183-1209): the bytes of the vector of one record. -/
def readRecord (eof : Fail) (origin : DataId) : Rd Bytes Bytes := do
  let magic ← readNat eof 4
  Rd.require (magic = magicDataP) .panic
  let id ← readNat eof 8
  Rd.require (id = origin.toNat) .panic
  let len ← readNat eof 8
  readExact eof len

/-- the vector made of the bytes of a record (/repo/src/hnswio.rs 1155-1175). -/
def recordVec (ty : Ty T) (d : Descr) (b : Bytes) : Except Fail (List T) :=
  if ty.noData then .ok []
  else if d.version = 2 then
    match ty.bincode b with
    | some v => .ok v
    | none => .error .panic
  else if d.version = 3 ∨ d.version = 4 then
    if d.dim.toNat * ty.size ≤ b.length then .ok (ty.decVec d.dim.toNat b) else .error .ub
  else .error .exit

/-- `load_point_data` (/repo/src/hnswio.rs 1119-1178); the caller exits the process on an error
(813-817). -/
def loadPointData (ty : Ty T) (d : Descr) (origin : DataId) : Rd Bytes (List T) := do
  let b ← readRecord .exit origin
  Rd.lift (recordVec ty d b)

/-- the vector of a point in the map (/repo/src/hnswio.rs 822-824), both options unwrapped. -/
def mappedVec (ty : Ty T) (dm : Option DataMap) (origin : DataId) : Except Fail (List T) :=
  match dm with
  | none => .error .panic
  | some m =>
    match m.getData ty origin with
    | .error e => .error e
    | .ok none => .error .panic
    | .ok (some v) => .ok v

/-- a loaded point, with its neighbours as in the file and whether its vector is mapped
(`PointData`, /repo/src/hnsw.rs 126-160). -/
structure PointRec (T : Type) where
  pt : Ref T
  lists : List (List Neighbour)
  mapped : Bool

/-- `load_point` (/repo/src/hnswio.rs 793-839). -/
def loadPoint (ty : Ty T) (d : Descr) (dm : Option DataMap) (mm : Bool) : Rd Two (PointRec T) := do
  let (origin, pid, lists) ← onG (loadPointGraph d)
  if mm then do
    let _ ← onD (readRecord .err origin)
    let v ← Rd.lift (mappedVec ty dm origin)
    pure ⟨⟨pid, origin, v⟩, lists, true⟩
  else do
    let v ← onD (loadPointData ty d origin)
    pure ⟨⟨pid, origin, v⟩, lists, false⟩

/-- `x as i64` for `x : usize` -/
def asI64 (n : Nat) : Int := if n < 2 ^ 63 then n else (n : Int) - 2 ^ 64

/-- `ReloadOptions` (/repo/src/hnswio.rs 90-94). -/
structure ReloadOptions where
  datamap : Bool
  threshold : Nat
deriving DecidableEq

/-- `ReloadOptions::default` (/repo/src/hnswio.rs 96-104) -/
def ReloadOptions.default : ReloadOptions := ⟨false, 0⟩

/-- `ReloadOptions::set_mmap` (/repo/src/hnswio.rs 115-118) -/
def ReloadOptions.setMmap (o : ReloadOptions) (b : Bool) : ReloadOptions := { o with datamap := b }

/-- `ReloadOptions::set_mmap_threshold` (/repo/src/hnswio.rs 123-129) -/
def ReloadOptions.setThreshold (o : ReloadOptions) (t : Nat) : ReloadOptions :=
  if t > 0 then ⟨true, t⟩ else o

/-- is the next point mapped (/repo/src/hnswio.rs 674-690) -/
def pointUseMmap (o : ReloadOptions) (still : Int) : Bool :=
  o.datamap && !decide (still ≤ asI64 o.threshold)

/-- the points of layer `l`: `n` are left, the next one has rank `r`
(/repo/src/hnswio.rs 670-716). -/
def loadPoints (ty : Ty T) (d : Descr) (dm : Option DataMap) (o : ReloadOptions) (l : Nat) :
    Nat → Nat → Int → Rd Two (List (PointRec T) × Int)
  | 0, _, still => pure ([], still)
  | n + 1, r, still => do
    let p ← loadPoint ty d dm (pointUseMmap o still)
    Rd.require (l = p.pt.pid.layer) .panic
    Rd.require (p.pt.pid.rank < 2 ^ 31 && r = p.pt.pid.rank) .panic
    Rd.require (0 ≤ still - 1) .panic
    let (ps, still') ← loadPoints ty d dm o l n (r + 1) (still - 1)
    pure (p :: ps, still')

/-- the layers: `n` are left, the next one is `l` (/repo/src/hnswio.rs 655-718). -/
def loadLayers (ty : Ty T) (d : Descr) (dm : Option DataMap) (o : ReloadOptions) :
    Nat → Nat → Int → Rd Two (List (List (PointRec T)))
  | 0, _, _ => pure []
  | n + 1, l, still => do
    let magic ← onG (readNat .err 4)
    Rd.require (magic = magicLayer) .err
    let nbpoints ← onG (readNat .err 8)
    let (ps, still') ← loadPoints ty d dm o l nbpoints 0 still
    let ls ← loadLayers ty d dm o n (l + 1) still'
    pure (ps :: ls)

/-- the results of a function on the elements of a list, or the first failure -/
def mapE {α β : Type} (f : α → Except Fail β) : List α → Except Fail (List β)
  | [] => .ok []
  | a :: as => do
    let b ← f a
    let bs ← mapE f as
    .ok (b :: bs)

/-- `points_by_layer[p.0 as usize][p.1 as usize]` (/repo/src/hnswio.rs 722-725, 767), a panic if out
of range. -/
def resolve (layers : List (List (Ref T))) (p : PointId) : Except Fail (Ref T) :=
  if p.rank < 2 ^ 31 then
    match (layers[p.layer]?).bind fun l => l[p.rank]? with
    | some q => .ok q
    | none => .error .panic
  else .error .panic

/-- one list of links: found back by point id, then sorted (/repo/src/hnswio.rs 724-732). -/
def linkList (P : Policy T) (layers : List (List (Ref T))) (ns : List Neighbour) :
    Except Fail (List (PWO T)) := do
  let es ← mapE (fun n => do
    let q ← resolve layers n.pId
    .ok (⟨q, n.distance⟩ : PWO T)) ns
  match P.sortC es with
  | .ok v => .ok v
  | .error _ => .error .panic

/-- the lists of a point, which has room for 16 of them (/repo/src/hnswio.rs 723-733). -/
def linkPoint (P : Policy T) (layers : List (List (Ref T))) (lists : List (List Neighbour)) :
    Except Fail (List (List (PWO T))) := do
  if nbLayerMax < lists.length then .error .panic
  mapE (linkList P layers) lists

/-- neighbour lists from a table by layer, rank and list number -/
def tableNb (t : List (List (List (List (PWO T))))) (p : PointId) (l : Nat) : List (PWO T) :=
  (((t[p.layer]?).bind fun x => x[p.rank]?).bind fun x => x[l]?).getD []

/-- the table of points and links (/repo/src/hnswio.rs 770-779); the number of points is the number of
those loaded. -/
def mkIdx (layers : List (List (Ref T))) (t : List (List (List (List (PWO T))))) (e : Ref T) : Idx T where
  layers := layers
  nb := tableNb t
  nbPoint := layers.flatten.length
  entry := some e

/-- the index and which points are mapped, in the order of the dump -/
structure Loaded (T : Type) where
  hnsw : Hnsw T
  mapped : List Bool

/-- `load_point_indexation` (/repo/src/hnswio.rs 615-784), without the level generator. -/
def loadIndexation (P : Policy T) (ty : Ty T) (d : Descr) (dm : Option DataMap) (o : ReloadOptions) :
    Rd Two (Idx T × List Bool) := do
  Rd.require (ty.noData || ty.name == d.tName) .panic
  let nbLayer ← onG (readNat .err 1)
  Rd.require (nbLayer ≤ nbLayerMax) .err
  let recs ← loadLayers ty d dm o nbLayer 0 (asI64 d.nbPoint.toNat)
  let layers := recs.map fun l => l.map (·.pt)
  let tbl ← Rd.lift (mapE (fun l => mapE (fun r => linkPoint P layers r.lists) l) recs)
  let _origin ← onG (readNat .err 8)
  let layer ← onG (readNat .err 1)
  let rank ← onG (readNat .err 4)
  let e ← Rd.lift (resolve layers ⟨layer, rank⟩)
  pure (mkIdx layers tbl e, recs.flatten.map (·.mapped))

/-- `HnswIo` (/repo/src/hnswio.rs 302-313); the directory is a `Dir` given to each call. -/
structure HnswIo where
  base : String
  opts : ReloadOptions
  datamap : Option DataMap
  initialized : Bool

/-- `HnswIo::new_with_options` (/repo/src/hnswio.rs 331-340); `new` (316-328) takes the default
options. -/
def HnswIo.new (base : String) (o : ReloadOptions) : HnswIo := ⟨base, o, none, true⟩

/-- `HnswIo::default` (derived, /repo/src/hnswio.rs 301) -/
def HnswIo.default : HnswIo := ⟨"", .default, none, false⟩

/-- `HnswIo::set_values` (/repo/src/hnswio.rs 348-364). -/
def HnswIo.setValues (io : HnswIo) (base : String) (o : ReloadOptions) : HnswIo × Except Fail Unit :=
  if io.initialized then (io, .error .err)
  else ({ io with base := base, opts := o, datamap := none, initialized := true }, .ok ())

/-- `HnswIo::init` (/repo/src/hnswio.rs 367-423). -/
def HnswIo.init (io : HnswIo) (fs : Dir) : Except Fail (Descr × Two) :=
  match fs (graphName io.base), fs (dataName io.base) with
  | some g, some b =>
    match loadDescr g with
    | .ok (d, g') => .ok (d, (g', b))
    | .error .err => .error .panic
    | .error e => .error e
  | _, _ => .error .err

/-- header of the data file (/repo/src/hnswio.rs 451-467, 549-565). -/
def loadDataHeader (d : Descr) : Rd Two Unit := do
  let magic ← onD (readNat .err 4)
  Rd.require (magic = magicDataP) .panic
  let dim ← onD (readNat .err 8)
  Rd.require (dim = d.dim.toNat) .panic

/-- comparison of the distances in `load_hnsw` (/repo/src/hnswio.rs 472-492): the last segments of
the names; `[0]` of an empty list is a panic. -/
def checkDist (ty : Ty T) (name : String) (d : Descr) : Except Fail Unit :=
  if ty.noData then .ok ()
  else
    match (rsplitTerm name).head?, (rsplitTerm d.distName).head? with
    | some a, some b => if a = b then .ok () else .error .err
    | _, _ => .error .panic

/-- the index made by `load_hnsw` (508-519) and `load_hnsw_with_dist` (595-606). -/
def mkHnsw (defScale : Nat → F64) (dist : Dist T) (d : Descr) (idx : Idx T) (mapped : Bool) :
    Hnsw T where
  idx := idx
  cfg := { maxNb := d.maxNb.toNat, efC := d.ef.toNat, extend := true, keepPruned := false,
           maxLayer := d.nbLayer.toNat, eval := dist.eval }
  gen := LayerGen.newWithScale defScale d.maxNb.toNat d.scale nbLayerMax
  distName := dist.name
  mapped := mapped

/-- memory mapping in `load_hnsw` (/repo/src/hnswio.rs 496-504): if it returns `Err` the old map
stays. -/
def HnswIo.mapData (ty : Ty T) (io : HnswIo) (fs : Dir) : Except Fail HnswIo :=
  if io.opts.datamap then
    match DataMap.fromDump ty fs io.base with
    | .ok m => .ok { io with datamap := some m }
    | .error .err => .ok io
    | .error e => .error e
  else .ok io

/-- `load_hnsw` (/repo/src/hnswio.rs 431-524): new state of the `HnswIo` and result. -/
def HnswIo.loadHnsw (P : Policy T) (ty : Ty T) (defScale : Nat → F64) (dist : Dist T) (io : HnswIo)
    (fs : Dir) : HnswIo × Except Fail (Loaded T) :=
  match io.init fs with
  | .error e => (io, .error e)
  | .ok (d, s) =>
    match loadDataHeader d s with
    | .error e => (io, .error e)
    | .ok (_, s) =>
      match checkDist ty dist.name d with
      | .error e => (io, .error e)
      | .ok _ =>
        match io.mapData ty fs with
        | .error e => (io, .error e)
        | .ok io' =>
          match loadIndexation P ty d io'.datamap io'.opts s with
          | .error e => (io', .error e)
          | .ok ((idx, m), _) => (io', .ok ⟨mkHnsw defScale dist d idx true, m⟩)

/-- `load_hnsw_with_dist` (/repo/src/hnswio.rs 531-613): full names are compared, no map is made. -/
def HnswIo.loadHnswWithDist (P : Policy T) (ty : Ty T) (defScale : Nat → F64) (dist : Dist T)
    (io : HnswIo) (fs : Dir) : Except Fail (Loaded T) :=
  match io.init fs with
  | .error e => .error e
  | .ok (d, s) =>
    match loadDataHeader d s with
    | .error e => .error e
    | .ok (_, s) =>
      if !ty.noData && dist.name != d.distName then .error .err
      else
        match loadIndexation P ty d io.datamap io.opts s with
        | .error e => .error e
        | .ok ((idx, m), _) => .ok ⟨mkHnsw defScale dist d idx false, m⟩

end Verif
