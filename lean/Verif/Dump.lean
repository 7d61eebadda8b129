import Verif.Bytes
import Verif.Access
import Verif.Level

set_option autoImplicit false

/-!
# Dump

Model of the writing half of /repo/src/hnswio.rs and of `file_dump` in /repo/src/api.rs.
-/

namespace Verif
variable {T : Type}

/-- `MAGICPOINT` (/repo/src/hnswio.rs 49) -/
def magicPoint : Nat := 0x000a678f
/-- `MAGICDESCR_2` (/repo/src/hnswio.rs 51) -/
def magicDescr2 : Nat := 0x002a677f
/-- `MAGICDESCR_3` (/repo/src/hnswio.rs 58) -/
def magicDescr3 : Nat := 0x002a6771
/-- `MAGICDESCR_4` (/repo/src/hnswio.rs 62) -/
def magicDescr4 : Nat := 0x002a6779
/-- `MAGICLAYER` (/repo/src/hnswio.rs 65) -/
def magicLayer : Nat := 0x000a676f
/-- `MAGICDATAP` (/repo/src/hnswio.rs 67) -/
def magicDataP : Nat := 0xa67f0000

/-- What the dump and the reload know of the element type `T`: `type_name::<T>()`, whether it is
`NoData` (`TypeId` tests), `size_of::<T>()`, `align_of::<T>()`, the memory representation of a value
and the value of a memory area, and the `bincode` decoder of old dumps. -/
structure Ty (T : Type) where
  name : String
  noData : Bool
  size : Nat
  align : Nat
  enc : T → Bytes
  dec : Bytes → T
  bincode : Bytes → Option (List T)

/-- values have a representation of `size` bytes that determines them -/
structure Ty.Lawful (ty : Ty T) : Prop where
  enc_len : ∀ x, (ty.enc x).length = ty.size
  dec_enc : ∀ x, ty.dec (ty.enc x) = x

/-- the bytes of a vector, as seen by `from_raw_parts(.., size_of_val(..))`
(/repo/src/hnswio.rs 1102-1107). -/
def Ty.encVec (ty : Ty T) (v : List T) : Bytes := v.flatMap ty.enc

/-- `n` values read in memory (`from_raw_parts(ptr as *const T, n)`, /repo/src/hnswio.rs
1155-1160). -/
def Ty.decVec (ty : Ty T) : Nat → Bytes → List T
  | 0, _ => []
  | n + 1, b => ty.dec (b.take ty.size) :: ty.decVec n (b.drop ty.size)

/-- A whole index: `Hnsw<T, D>` (/repo/src/hnsw.rs 736-760). `distName` is `type_name::<D>()`,
`mapped` is `datamap_opt`. -/
structure Hnsw (T : Type) where
  idx : Idx T
  cfg : Cfg T
  gen : LayerGen
  distName : String
  mapped : Bool

/-- `Description` (/repo/src/hnswio.rs 844-868). -/
structure Descr where
  version : Nat
  mode : UInt8
  maxNb : UInt8
  scale : F64
  nbLayer : UInt8
  ef : UInt64
  nbPoint : UInt64
  dim : UInt64
  distName : String
  tName : String
deriving DecidableEq

/-- the bytes of a string -/
def strBytes (s : String) : Bytes := s.toUTF8.data.toList

/-- a string in a dump: length, then bytes (/repo/src/hnswio.rs 908-916). -/
def dumpStr (s : String) : Bytes := leBytes 8 (strBytes s).length ++ strBytes s

/-- the byte of the dump mode, 1 for `Full` (/repo/src/hnswio.rs 881-884) -/
def modeByte (full : Bool) : UInt8 := if full then 1 else 0

/-- first part of `Description::dump` (/repo/src/hnswio.rs 880-892). -/
def Descr.headBytes (d : Descr) (full : Bool) : Bytes :=
  leBytes 4 magicDescr4 ++ [modeByte full] ++ [d.maxNb] ++ leBytes 8 d.scale.bits ++ [d.nbLayer]

/-- second part of `Description::dump` (/repo/src/hnswio.rs 897-916). -/
def Descr.tailBytes (d : Descr) : Bytes :=
  leBytes 8 d.ef.toNat ++ leBytes 8 d.nbPoint.toNat ++ leBytes 8 d.dim.toNat ++
    dumpStr d.distName ++ dumpStr d.tName

/-- What a dump leaves: the bytes of the graph file and of the data file, and its result. -/
structure Out where
  g : Bytes
  d : Bytes
  res : Except Fail Unit

/-- write to the graph file -/
def Out.graph (b : Bytes) : Out := ⟨b, [], .ok ()⟩

/-- write to the data file -/
def Out.data (b : Bytes) : Out := ⟨[], b, .ok ()⟩

/-- one write after the other, unless the first one failed -/
def Out.seq (a b : Out) : Out :=
  match a.res with
  | .ok _ => ⟨a.g ++ b.g, a.d ++ b.d, b.res⟩
  | .error _ => a

/-- `Description::dump` (/repo/src/hnswio.rs 878-919): always written with the magic of format 4;
fails after the layer count unless it is `NB_LAYER_MAX`. -/
def dumpDescr (d : Descr) (full : Bool) : Out :=
  if d.nbLayer.toNat ≠ nbLayerMax then ⟨d.headBytes full, [], .error .err⟩
  else .graph (d.headBytes full ++ d.tailBytes)

/-- a `PointId` in a dump: `u8` and `i32` (/repo/src/hnswio.rs 1073-1076). -/
def pidBytes (p : PointId) : Bytes := UInt8.ofNat p.layer :: leBytes 4 p.rank

/-- one neighbour (/repo/src/hnswio.rs 1087-1096). -/
def nbBytes (full : Bool) (n : Neighbour) : Bytes :=
  leBytes 8 n.dId.toNat ++ (if full then pidBytes n.pId else []) ++ leBytes 4 n.distance.bits

/-- the lists of a point (/repo/src/hnswio.rs 1079-1098). -/
def listBytes (full : Bool) (ns : List Neighbour) : Bytes :=
  leBytes 8 ns.length ++ ns.flatMap (nbBytes full)

/-- graph part of `dump_point` (/repo/src/hnswio.rs 1063-1098). -/
def pointGraphBytes (full : Bool) (s : Idx T) (p : Ref T) : Bytes :=
  leBytes 4 magicPoint ++ leBytes 8 p.origin.toNat ++ (if full then pidBytes p.pid else []) ++
    (getNeighborhoodId s p).flatMap (listBytes full)

/-- data part of `dump_point` (/repo/src/hnswio.rs 1099-1112). -/
def pointDataBytes (ty : Ty T) (p : Ref T) : Bytes :=
  leBytes 4 magicDataP ++ leBytes 8 p.origin.toNat ++ leBytes 8 (ty.encVec p.data).length ++
    ty.encVec p.data

/-- `dump_point` (/repo/src/hnswio.rs 1063-1115). -/
def dumpPoint (ty : Ty T) (full : Bool) (s : Idx T) (p : Ref T) : Out :=
  ⟨pointGraphBytes full s p, pointDataBytes ty p, .ok ()⟩

/-- the points of layer `i`, from rank `j` on, with the assertion on their ids
(/repo/src/hnswio.rs 1316-1319). -/
def dumpPoints (ty : Ty T) (full : Bool) (s : Idx T) (i : Nat) : Nat → List (Ref T) → Out
  | _, [] => .graph []
  | j, p :: ps =>
    if p.pid = ⟨i, j⟩ then (dumpPoint ty full s p).seq (dumpPoints ty full s i (j + 1) ps)
    else ⟨[], [], .error .panic⟩

/-- the layers, from `i` on (/repo/src/hnswio.rs 1311-1321). -/
def dumpLayers (ty : Ty T) (full : Bool) (s : Idx T) : Nat → List (List (Ref T)) → Out
  | _, [] => .graph []
  | i, l :: ls =>
    (Out.graph (leBytes 4 magicLayer ++ leBytes 8 l.length)).seq
      ((dumpPoints ty full s i 0 l).seq (dumpLayers ty full s (i + 1) ls))

/-- id of the entry point (/repo/src/hnswio.rs 1322-1333); an error if there is none. -/
def dumpEntry (full : Bool) (s : Idx T) : Out :=
  match s.entry with
  | none => ⟨[], [], .error .err⟩
  | some e => .graph (leBytes 8 e.origin.toNat ++ if full then pidBytes e.pid else [])

/-- `PointIndexation::dump` (/repo/src/hnswio.rs 1303-1340). -/
def dumpIdx (ty : Ty T) (full : Bool) (s : Idx T) : Out :=
  (Out.graph [UInt8.ofNat s.layers.length]).seq
    ((dumpLayers ty full s 0 s.layers).seq (dumpEntry full s))

/-- the description made by `Hnsw::dump` (/repo/src/hnswio.rs 1362-1380). -/
def Hnsw.descr (ty : Ty T) (h : Hnsw T) (full : Bool) : Descr where
  version := 3
  mode := modeByte full
  maxNb := UInt8.ofNat h.cfg.maxNb
  scale := h.gen.scale
  nbLayer := UInt8.ofNat h.cfg.maxLayer
  ef := UInt64.ofNat h.cfg.efC
  nbPoint := UInt64.ofNat (getNbPoint h.idx)
  dim := UInt64.ofNat (getDataDimension h.idx)
  distName := h.distName
  tName := ty.name

/-- header of the data file (/repo/src/hnswio.rs 1384-1385). -/
def dataHeader (s : Idx T) : Bytes := leBytes 4 magicDataP ++ leBytes 8 (getDataDimension s)

/-- `Hnsw::dump` (/repo/src/hnswio.rs 1357-1389). -/
def Hnsw.dump (ty : Ty T) (h : Hnsw T) (full : Bool) : Out :=
  (dumpDescr (h.descr ty full) full).seq
    ((Out.data (dataHeader h.idx)).seq (dumpIdx ty full h.idx))

/-! ## Directories -/

/-- Content of a directory: which files exist, with what content. -/
abbrev Dir := String → Option Bytes

/-- create or truncate a file and give it a content -/
def Dir.write (d : Dir) (name : String) (b : Bytes) : Dir := fun n => if n = name then some b else d n

/-- name of the graph file (/repo/src/hnswio.rs 189-190, 373-374) -/
def graphName (base : String) : String := base ++ ".hnsw.graph"

/-- name of the data file (/repo/src/hnswio.rs 160-161, 207-208) -/
def dataName (base : String) : String := base ++ ".hnsw.data"

/-- the loop drawing numbers until the data file does not exist (/repo/src/hnswio.rs 166-181);
`draws` are the successive outputs of the random generator, each `< 10000`; `none` if all of them were
taken, in which case the code goes on drawing. -/
def uniqueName (d : Dir) (base : String) : List Nat → Option String
  | [] => none
  | i :: is =>
    if d (dataName (base ++ "-" ++ toString i)) = none then some (base ++ "-" ++ toString i)
    else uniqueName d base is

/-- base name chosen by `DumpInit::new` (/repo/src/hnswio.rs 152-187). -/
def dumpName (d : Dir) (base : String) (overwrite : Bool) (draws : List Nat) : Option String :=
  if overwrite then some base
  else if d (dataName base) = none then some base
  else uniqueName d base draws

/-- `file_dump` (/repo/src/api.rs 69-86) with `DumpInit::new` (/repo/src/hnswio.rs 150-233): both
files are created or truncated, then the dump is written; what was written before an error or a
panic stays. -/
def fileDump (ty : Ty T) (h : Hnsw T) (d : Dir) (base : String) (draws : List Nat) :
    Option (Dir × Except Fail String) :=
  (dumpName d base (!h.mapped) draws).map fun name =>
    let out := h.dump ty true
    ((d.write (graphName name) out.g).write (dataName name) out.d,
      match out.res with
      | .ok _ => .ok name
      | .error e => .error e)

end Verif
