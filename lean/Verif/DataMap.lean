import Verif.Dump

set_option autoImplicit false

/-!
# Header of a dump and memory map of the data file

Model of `load_description` (/repo/src/hnswio.rs) and of /repo/src/datamap.rs.
-/

namespace Verif
variable {T : Type}

/-- a name: its length, at most 256, and its bytes, which must be UTF-8
(/repo/src/hnswio.rs 1004-1018, 1021-1034). -/
def loadStr : Rd Bytes String := do
  let n ← readNat .err 8
  Rd.require (n ≤ 256) .err
  let b ← readExact .err n
  match String.fromUTF8? ⟨b.toArray⟩ with
  | some s => pure s
  | none => Rd.fail .panic

/-- format version of a magic number (/repo/src/hnswio.rs 955-969). -/
def versionOf (magic : Nat) : Option Nat :=
  if magic = magicDescr2 then some 2
  else if magic = magicDescr3 then some 3
  else if magic = magicDescr4 then some 4
  else none

/-- the level scale, only in format 4 (/repo/src/hnswio.rs 981-987, 942). -/
def loadScale (version : Nat) : Rd Bytes F64 :=
  if version = 4 then (do let b ← readNat .err 8; pure (F64.ofRaw b)) else pure F64.one

/-- `load_description` (/repo/src/hnswio.rs 937-1042). -/
def loadDescr : Rd Bytes Descr := do
  let magic ← readNat .err 4
  match versionOf magic with
  | none => Rd.fail .err
  | some version =>
    let mode ← readNat .err 1
    let maxNb ← readNat .err 1
    let scale ← loadScale version
    let nbLayer ← readNat .err 1
    let ef ← readNat .err 8
    let nbPoint ← readNat .err 8
    let dim ← readNat .err 8
    let distName ← loadStr
    let tName ← loadStr
    pure { version, mode := UInt8.ofNat mode, maxNb := UInt8.ofNat maxNb, scale,
           nbLayer := UInt8.ofNat nbLayer, ef := UInt64.ofNat ef, nbPoint := UInt64.ofNat nbPoint,
           dim := UInt64.ofNat dim, distName, tName }

/-! ## Names of types -/

/-- the parts of a string given backwards, separated by `::` -/
def splitSep : List Char → List (List Char)
  | ':' :: ':' :: cs => [] :: splitSep cs
  | c :: cs =>
    match splitSep cs with
    | [] => [[c]]
    | p :: ps => (c :: p) :: ps
  | [] => [[]]

/-- `s.rsplit_terminator("::")`: the parts from the last one on, without the last one if it is
empty. -/
def rsplitTerm (s : String) : List (List Char) :=
  match (splitSep s.toList.reverse).map List.reverse with
  | [] :: r => r
  | r => r

/-! ## The map -/

/-- `DataMap` (/repo/src/datamap.rs 23-36). `bytes` is the mapped file; `hmap` is the `IndexMap` from
ids to addresses, in its iteration order. -/
structure DataMap where
  bytes : Bytes
  hmap : List (DataId × Nat)
  tName : String
  dim : Nat
  distName : String

/-- `IndexMap::insert`: a new key goes to the end, an old one keeps its place and gets the new
value. -/
def imInsert (m : List (DataId × Nat)) (k : DataId) (v : Nat) : List (DataId × Nat) :=
  if m.any (fun e => e.1 == k) then m.map fun e => if e.1 == k then (k, v) else e
  else m ++ [(k, v)]

/-- `IndexMap::get` -/
def imGet (m : List (DataId × Nat)) (k : DataId) : Option Nat := (m.find? fun e => e.1 == k).map (·.2)

/-- `mapped_slice[a..a + n]`, a panic if out of range. -/
def sliceAt (b : Bytes) (a n : Nat) : Except Fail Bytes :=
  if a + n ≤ b.length then .ok ((b.drop a).take n) else .error .panic

/-- the loop on records (/repo/src/datamap.rs 163-208): `n` records are left, the next one is at
address `a`. -/
def mapRecords (size dim : Nat) (b : Bytes) :
    Nat → Nat → List (DataId × Nat) → Except Fail (List (DataId × Nat))
  | 0, _, m => .ok m
  | n + 1, a, m => do
    let magic ← sliceAt b a 4
    if ofLE magic ≠ magicDataP then .error .panic
    let id ← sliceAt b (a + 4) 8
    let len ← sliceAt b (a + 12) 8
    let _v ← sliceAt b (a + 20) (ofLE len)
    if ofLE len < dim * size then .error .ub
    mapRecords size dim b n (a + 20 + ofLE len) (imInsert m (UInt64.ofNat (ofLE id)) (a + 12))

/-- `DataMap::from_hnswdump` (/repo/src/datamap.rs 44-228).  The mapping has the size of the file. -/
def DataMap.fromDump (ty : Ty T) (fs : Dir) (base : String) : Except Fail DataMap :=
  match fs (graphName base) with
  | none => .error .exit
  | some g =>
    match loadDescr g with
    | .error .err => .error .panic
    | .error e => .error e
    | .ok (d, _) =>
      if d.version ≤ 2 then .error .err
      else if ty.name ≠ d.tName then .error .err
      else
        match fs (dataName base) with
        | none => .error .exit
        | some b => do
          let magic ← sliceAt b 0 4
          if ofLE magic ≠ magicDataP then .error .panic
          let dim ← sliceAt b 4 8
          if ofLE dim ≠ d.dim.toNat then .error .err
          let recordSize := 20 + ofLE dim * ty.size
          let m ← mapRecords ty.size (ofLE dim) b ((b.length - 12) / recordSize) 12 []
          .ok { bytes := b, hmap := m, tName := d.tName, dim := d.dim.toNat, distName := d.distName }

/-- address of the slice `get_data` makes (/repo/src/datamap.rs 276-284): the stored address plus
the length field. -/
def DataMap.dataAddr (m : DataMap) (id : DataId) : Option Nat := (imGet m.hmap id).map (· + 8)

/-- `DataMap::get_data` (/repo/src/datamap.rs 272-293): `dimension` elements at that address,
whatever the recorded length; undefined if they go beyond the mapping. -/
def DataMap.getData (ty : Ty T) (m : DataMap) (id : DataId) : Except Fail (Option (List T)) :=
  match imGet m.hmap id with
  | none => .ok none
  | some a => do
    let _len ← sliceAt m.bytes a 8
    if m.bytes.length < a + 8 + m.dim * ty.size then .error .ub
    .ok (some (ty.decVec m.dim (m.bytes.drop (a + 8))))

/-- `DataMap::get_dataid_iter` (/repo/src/datamap.rs 297-299) -/
def DataMap.ids (m : DataMap) : List DataId := m.hmap.map (·.1)

/-- `DataMap::get_nb_data` (/repo/src/datamap.rs 312-314) -/
def DataMap.nbData (m : DataMap) : Nat := m.hmap.length

/-- `DataMap::check_data_type` (/repo/src/datamap.rs 234-264): compares the last elements of the
reversed splits. -/
def DataMap.checkDataType (m : DataMap) (name : String) : Except Fail Bool :=
  match (rsplitTerm m.tName).getLast?, (rsplitTerm name).getLast? with
  | some a, some b => .ok (a == b)
  | _, _ => .error .panic

end Verif
