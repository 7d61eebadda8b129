import Verif.Api
import Verif.Filter

set_option autoImplicit false

/-!
# The C interface

Model of /repo/src/libext.rs and /repo/src/api.rs.  A pointer to memory is modelled by the list of the
values stored there; reading past its end is `Fail.ub`.  A panic in an `extern "C"` function does not
return to the caller (`Fail.panic`).  Strings are given as such (`from_utf8_lossy` of the bytes of the
caller).  Functions are the same for all element types; the `f32` ones are written out in the source
(651-764), the others come from macros.
-/

namespace Verif
variable {T : Type}

/-- `std::slice::from_raw_parts(mem, len)` -/
def cSlice {α : Type} (mem : List α) (len : Nat) : Except Fail (List α) :=
  if len ≤ mem.length then .ok (mem.take len) else .error .ub

/-- `Neighbour_api` (/repo/src/libext.rs 63-70). -/
structure NeighbourApi where
  id : DataId
  d : F32
deriving DecidableEq

/-- `From<&Neighbour> for Neighbour_api` (/repo/src/libext.rs 72-79). -/
def NeighbourApi.from (n : Neighbour) : NeighbourApi := ⟨n.dId, n.distance⟩

/-- `Vec_api<T>` (/repo/src/libext.rs 56-61) and `Neighbourhood_api` (81-86): a length and a pointer
to a forgotten vector. -/
structure CArr (α : Type) where
  len : Int
  mem : List α

/-- what a C program reads from such a structure: `len` values -/
def CArr.read {α : Type} (a : CArr α) : Except Fail (List α) :=
  if 0 ≤ a.len then cSlice a.mem a.len.toNat else .error .ub

/-- a call of the library from an `extern "C"` function -/
def cCall {α : Type} (x : Except Panic α) : Except Fail α :=
  match x with
  | .ok a => .ok a
  | .error _ => .error .panic

/-- `insert_*` (/repo/src/libext.rs 106-123, 654-671): the pair given to `Hnsw::insert`. -/
def cInsertArg (len : Nat) (data : List T) (id : DataId) : Except Fail (List T × DataId) :=
  match cSlice data len with
  | .error e => .error e
  | .ok v => .ok (v, id)

/-- the loop making the vectors (/repo/src/libext.rs 149-155): `n` of them, from the `i`-th pointer -/
def cVectors (ptrs : List (List T)) (vecLen : Nat) : Nat → Nat → Except Fail (List (List T))
  | 0, _ => .ok []
  | n + 1, i =>
    match ptrs[i]? with
    | none => .error .panic
    | some p =>
      match cSlice p vecLen with
      | .error e => .error e
      | .ok v =>
        match cVectors ptrs vecLen n (i + 1) with
        | .error e => .error e
        | .ok vs => .ok (v :: vs)

/-- the loop making the request (/repo/src/libext.rs 157-160) -/
def cRequest (vs : List (List T)) (ids : List DataId) : Nat → Nat → Except Fail (List (List T × DataId))
  | 0, _ => .ok []
  | n + 1, i =>
    match vs[i]?, ids[i]? with
    | some v, some id =>
      match cRequest vs ids n (i + 1) with
      | .error e => .error e
      | .ok r => .ok ((v, id) :: r)
    | _, _ => .error .panic

/-- `parallel_insert_*` (/repo/src/libext.rs 127-166, 676-716): the batch given to
`Hnsw::parallel_insert`. -/
def cParallelInsertArg (nbVec vecLen : Nat) (datas : List (List T)) (ids : List DataId) :
    Except Fail (List (List T × DataId)) :=
  match cSlice ids nbVec, cSlice datas nbVec with
  | .ok dataIds, .ok ptrs =>
    match cVectors ptrs vecLen nbVec 0 with
    | .error e => .error e
    | .ok vs => cRequest vs dataIds nbVec 0
  | .error e, _ => .error e
  | _, .error e => .error e

/-- the structure returned for one answer (/repo/src/libext.rs 188-200, 231-242). -/
def toNeighbourhood (ns : List Neighbour) : CArr NeighbourApi :=
  let api := ns.map NeighbourApi.from
  ⟨asI64 ns.length, api⟩

/-- `search_neighbours_*` (/repo/src/libext.rs 169-203, 721-763). -/
def cSearch (P : Policy T) (cfg : Cfg T) (s : Idx T) (len : Nat) (data : List T) (knbn ef : Nat) :
    Except Fail (CArr NeighbourApi) :=
  match cSlice data len with
  | .error e => .error e
  | .ok v =>
    match cCall (search P cfg s v knbn ef) with
    | .error e => .error e
    | .ok ns => .ok (toNeighbourhood ns)

/-- `x as usize` for an `i64` -/
def asUsize (x : Int) : Nat := (x % 2 ^ 64).toNat

/-- `parallel_search_neighbours_*` (/repo/src/libext.rs 205-254); `order` as in `parallelSearch`. -/
def cParallelSearch (P : Policy T) (cfg : Cfg T) (s : Idx T) (nbVec : Nat) (vecLen : Int)
    (data : List (List T)) (knbn ef : Nat) (order : List Nat) :
    Except Fail (CArr (CArr NeighbourApi)) :=
  match cSlice data nbVec with
  | .error e => .error e
  | .ok ptrs =>
    match cVectors ptrs (asUsize vecLen) nbVec 0 with
    | .error e => .error e
    | .ok vs =>
      match cCall (parallelSearch P cfg s vs knbn ef order) with
      | .error e => .error e
      | .ok answers => .ok ⟨asI64 nbVec, answers.map toNeighbourhood⟩

/-- `file_dump_*` (/repo/src/libext.rs 257-277), in the current directory.  The name used by the dump
is not returned. -/
def cFileDump (ty : Ty T) (h : Hnsw T) (fs : Dir) (name : String) (draws : List Nat) :
    Option (Dir × Except Fail Int) :=
  (fileDump ty h fs name draws).map fun (fs', r) =>
    (fs', match r with
      | .ok _ => .ok 1
      | .error .err => .ok (-1)
      | .error e => .error e)

/-- `get_hnswio` (/repo/src/libext.rs 28-33). -/
def cGetHnswio (name : String) : HnswIo := HnswIo.new name .default

/-- `load_hnswdump_*` (/repo/src/libext.rs 280-302); `none` is the null pointer. -/
def cLoad (P : Policy T) (ty : Ty T) (defScale : Nat → F64) (dist : Dist T) (io : HnswIo) (fs : Dir) :
    HnswIo × Except Fail (Option (Hnsw T)) :=
  match io.loadHnsw P ty defScale dist fs with
  | (io', .ok x) => (io', .ok (some x.hnsw))
  | (io', .error .err) => (io', .ok none)
  | (io', .error e) => (io', .error e)

/-- `DescriptionFFI` (/repo/src/libext.rs 1116-1137); `none` is a null pointer, with its length 0. -/
structure DescriptionFFI where
  dumpmode : UInt8
  maxNb : UInt8
  nbLayer : UInt8
  ef : UInt64
  nbPoint : UInt64
  dim : UInt64
  distLen : Nat
  dist : Option Bytes
  tLen : Nat
  tName : Option Bytes

/-- `DescriptionFFI::new` (/repo/src/libext.rs 1146-1159). -/
def DescriptionFFI.new : DescriptionFFI := ⟨0, 0, 0, 0, 0, 0, 0, none, 0, none⟩

/-- `load_hnsw_description` (/repo/src/libext.rs 1167-1229): `fname` is the name of the file itself;
`none` is the null pointer. -/
def cLoadDescription (fs : Dir) (fname : String) : Except Fail (Option DescriptionFFI) :=
  match fs fname with
  | none => .ok none
  | some b =>
    match loadDescr b with
    | .ok (d, _) => .ok (some { DescriptionFFI.new with
        dumpmode := 1
        maxNb := d.maxNb
        nbLayer := d.nbLayer
        ef := d.ef
        dim := d.dim
        distLen := (strBytes d.distName).length
        dist := some (strBytes d.distName)
        tLen := (strBytes d.tName).length
        tName := some (strBytes d.tName) })
    | .error .err => .ok none
    | .error e => .error e

/-! ## Names of distances -/

/-- element types of the interface -/
inductive CTy where
  | f32 | i32 | u32 | u16 | u8
deriving DecidableEq

/-- distances accepted by `init_hnsw_*` (/repo/src/libext.rs 455-520, 775-806, 839-877, 910-954,
1054-1091); the distance built is the one named, with `max_layer = 16` -/
def cInitNames : CTy → List String
  | .f32 => ["DistL1", "DistL2", "DistDot", "DistHellinger", "DistJeffreys", "DistJensenShannon"]
  | .i32 => ["DistL1", "DistL2", "DistHamming"]
  | .u32 => ["DistL1", "DistL2", "DistJaccard", "DistHamming"]
  | .u16 => ["DistL1", "DistL2", "DistHamming", "DistJaccard", "DistLevenshtein"]
  | .u8 => ["DistL1", "DistL2", "DistHamming", "DistJaccard"]

/-- distances for which there is a `load_hnswdump_*` function (/repo/src/libext.rs 306-441) -/
def cLoadNames : CTy → List String
  | .f32 => ["DistL1", "DistL2", "DistCosine", "DistDot", "DistJensenShannon", "DistJeffreys"]
  | .i32 => ["DistL1", "DistL2", "DistHamming"]
  | .u32 => ["DistL1", "DistL2", "DistHamming", "DistJaccard"]
  | .u16 => ["DistL1", "DistL2", "DistHamming", "DistLevenshtein"]
  | .u8 => ["DistL1", "DistL2", "DistHamming", "DistJaccard"]

/-- `init_hnsw_*`: `distOf` gives the distance of a name (its Rust type name and function); `none` is
the null pointer for an unknown name. -/
def cInit (defScale : Nat → F64) (distOf : String → Dist T) (ct : CTy) (maxNb ef : Nat) (name : String) :
    Except Fail (Option (Hnsw T)) :=
  if name ∈ cInitNames ct then
    match Hnsw.new defScale maxNb 16 ef (distOf name) with
    | .ok h => .ok (some h)
    | .error e => .error e
  else .ok none

end Verif
