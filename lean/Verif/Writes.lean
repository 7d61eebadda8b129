import Verif.Dump

set_option autoImplicit false

/-!
# The writes of a dump, one by one

`Dump.lean` gives the bytes of the two files. Here each `write_all` of the dump is an operation on a
`BufWriter` (of the standard library), the operating system may refuse or cut any write, and the process may
be killed at any moment.
-/

namespace Verif
variable {T : Type}

/-! ## The sequence of writes -/

/-- one call of `write_all`, on the graph file or on the data file -/
inductive Wr where
  | g (b : Bytes)
  | d (b : Bytes)

/-- The calls of `write_all` in their order, up to the end or to an error or panic that is not due to a
write, and the result if no write fails. -/
structure Ops where
  ws : List Wr
  res : Except Fail Unit

/-- one sequence after the other, unless the first one ended with an error -/
def Ops.seq (a b : Ops) : Ops :=
  match a.res with
  | .ok _ => ⟨a.ws ++ b.ws, b.res⟩
  | .error _ => a

/-- writes of the first part of `Description::dump` (/repo/src/hnswio.rs 880-891) -/
def Descr.headWrites (d : Descr) (full : Bool) : List Bytes :=
  [leBytes 4 magicDescr4, [modeByte full], [d.maxNb], leBytes 8 d.scale.bits, [d.nbLayer]]

/-- writes of a string (/repo/src/hnswio.rs 907-910, 912-915) -/
def strWrites (s : String) : List Bytes := [leBytes 8 (strBytes s).length, strBytes s]

/-- writes of the second part of `Description::dump` (/repo/src/hnswio.rs 897-915) -/
def Descr.tailWrites (d : Descr) : List Bytes :=
  [leBytes 8 d.ef.toNat, leBytes 8 d.nbPoint.toNat, leBytes 8 d.dim.toNat] ++ strWrites d.distName ++
    strWrites d.tName

/-- `Description::dump` (/repo/src/hnswio.rs 878-919) -/
def descrWr (d : Descr) (full : Bool) : Ops :=
  if d.nbLayer.toNat ≠ nbLayerMax then ⟨(d.headWrites full).map .g, .error .err⟩
  else ⟨(d.headWrites full ++ d.tailWrites).map .g, .ok ()⟩

/-- writes of a `PointId` (/repo/src/hnswio.rs 1074-1075, 1090-1091) -/
def pidWrites (p : PointId) : List Bytes := [[UInt8.ofNat p.layer], leBytes 4 p.rank]

/-- writes of a neighbour (/repo/src/hnswio.rs 1088-1093) -/
def nbWrites (full : Bool) (n : Neighbour) : List Bytes :=
  [leBytes 8 n.dId.toNat] ++ (if full then pidWrites n.pId else []) ++ [leBytes 4 n.distance.bits]

/-- writes of one list (/repo/src/hnswio.rs 1083-1095) -/
def listWrites (full : Bool) (ns : List Neighbour) : List Bytes :=
  [leBytes 8 ns.length] ++ ns.flatMap (nbWrites full)

/-- writes of `dump_point` to the graph file (/repo/src/hnswio.rs 1070-1096) -/
def pointGraphWrites (full : Bool) (s : Idx T) (p : Ref T) : List Bytes :=
  [leBytes 4 magicPoint, leBytes 8 p.origin.toNat] ++ (if full then pidWrites p.pid else []) ++
    (getNeighborhoodId s p).flatMap (listWrites full)

/-- writes of `dump_point` to the data file (/repo/src/hnswio.rs 1098-1111) -/
def pointDataWrites (ty : Ty T) (p : Ref T) : List Bytes :=
  [leBytes 4 magicDataP, leBytes 8 p.origin.toNat, leBytes 8 (ty.encVec p.data).length, ty.encVec p.data]

/-- `dump_point` (/repo/src/hnswio.rs 1063-1114) -/
def pointWr (ty : Ty T) (full : Bool) (s : Idx T) (p : Ref T) : Ops :=
  ⟨(pointGraphWrites full s p).map .g ++ (pointDataWrites ty p).map .d, .ok ()⟩

/-- the points of layer `i`, from rank `j` on (/repo/src/hnswio.rs 1316-1319) -/
def pointsWr (ty : Ty T) (full : Bool) (s : Idx T) (i : Nat) : Nat → List (Ref T) → Ops
  | _, [] => ⟨[], .ok ()⟩
  | j, p :: ps =>
    if p.pid = ⟨i, j⟩ then (pointWr ty full s p).seq (pointsWr ty full s i (j + 1) ps)
    else ⟨[], .error .panic⟩

/-- the layers, from `i` on (/repo/src/hnswio.rs 1311-1320) -/
def layersWr (ty : Ty T) (full : Bool) (s : Idx T) : Nat → List (List (Ref T)) → Ops
  | _, [] => ⟨[], .ok ()⟩
  | i, l :: ls =>
    (⟨[.g (leBytes 4 magicLayer), .g (leBytes 8 l.length)], .ok ()⟩ : Ops).seq
      ((pointsWr ty full s i 0 l).seq (layersWr ty full s (i + 1) ls))

/-- the entry point (/repo/src/hnswio.rs 1322-1332) -/
def entryWr (full : Bool) (s : Idx T) : Ops :=
  match s.entry with
  | none => ⟨[], .error .err⟩
  | some e => ⟨([leBytes 8 e.origin.toNat] ++ if full then pidWrites e.pid else []).map .g, .ok ()⟩

/-- `PointIndexation::dump` (/repo/src/hnswio.rs 1303-1340) -/
def idxWr (ty : Ty T) (full : Bool) (s : Idx T) : Ops :=
  (⟨[.g [UInt8.ofNat s.layers.length]], .ok ()⟩ : Ops).seq
    ((layersWr ty full s 0 s.layers).seq (entryWr full s))

/-- `Hnsw::dump` (/repo/src/hnswio.rs 1357-1389) -/
def Hnsw.ops (ty : Ty T) (h : Hnsw T) (full : Bool) : Ops :=
  (descrWr (h.descr ty full) full).seq
    ((⟨[.d (leBytes 4 magicDataP), .d (leBytes 8 (getDataDimension h.idx))], .ok ()⟩ : Ops).seq
      (idxWr ty full h.idx))

/-! ## Buffered files -/

/-- A `BufWriter<File>`: content of the file and of the buffer. -/
structure Buf where
  file : Bytes
  buf : Bytes

/-- `BufWriter::flush_buf` (standard library): writes to the file until the buffer is empty; if a write
fails, what was written is removed from the buffer. The flag is the success. -/
inductive Flush : Buf → Bool → Buf → Prop
  | ok (f b : Bytes) : Flush ⟨f, b⟩ true ⟨f ++ b, []⟩
  | err (f w r : Bytes) : Flush ⟨f, w ++ r⟩ false ⟨f ++ w, r⟩

/-- `BufWriter::write_all` (standard library) with a buffer of `cap` bytes. -/
inductive WriteAll (cap : Nat) : Buf → Bytes → Bool → Buf → Prop
  /-- there is room -/
  | copy (s : Buf) (b : Bytes) (h : b.length < cap - s.buf.length) : WriteAll cap s b true ⟨s.file, s.buf ++ b⟩
  /-- there is no room and the buffer cannot be written -/
  | noRoom (s s' : Buf) (b : Bytes) (h : cap - s.buf.length < b.length) (hf : Flush s false s') :
      WriteAll cap s b false s'
  /-- exactly enough room -/
  | fill (s : Buf) (b : Bytes) (h : b.length = cap - s.buf.length) (hb : b.length < cap) :
      WriteAll cap s b true ⟨s.file, s.buf ++ b⟩
  /-- the buffer is written, the bytes are copied to it -/
  | flushed (s s' : Buf) (b : Bytes) (h : cap - s.buf.length < b.length) (hf : Flush s true s')
      (hb : b.length < cap) : WriteAll cap s b true ⟨s'.file, s'.buf ++ b⟩
  /-- the buffer is written, and the bytes go directly to the file -/
  | direct (s s' : Buf) (w r : Bytes) (ok : Bool)
      (h : cap - s.buf.length < (w ++ r).length ∧ Flush s true s' ∨
        (w ++ r).length = cap - s.buf.length ∧ s' = s)
      (hb : cap ≤ (w ++ r).length) (hok : ok = true → r = []) :
      WriteAll cap s (w ++ r) ok ⟨s'.file ++ w, s'.buf⟩

/-- how a sequence of writes ends -/
inductive Ending where
  | done
  | failed
  | killed
deriving DecidableEq

/-- Writes on both files, one after the other: all of them done, one of them failed (`?` returns), or the
process killed, possibly in the middle of one of them. -/
inductive Runs (cap : Nat) : Buf → Buf → List Wr → Ending → Buf → Buf → Prop
  | nil (g d : Buf) : Runs cap g d [] .done g d
  | kill (g d : Buf) (ws : List Wr) : Runs cap g d ws .killed g d
  | g {g g' d : Buf} {b : Bytes} {ws : List Wr} {e : Ending} {g2 d2 : Buf} (h : WriteAll cap g b true g')
      (hr : Runs cap g' d ws e g2 d2) : Runs cap g d (.g b :: ws) e g2 d2
  | d {g d d' : Buf} {b : Bytes} {ws : List Wr} {e : Ending} {g2 d2 : Buf} (h : WriteAll cap d b true d')
      (hr : Runs cap g d' ws e g2 d2) : Runs cap g d (.d b :: ws) e g2 d2
  | gStop {g g' d : Buf} {b : Bytes} {ws : List Wr} {e : Ending} (h : WriteAll cap g b false g')
      (he : e ≠ .done) : Runs cap g d (.g b :: ws) e g' d
  | dStop {g d d' : Buf} {b : Bytes} {ws : List Wr} {e : Ending} (h : WriteAll cap d b false d')
      (he : e ≠ .done) : Runs cap g d (.d b :: ws) e g d'

/-- drop of a `BufWriter` (standard library): a flush whose failure is ignored; or killed meanwhile -/
def Dropped (s s' : Buf) : Prop := ∃ ok, Flush s ok s'

/-- `dump` returns, with `Ok` or `Err` -/
def Returns (res : Except Fail Unit) (e : Ending) : Prop := e = .failed ∨ e = .done ∧ res ≠ .error .panic

/-- End of `file_dump` (/repo/src/api.rs 79-86): `flush` on the data file and on the graph file
(/repo/src/hnswio.rs 243-247), the result, and the drop of the writers. `res` is the result if no write
fails, `e` the way the writes ended. The answer is `none` if the process is killed. -/
inductive Finish (res : Except Fail Unit) (name : String) :
    Ending → Buf → Buf → Buf → Buf → Option (Except Fail String) → Prop
  | killed (g d : Buf) : Finish res name .killed g d g d none
  | killedLate {e : Ending} {g d g' d' : Buf} (he : e ≠ .killed) (hd : Dropped d d')
      (hg : Dropped g g') : Finish res name e g d g' d' none
  /-- the assertion on point ids: the writers are dropped while unwinding -/
  | panic {g d g' d' : Buf} (h : res = .error .panic) (hd : Dropped d d') (hg : Dropped g g') :
      Finish res name .done g d g' d' (some (.error .panic))
  | flushData {e : Ending} {g d d1 g' d' : Buf} (he : Returns res e) (h1 : Flush d false d1)
      (hd : Dropped d1 d') (hg : Dropped g g') : Finish res name e g d g' d' (some (.error .err))
  | flushGraph {e : Ending} {g d g1 g' d' : Buf} (he : Returns res e) (hd : Flush d true d')
      (h1 : Flush g false g1) (hg : Dropped g1 g') : Finish res name e g d g' d' (some (.error .err))
  /-- a write or the dump itself has failed -/
  | err {e : Ending} {g d g' d' : Buf} (he : e = .failed ∨ e = .done ∧ res = .error .err)
      (hd : Flush d true d') (hg : Flush g true g') : Finish res name e g d g' d' (some (.error .err))
  | ok {g d g' d' : Buf} (h : res = .ok ()) (hd : Flush d true d') (hg : Flush g true g') :
      Finish res name .done g d g' d' (some (.ok name))

/-- `file_dump` (/repo/src/api.rs 69-86) when any operation on the files may fail and the process may be
killed: the directory and the answer it may leave (`none` if killed). Both files are opened, with
truncation, before the first write (/repo/src/hnswio.rs 190-225); a panic if one cannot be. -/
inductive DumpsTo (ty : Ty T) (h : Hnsw T) (cap : Nat) (fs : Dir) (base : String) (draws : List Nat) :
    Dir → Option (Except Fail String) → Prop
  | killed : DumpsTo ty h cap fs base draws fs none
  | noGraph {name : String} (hn : dumpName fs base (!h.mapped) draws = some name) :
      DumpsTo ty h cap fs base draws fs (some (.error .panic))
  | killedOpen {name : String} (hn : dumpName fs base (!h.mapped) draws = some name) :
      DumpsTo ty h cap fs base draws (fs.write (graphName name) []) none
  | noData {name : String} (hn : dumpName fs base (!h.mapped) draws = some name) :
      DumpsTo ty h cap fs base draws (fs.write (graphName name) []) (some (.error .panic))
  | run {name : String} {e : Ending} {g d g' d' : Buf} {r : Option (Except Fail String)}
      (hn : dumpName fs base (!h.mapped) draws = some name)
      (hr : Runs cap ⟨[], []⟩ ⟨[], []⟩ (h.ops ty true).ws e g d)
      (hf : Finish (h.ops ty true).res name e g d g' d' r) :
      DumpsTo ty h cap fs base draws ((fs.write (graphName name) g'.file).write (dataName name) d'.file) r

end Verif
