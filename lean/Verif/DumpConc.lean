import Verif.Reach
import Verif.Dump

set_option autoImplicit false

/-!
# A dump that runs at the same time as insertions

`Hnsw::dump` takes `&self`; nothing prevents `insert` calls meanwhile. The dump reads the dimension, the
number of points, then holds the table of points until its end; meanwhile no point can be added to the
table, but the lists of links and the entry point still change.
-/

namespace Verif
variable {T : Type}

/-- Progress of `Hnsw::dump` (/repo/src/hnswio.rs 1357-1389, 1302-1341). -/
inductive DumpSt (T : Type) where
  | start
  /-- the dimension is read (1368) -/
  | dim (d : Nat)
  /-- the number of points is read (1377) -/
  | count (d n : Nat)
  /-- the table is locked (1307); `todo` are the points not yet written, `nb` the lists written -/
  | table (d n : Nat) (todo : List (Ref T)) (nb : PointId → Nat → List (PWO T))
  /-- the entry point is read (1322) and the table unlocked: what was written for the table, the lists and
  the entry point, as an index, with `n` as number of points, and the dimension written -/
  | done (d : Nat) (s : Idx T)

/-- the dump has the read guard of the table -/
def DumpSt.holds : DumpSt T → Bool
  | .table .. => true
  | _ => false

/-- A dump and insertion threads. -/
structure DSys (T : Type) where
  st : CSt T
  ins : List (Prog (CSt T) Unit)
  dump : DumpSt T

/-- One step: of an insertion, which cannot change the table while the dump holds it
(`generate_new_point` needs the write guard, /repo/src/hnsw.rs 505), or of the dump. -/
inductive DStep : DSys T → DSys T → Prop
  | ins {s s' : CSt T} {ts ts' : List (Prog (CSt T) Unit)} {d : DumpSt T} (h : Step (s, ts) (s', ts'))
      (hl : d.holds = true → s'.idx.layers = s.idx.layers) : DStep ⟨s, ts, d⟩ ⟨s', ts', d⟩
  /-- `get_data_dimension` -/
  | dim {s : CSt T} {ts : List (Prog (CSt T) Unit)} :
      DStep ⟨s, ts, .start⟩ ⟨s, ts, .dim (getDataDimension s.idx)⟩
  /-- `get_nb_point` -/
  | count {s : CSt T} {ts : List (Prog (CSt T) Unit)} {d : Nat} :
      DStep ⟨s, ts, .dim d⟩ ⟨s, ts, .count d (getNbPoint s.idx)⟩
  /-- `points_by_layer.read()` -/
  | lock {s : CSt T} {ts : List (Prog (CSt T) Unit)} {d n : Nat} :
      DStep ⟨s, ts, .count d n⟩ ⟨s, ts, .table d n s.idx.points fun _ _ => []⟩
  /-- `dump_point`: the lists of one point are read under its lock (`get_neighborhood_id`) -/
  | point {s : CSt T} {ts : List (Prog (CSt T) Unit)} {d n : Nat} {p : Ref T} {todo : List (Ref T)}
      {nb : PointId → Nat → List (PWO T)} :
      DStep ⟨s, ts, .table d n (p :: todo) nb⟩
        ⟨s, ts, .table d n todo fun q => if q = p.pid then s.idx.nb q else nb q⟩
  /-- the entry point -/
  | entry {s : CSt T} {ts : List (Prog (CSt T) Unit)} {d n : Nat} {nb : PointId → Nat → List (PWO T)} :
      DStep ⟨s, ts, .table d n [] nb⟩ ⟨s, ts, .done d ⟨s.idx.layers, nb, n, s.idx.entry⟩⟩

/-- any number of steps, any schedule -/
inductive DSteps : DSys T → DSys T → Prop
  | refl (m : DSys T) : DSteps m m
  | step {a b c : DSys T} : DSteps a b → DStep b c → DSteps a c

/-- `m` is reached from the quiescent state `c0` by running the insertions `jobs`, one thread each, and a
dump. -/
def DExec (P : Policy T) (cfg : Cfg T) (c0 : CSt T) (jobs : List (Job T)) (m : DSys T) : Prop :=
  DSteps ⟨c0, jobs.map (Job.prog P cfg (c0.idx.points.length + jobs.length + 2)), .start⟩ m

/-- The files such a dump writes: the description and the header of the data file with the dimension `d`
read first, the number of points of `s`, then the table, lists and entry point of `s`
(/repo/src/hnswio.rs 1366-1387). `h` gives the settings of the index. -/
def tornDump (ty : Ty T) (h : Hnsw T) (d : Nat) (s : Idx T) (full : Bool) : Out :=
  (dumpDescr { h.descr ty full with dim := UInt64.ofNat d, nbPoint := UInt64.ofNat s.nbPoint } full).seq
    ((Out.data (leBytes 4 magicDataP ++ leBytes 8 d)).seq (dumpIdx ty full s))

/-- the files in a directory, under the name chosen by `file_dump` -/
def tornFiles (ty : Ty T) (h : Hnsw T) (d : Nat) (s : Idx T) (fs : Dir) (name : String) : Dir :=
  (fs.write (graphName name) (tornDump ty h d s true).g).write (dataName name) (tornDump ty h d s true).d

/-- Without interruption the dump is the one of `Dump.lean`. -/
theorem tornDump_self (ty : Ty T) (h : Hnsw T) (full : Bool) :
    tornDump ty h (getDataDimension h.idx) h.idx full = h.dump ty full := rfl

end Verif
