import Verif.Reach
import Verif.Access

set_option autoImplicit false

/-!
# An iteration over the points that runs at the same time as insertions

`IterPoint` (/repo/src/hnsw.rs 626-690) keeps the read guard of the table as long as it lives, so that no point
is added meanwhile; but the entry point, which tells it where to stop, is read again at the end of each
layer and can change.
-/

namespace Verif
variable {T : Type}

/-- Progress of a loop `for p in &point_indexation` (/repo/src/hnsw.rs 682-690). -/
inductive IterSt (T : Type) where
  | start
  /-- the iterator exists (633-643): position and points yielded. `s0`, which the code does not keep, is the
  index at the moment the iterator was made -/
  | live (s0 : Idx T) (pos : IterPos) (out : List (Ref T))
  /-- `next` has returned `None`: the loop is left and the guard released -/
  | ended (s0 : Idx T) (out : List (Ref T))
  | failed (e : Panic)

/-- the iterator has the read guard of the table -/
def IterSt.holds : IterSt T → Bool
  | .live .. => true
  | _ => false

/-- An iteration and insertion threads. -/
structure ISys (T : Type) where
  st : CSt T
  ins : List (Prog (CSt T) Unit)
  it : IterSt T

/-- One step: of an insertion, which cannot change the table while the iterator holds it
(`generate_new_point` needs the write guard, /repo/src/hnsw.rs 505), or of the iteration. A call of `next` is one
step: it reads the entry point once (660), and the table does not change. -/
inductive IStep : ISys T → ISys T → Prop
  | ins {s s' : CSt T} {ts ts' : List (Prog (CSt T) Unit)} {i : IterSt T} (h : Step (s, ts) (s', ts'))
      (hl : i.holds = true → s'.idx.layers = s.idx.layers) : IStep ⟨s, ts, i⟩ ⟨s', ts', i⟩
  /-- `IterPoint::new` -/
  | new {s : CSt T} {ts : List (Prog (CSt T) Unit)} :
      IStep ⟨s, ts, .start⟩ ⟨s, ts, .live s.idx none []⟩
  /-- `next` returns a point -/
  | yield {s : CSt T} {ts : List (Prog (CSt T) Unit)} {s0 : Idx T} {pos pos' : IterPos}
      {out : List (Ref T)} {p : Ref T} (h : iterNext s.idx pos = .ok (some p, pos')) :
      IStep ⟨s, ts, .live s0 pos out⟩ ⟨s, ts, .live s0 pos' (out ++ [p])⟩
  /-- `next` returns `None` -/
  | stop {s : CSt T} {ts : List (Prog (CSt T) Unit)} {s0 : Idx T} {pos pos' : IterPos}
      {out : List (Ref T)} (h : iterNext s.idx pos = .ok (none, pos')) :
      IStep ⟨s, ts, .live s0 pos out⟩ ⟨s, ts, .ended s0 out⟩
  /-- `next` panics -/
  | fail {s : CSt T} {ts : List (Prog (CSt T) Unit)} {s0 : Idx T} {pos : IterPos}
      {out : List (Ref T)} {e : Panic} (h : iterNext s.idx pos = .error e) :
      IStep ⟨s, ts, .live s0 pos out⟩ ⟨s, ts, .failed e⟩

/-- any number of steps, any schedule -/
inductive ISteps : ISys T → ISys T → Prop
  | refl (m : ISys T) : ISteps m m
  | step {a b c : ISys T} : ISteps a b → IStep b c → ISteps a c

/-- `m` is reached from the quiescent state `c0` by running the insertions `jobs`, one thread each, and an
iteration. -/
def IExec (P : Policy T) (cfg : Cfg T) (c0 : CSt T) (jobs : List (Job T)) (m : ISys T) : Prop :=
  ISteps ⟨c0, jobs.map (Job.prog P cfg (c0.idx.points.length + jobs.length + 2)), .start⟩ m

end Verif
