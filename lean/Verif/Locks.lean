import Verif.Basic

/-!
# Locks of the index

A model of the locks only: which thread asks for which lock, in which order, and how long it keeps it. The
values read are not modelled; they only decide which lists are visited, so that the sequences of lock
operations below take the visited points as arbitrary parameters.

`parking_lot::RwLock` (hnsw.rs 13, hnswio.rs 30) is task-fair: a thread that asks for reading has to wait
not only while a thread holds the lock for writing but also while a thread waits to write. A thread that
cannot write at once says so and then waits until nobody holds the lock.
-/

set_option autoImplicit false

namespace Verif

/-- The locks of an index: `points_by_layer` (hnsw.rs 396), `entry_point` (402), `nb_point` (400), the mutex
of the random generator (hnsw.rs 317), and the lock `neighbours` of each point (hnsw.rs 172). Points are
numbered in the order in which they become known to other threads (first back link written, or entry
point). -/
inductive Lock where
  | table | entry | count | rng
  | nb (p : Nat)
  deriving DecidableEq, Repr

/-- `read()`, `write()` (or `lock()` of a mutex) and the drop of the guard. -/
inductive LockOp where
  | rd (k : Lock)
  | wr (k : Lock)
  | rel (k : Lock)
  deriving DecidableEq, Repr

/-- A thread: what it still has to do, the guards it holds, and whether it waits to write. -/
structure LThread where
  todo : List LockOp
  shared : List Lock
  excl : List Lock
  waiting : Bool
  deriving DecidableEq, Repr

def LThread.start (ops : List LockOp) : LThread := ⟨ops, [], [], false⟩

/-- the thread waits to write the lock -/
def LThread.waitsFor (t : LThread) (k : Lock) : Bool :=
  t.waiting && decide (t.todo.head? = some (.wr k))

def LThread.finished (t : LThread) : Prop := t.todo = []

instance (t : LThread) : Decidable t.finished := inferInstanceAs (Decidable (t.todo = []))

/-- The next operation of a thread among the threads `ts`, if it is possible now (task-fair policy). -/
def LThread.next (ts : List LThread) (t : LThread) : Option LThread :=
  match t.todo with
  | [] => none
  | .rd k :: r =>
    if ts.all (fun u => !u.excl.contains k && !u.waitsFor k) then
      some { t with todo := r, shared := k :: t.shared }
    else none
  | .wr k :: r =>
    if t.waiting then
      if ts.all (fun u => !u.excl.contains k && !u.shared.contains k) then
        some { t with todo := r, excl := k :: t.excl, waiting := false }
      else none
    else some { t with waiting := true }
  | .rel k :: r =>
    some (if t.excl.contains k then { t with todo := r, excl := t.excl.erase k }
      else { t with todo := r, shared := t.shared.erase k })

/-- One thread makes one step. -/
inductive LStep : List LThread → List LThread → Prop
  | mk {ts : List LThread} (i : Nat) {t t' : LThread} (ht : ts[i]? = some t) (hn : t.next ts = some t') :
      LStep ts (ts.set i t')

inductive LSteps : List LThread → List LThread → Prop
  | refl (ts : List LThread) : LSteps ts ts
  | step {ts us vs : List LThread} (h : LSteps ts us) (hs : LStep us vs) : LSteps ts vs

/-- Nobody can go on though somebody has not finished. -/
def Deadlock (ts : List LThread) : Prop :=
  (∃ t ∈ ts, ¬ t.finished) ∧ ∀ t ∈ ts, t.next ts = none

instance (ts : List LThread) : Decidable (Deadlock ts) := inferInstanceAs (Decidable (_ ∧ _))

/-- a schedule: the threads that make the steps, one after the other -/
def lrun : List LThread → List Nat → Option (List LThread)
  | ts, [] => some ts
  | ts, i :: is =>
    match ts[i]? with
    | none => none
    | some t =>
      match t.next ts with
      | none => none
      | some t' => lrun (ts.set i t') is

theorem LSteps.head {ts us vs : List LThread} (h : LStep ts us) (h2 : LSteps us vs) : LSteps ts vs := by
  induction h2 with
  | refl => exact .step (.refl _) h
  | step _ hs ih => exact .step ih hs

theorem lrun_steps {ts us : List LThread} {is : List Nat} (h : lrun ts is = some us) : LSteps ts us := by
  induction is generalizing ts with
  | nil => simp only [lrun, Option.some.injEq] at h; subst h; exact .refl _
  | cons i is ih =>
    unfold lrun at h
    split at h
    · cases h
    · rename_i t ht
      split at h
      · cases h
      · rename_i t' hn
        exact LSteps.head (.mk i ht hn) (ih h)

theorem lrun_exists {ts : List LThread} (is : List Nat) {Q : List LThread → Prop} [DecidablePred Q]
    (h : (lrun ts is).any (fun us => decide (Q us)) = true) : ∃ us, LSteps ts us ∧ Q us := by
  cases hr : lrun ts is with
  | none => simp [hr] at h
  | some us => exact ⟨us, lrun_steps hr, by simpa [hr] using h⟩

/-! ## The operations of each function -/

/-- a guard taken for reading and dropped before anything else is locked -/
def rdOnly (k : Lock) : List LockOp := [.rd k, .rel k]

/-- a guard taken for writing and dropped before anything else is locked -/
def wrOnly (k : Lock) : List LockOp := [.wr k, .rel k]

/-- `get_nb_point` (hnsw.rs 556-558) -/
def getNbPointOps : List LockOp := rdOnly .count

/-- `get_data_dimension`, `get_max_level_observed` (hnsw.rs 470-476, 571-578) -/
def entryOps : List LockOp := rdOnly .entry

/-- `get_layer_nb_point` (hnsw.rs 561-568): the guard of the first line is dropped at its end -/
def layerNbPointOps (found : Bool) : List LockOp :=
  rdOnly .table ++ if found then rdOnly .table else []

/-- `get_point_data`, `get_point` (hnsw.rs 584-613): in the condition `entry_point` and the table are locked
one after the other. -/
def getPointOps (found : Bool) : List LockOp :=
  entryOps ++ layerNbPointOps found ++ if found then rdOnly .table else []

/-- `get_neighborhood_id`, `debug_dump` of a point (hnsw.rs 221-265) -/
def neighborhoodOps (p : Nat) : List LockOp := rdOnly (.nb p)

/-- `search_layer` (hnsw.rs 933, 984): the table, then the list of each expanded point; the guard of line
984 lives until the end of the iteration, in which nothing else is locked. -/
def searchLayerOps (visited : List Nat) : List LockOp :=
  rdOnly .table ++ visited.flatMap fun v => rdOnly (.nb v)

/-- `search_filter` (hnsw.rs 1462-1535): entry point (1473), the lists of the pivots (1490), the number of
points of the layers from the lowest one (1511-1517), the search. -/
def searchOps (pivots : List Nat) (layers : List Bool) (visited : List Nat) : List LockOp :=
  entryOps ++ (pivots.flatMap fun v => rdOnly (.nb v)) ++ layers.flatMap layerNbPointOps ++
    searchLayerOps visited

/-- One upper layer in `insert_slice` (hnsw.rs 1091-1133): a search, then the own list is read (1118) and
perhaps written (1121). The guard of the condition is dropped before the block. -/
def upperOps (p : Nat) (x : List Nat × Bool) : List LockOp :=
  searchLayerOps x.1 ++ rdOnly (.nb p) ++ if x.2 then wrOnly (.nb p) else []

/-- One layer in the second loop of `insert_slice` (hnsw.rs 1136-1184): a search, the lists read by
`select_neighbours` (1319), the own list is written (1175). -/
def lowerOps (p : Nat) (x : List Nat × List Nat) : List LockOp :=
  searchLayerOps x.1 ++ (x.2.flatMap fun v => rdOnly (.nb v)) ++ wrOnly (.nb p)

/-- One layer in `reverse_update_neighborhood_simple` (hnsw.rs 1223-1265): the guard of the own list lives
as long as the loop over it (1224), the list of each neighbour is written (1228). -/
def reverseOps (p : Nat) (links : List Nat) : List LockOp :=
  [.rd (.nb p)] ++ (links.flatMap fun q => wrOnly (.nb q)) ++ [.rel (.nb p)]

/-- what an insertion reads: the visited points in each layer and the links of the new point -/
structure InsertTrace where
  upper : List (List Nat × Bool)
  lower : List (List Nat × List Nat)
  links : List (List Nat)

/-- `insert_slice` (hnsw.rs 1055-1197) of a point that is not the first: the level (360), the table (505),
the number of points (517), the entry point (1072), the layers, the back links, `check_entry_point` (535). -/
def insertOps (p : Nat) (x : InsertTrace) : List LockOp :=
  wrOnly .rng ++ wrOnly .table ++ wrOnly .count ++ rdOnly .entry ++ x.upper.flatMap (upperOps p) ++
    x.lower.flatMap (lowerOps p) ++ x.links.flatMap (reverseOps p) ++ wrOnly .entry

/-- `insert_slice` of a point that finds no entry point (hnsw.rs 1084-1087) -/
def firstInsertOps : List LockOp :=
  wrOnly .rng ++ wrOnly .table ++ wrOnly .count ++ rdOnly .entry ++ wrOnly .entry

/-- A layer iterator (hnsw.rs 692-735): the guard of the table is kept as long as the iterator lives.
`body` is what the caller does meanwhile. -/
def layerIterOps (body : List LockOp) : List LockOp := [.rd .table] ++ body ++ [.rel .table]

/-- The end of a layer in `IterPoint::next` (hnsw.rs 662-682): the entry point is locked, then the table once
more. -/
def iterNextOps : List LockOp := [.rd .entry, .rd .table, .rel .table, .rel .entry]

/-- `IterPoint` (hnsw.rs 626-690): the guard of the table (635) is kept as long as the iterator lives; `n` is
the number of ends of layers that are met. `body` is what the caller does with the points of a layer. -/
def iterOps (n : Nat) (body : List LockOp) : List LockOp :=
  [.rd .table] ++ (List.range n).flatMap (fun _ => body ++ iterNextOps) ++ [.rel .table]

/-- `FlatNeighborhood::from` (flatten.rs 112-128): the list of each point is read while iterating -/
def flattenOps (layers : List (List Nat)) : List LockOp :=
  [.rd .table] ++
    (layers.flatMap fun ps => (ps.flatMap neighborhoodOps) ++ iterNextOps) ++ [.rel .table]

/-- `Hnsw::dump` (hnswio.rs 1357-1389) and `PointIndexation::dump` (1302-1341): dimension, number of points,
then the table is kept until the end (1307), the list of each point is read (`dump_point`), the entry point
(1322). -/
def dumpOps (ps : List Nat) : List LockOp :=
  entryOps ++ getNbPointOps ++ [.rd .table] ++ ps.flatMap neighborhoodOps ++ entryOps ++ [.rel .table]

/-! ## Threads that lock in an increasing order -/

/-- `held` are the guards in hand. `W` are the locks that some thread writes; the other ones never make
anybody wait. Each lock of `W` is above those of `W` in hand when it is asked for. At the end no guard is
left. -/
def Ordered (lt : Lock → Lock → Prop) (W : Lock → Prop) : List Lock → List LockOp → Prop
  | h, [] => h = []
  | h, .rd k :: r => (W k → ∀ a ∈ h, W a → lt a k) ∧ Ordered lt W (k :: h) r
  | h, .wr k :: r => W k ∧ (∀ a ∈ h, W a → lt a k) ∧ Ordered lt W (k :: h) r
  | h, .rel k :: r => k ∈ h ∧ Ordered lt W (h.erase k) r

/-- the order of the code: the table, then the lists of the points in decreasing order of their numbers, then the
other locks -/
def lockLt : Lock → Lock → Prop
  | .table, .table => False
  | .table, _ => True
  | .nb p, .nb q => q < p
  | .nb _, .table => False
  | .nb _, _ => True
  | _, _ => False

end Verif
