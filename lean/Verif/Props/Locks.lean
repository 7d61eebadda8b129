import Verif.LocksLemmas

/-!
# Calls that run at the same time do not block each other for ever (C86)

The model is the one of `Locks.lean`: threads that take and drop the locks of the index, with the task-fair
policy of `parking_lot`.
-/

set_option autoImplicit false

namespace Verif

/-- The calls of the interface, with what they meet. -/
inductive LockCall where
  | search (pivots : List Nat) (layers : List Bool) (visited : List Nat)
  | insert (p : Nat) (x : InsertTrace)
  | firstInsert
  /-- a loop over a layer iterator, that reads the lists of some points -/
  | layerIter (ps : List Nat)
  | dump (ps : List Nat)
  | getPoint (found : Bool)
  | getNbPoint
  | getEntry
  | neighborhood (p : Nat)
  /-- a loop over `IterPoint` -/
  | iter (n : Nat)
  | flatten (layers : List (List Nat))

def LockCall.ops : LockCall → List LockOp
  | .search ps ls vs => searchOps ps ls vs
  | .insert p x => insertOps p x
  | .firstInsert => firstInsertOps
  | .layerIter ps => layerIterOps (ps.flatMap neighborhoodOps)
  | .dump ps => dumpOps ps
  | .getPoint f => getPointOps f
  | .getNbPoint => getNbPointOps
  | .getEntry => entryOps
  | .neighborhood p => neighborhoodOps p
  | .iter n => iterOps n []
  | .flatten ls => flattenOps ls

/-- the call uses `IterPoint` -/
def LockCall.iterates : LockCall → Prop
  | .iter _ | .flatten _ => True
  | _ => False

/-- the call inserts a point -/
def LockCall.inserts : LockCall → Prop
  | .insert _ _ | .firstInsert => True
  | _ => False

/-- The links of an inserted point lead to points which other threads knew before it. This holds for points
inserted at the same time if they have the same level (`Older` in `Conc.lean`, used by
`C32_progress_partial`); it fails otherwise (`C32_refuted`). -/
def LockCall.olderLinks : LockCall → Prop
  | .insert p x => ∀ l ∈ x.links, ∀ q ∈ l, q < p
  | _ => True

/-- threads, each of which makes some calls one after the other -/
def lockThreads (calls : List (List LockCall)) : List LThread :=
  calls.map fun cs => .start (cs.flatMap LockCall.ops)

theorem lockCall_ordered {c : LockCall} (hi : ¬ c.iterates) (ho : c.olderLinks) {b : List LockOp}
    (hb : Ordered lockLt (fun _ => True) [] b) : Ordered lockLt (fun _ => True) [] (c.ops ++ b) := by
  have ht : ∀ p, lockLt .table (.nb p) := fun p => trivial
  cases c with
  | search ps ls vs => exact ordered_searchOps hb
  | insert p x => exact ordered_insertOps (fun _ => trivial) (fun l hl q hq => ho l hl q hq) hb
  | firstInsert => exact ordered_firstInsertOps (fun _ => trivial) hb
  | layerIter ps => exact ordered_layerIterOps ht hb
  | dump ps => exact ordered_dumpOps ht trivial hb
  | getPoint f => exact ordered_getPointOps hb
  | getNbPoint => exact ordered_rdOnly (by simp) hb
  | getEntry => exact ordered_rdOnly (by simp) hb
  | neighborhood p => exact ordered_rdOnly (by simp) hb
  | iter n => exact absurd trivial hi
  | flatten ls => exact absurd trivial hi

theorem lockCall_ordered_read {lt : Lock → Lock → Prop} {c : LockCall} (hi : ¬ c.inserts) {b : List LockOp}
    (ht : ∀ p, lt .table (.nb p)) (he : lt .table .entry)
    (hb : Ordered lt (fun _ => False) [] b) : Ordered lt (fun _ => False) [] (c.ops ++ b) := by
  cases c with
  | search ps ls vs => exact ordered_searchOps hb
  | insert p x => exact absurd trivial hi
  | firstInsert => exact absurd trivial hi
  | layerIter ps => exact ordered_layerIterOps ht hb
  | dump ps => exact ordered_dumpOps ht he hb
  | getPoint f => exact ordered_getPointOps hb
  | getNbPoint => exact ordered_rdOnly (by simp) hb
  | getEntry => exact ordered_rdOnly (by simp) hb
  | neighborhood p => exact ordered_rdOnly (by simp) hb
  | iter n => exact ordered_iterOps (fun _ h => h) hb
  | flatten ls => exact ordered_flattenOps (fun _ h => h) hb

theorem lockThreads_ok {W : Lock → Prop} {calls : List (List LockCall)}
    (hc : ∀ cs ∈ calls, ∀ c ∈ cs, ∀ b, Ordered lockLt W [] b → Ordered lockLt W [] (c.ops ++ b)) :
    ∀ t ∈ lockThreads calls, t.Ok lockLt W := by
  intro t ht
  obtain ⟨cs, hcs, rfl⟩ := List.mem_map.1 ht
  refine ⟨?_, by simp [LThread.start]⟩
  have := ordered_flatMap (f := LockCall.ops) (l := cs) (fun c h b => hc cs hcs c h b)
    (show Ordered lockLt W [] [] from rfl)
  simpa [LThread.start] using this

/-- **C86** (partial: no use of `IterPoint`, points inserted concurrently have the same level, see
`LockCall.olderLinks`) Whatever searches, insertions, dumps, layer iterators and accesses run at the same
time, they never reach a state in which nobody can go on. -/
theorem C86_no_deadlock_partial {calls : List (List LockCall)}
    (hi : ∀ cs ∈ calls, ∀ c ∈ cs, ¬ c.iterates) (ho : ∀ cs ∈ calls, ∀ c ∈ cs, c.olderLinks)
    {ts : List LThread} (h : LSteps (lockThreads calls) ts) : ¬ Deadlock ts :=
  no_deadlock lockLt_irr lockLt_tr (h.ok (lockThreads_ok fun cs hcs c hc _ =>
    lockCall_ordered (hi cs hcs c hc) (ho cs hcs c hc)))

/-- **C86** (partial: no insertion) Without insertions all the calls, also those which use `IterPoint`, can
run at the same time. -/
theorem C86_readers_partial {calls : List (List LockCall)}
    (hi : ∀ cs ∈ calls, ∀ c ∈ cs, ¬ c.inserts)
    {ts : List LThread} (h : LSteps (lockThreads calls) ts) : ¬ Deadlock ts :=
  no_deadlock lockLt_irr lockLt_tr (h.ok (lockThreads_ok (W := fun _ => False) fun cs hcs c hc _ =>
    lockCall_ordered_read (hi cs hcs c hc) (fun _ => trivial) trivial))

/-- **C86** (termination) No execution is infinite, whatever the calls. -/
theorem C86_no_infinite_execution : WellFounded fun us ts : List LThread => LStep ts us := lstep_wf

/-- **C86** (completion, same restrictions as `C86_no_deadlock_partial`) From every state all the calls can
be completed; by `C86_no_infinite_execution` every execution which is continued as long as possible does
so. -/
theorem C86_completes_partial {calls : List (List LockCall)}
    (hi : ∀ cs ∈ calls, ∀ c ∈ cs, ¬ c.iterates) (ho : ∀ cs ∈ calls, ∀ c ∈ cs, c.olderLinks)
    {ts : List LThread} (h : LSteps (lockThreads calls) ts) :
    ∃ us, LSteps ts us ∧ ∀ t ∈ us, t.finished := by
  induction ts using lstep_wf.induction with
  | h ts ih =>
    by_cases hf : ∃ t ∈ ts, ¬ t.finished
    · obtain ⟨us, hs⟩ := not_deadlock (C86_no_deadlock_partial hi ho h) hf
      obtain ⟨vs, h1, h2⟩ := ih us hs (.step h hs)
      exact ⟨vs, LSteps.head hs h1, h2⟩
    · exact ⟨ts, .refl _, fun t ht => Classical.byContradiction fun hn => hf ⟨t, ht, hn⟩⟩

/-- **C86** (the model of the locks) Whatever the calls, a lock that one of them holds exclusively is held by
no other. -/
theorem C86_exclusive {calls : List (List LockCall)} {ts : List LThread}
    (h : LSteps (lockThreads calls) ts) {i j : Nat} {t u : LThread} (ht : ts[i]? = some t)
    (hu : ts[j]? = some u) (hij : i ≠ j) {k : Lock} (hk : k ∈ t.excl) : k ∉ u.excl ∧ k ∉ u.shared := by
  refine LSteps.exclusive ?_ h i j t u ht hu hij k hk
  intro i j t u hi _ _ k hk
  obtain ⟨cs, _, rfl⟩ := List.mem_map.1 (List.mem_of_getElem? hi)
  cases hk

/-! ## The cases in which it fails -/

/-- the insertion of the second point of an index: it visits the first one (number 0) and links it -/
def exInsert : InsertTrace := ⟨[], [([0], [])], [[0]]⟩

/-- **C86** refuted: an `IterPoint` that comes to the end of layer 0 while one insertion waits for the table.
The iterator holds the table and asks for it again, which is refused because the insertion waits. -/
theorem C86_iter_refuted : ∃ ts, LSteps (lockThreads [[.iter 1], [.insert 1 exInsert]]) ts ∧ Deadlock ts := by
  exact lrun_exists ([1, 1, 1, 0, 1, 0]) (by decide +kernel)

/-- **C86** refuted: `FlatNeighborhood::from` of an index of one point with one insertion. -/
theorem C86_flatten_refuted :
    ∃ ts, LSteps (lockThreads [[.flatten [[0]]], [.insert 1 exInsert]]) ts ∧ Deadlock ts := by
  exact lrun_exists ([1, 1, 1, 0, 0, 0, 1, 0]) (by decide +kernel)

/-- **C86** refuted: a caller that searches in the loop over a layer iterator, with one insertion in another
thread. -/
theorem C86_search_in_loop_refuted :
    ∃ ts, LSteps [.start (layerIterOps (searchOps [] [true] [0])), .start (insertOps 1 exInsert)] ts ∧
      Deadlock ts := by
  exact lrun_exists ([1, 1, 1, 0, 0, 0, 1]) (by decide +kernel)

/-- A caller that inserts in the loop over a layer iterator blocks itself, alone. -/
example : ∃ ts, LSteps [.start (layerIterOps (insertOps 1 exInsert))] ts ∧ Deadlock ts := by
  exact lrun_exists ([0, 0, 0, 0, 0]) (by decide +kernel)

/-- The hypothesis on the links is needed: two insertions of different levels that know each other
(`C32_refuted`). -/
example : ∃ ts, LSteps (lockThreads [[.insert 1 ⟨[], [], [[2]]⟩], [.insert 2 ⟨[], [], [[1]]⟩]]) ts ∧
    Deadlock ts := by
  exact lrun_exists ((List.replicate 12 0) ++ List.replicate 12 1 ++ [0, 1]) (by decide +kernel)

/-- two insertions, a search, a dump and a layer iterator: the hypotheses of the theorems hold, -/
def exCalls : List (List LockCall) :=
  [[.insert 1 exInsert, .search [] [true] [0, 1]], [.insert 2 ⟨[], [([0, 1], [])], [[0, 1]]⟩],
    [.dump [0, 1], .layerIter [0]]]

example : (∀ cs ∈ exCalls, ∀ c ∈ cs, ¬ c.iterates) ∧ ∀ cs ∈ exCalls, ∀ c ∈ cs, c.olderLinks := by
  simp [exCalls, LockCall.iterates, LockCall.olderLinks, exInsert]

/-- and in this state the first insertion waits for the table, which the dump holds. -/
example : ∃ ts, LSteps (lockThreads exCalls) ts ∧ ts.map (fun t => (t.next ts).isSome) = [false, true, true] := by
  exact lrun_exists ([2, 2, 2, 2, 2, 0, 0, 0, 0]) (by decide +kernel)

/-- The first insertion holds the table exclusively while the two others wait. -/
example : ∃ ts, LSteps (lockThreads exCalls) ts ∧ (ts[0]?.map (·.excl)) = some [.table] := by
  exact lrun_exists ([0, 0, 0, 0, 0]) (by decide +kernel)
/-- The hypothesis of `C86_readers_partial`: two iterators and a dump. -/
example : ∀ cs ∈ [[LockCall.iter 2], [.flatten [[0, 1], [2]]], [.dump [0, 1, 2]]], ∀ c ∈ cs, ¬ c.inserts := by
  simp [LockCall.inserts]

end Verif
