import Verif.AccessConc
import Verif.FlattenConc

set_option autoImplicit false

/-!
# Insertions, searches, accessors, iterators, dumps and flattenings, all at the same time

The readers of the preceding files, any number of each, next to insertions.  An insertion may add a point to the table only
when no reader has the read guard of the table (`generate_new_point` needs the write guard, /repo/src/hnsw.rs 505).
-/

namespace Verif
variable {T α : Type}

/-- Progress of a loop on `get_layer_iterator(l)` (/repo/src/hnsw.rs 615-618, 692-726). -/
inductive LayerSt (T : Type) where
  | start (l : Nat)
  /-- the iterator exists and has the read guard of the table: next slot, points yielded. `s0`, which the code does not
  keep, is the index at the moment the iterator was made -/
  | live (l : Nat) (s0 : Idx T) (slot : Nat) (out : List (Ref T))
  /-- `next` has returned `None`: the loop is left and the guard released -/
  | ended (l : Nat) (s0 : Idx T) (out : List (Ref T))
  | failed (l : Nat) (e : Panic)

/-- the next action of such a loop: `IterPointLayer::new` (/repo/src/hnsw.rs 701-711), then calls of `next` (717-725) -/
def layerAct (s : CSt T) : LayerSt T → Option (LayerSt T)
  | .start l => some (.live l s.idx 0 [])
  | .live l s0 slot out =>
    match layerIterNext s.idx l slot with
    | .ok (some p, slot') => some (.live l s0 slot' (out ++ [p]))
    | .ok (none, _) => some (.ended l s0 out)
    | .error e => some (.failed l e)
  | .ended .. => none
  | .failed .. => none

/-- A thread that reads. -/
inductive Reader (T α : Type) where
  /-- `search_filter` -/
  | search (u : Prog (CSt T) (List Neighbour))
  /-- an accessor -/
  | access (u : Prog (CSt T) α)
  /-- a loop on the points -/
  | iter (i : IterSt T)
  /-- a loop on the points of a layer -/
  | layer (i : LayerSt T)
  | dump (d : DumpSt T)
  /-- `FlatNeighborhood::from` -/
  | flatten (f : FlatSt T)

/-- the reader has the read guard of the table between two of its actions -/
def Reader.holds : Reader T α → Bool
  | .iter i => i.holds
  | .layer (.live ..) => true
  | .dump d => d.holds
  | .flatten f => f.holds
  | _ => false

/-- Insertion threads and readers. -/
structure USys (T α : Type) where
  st : CSt T
  ins : List (Prog (CSt T) Unit)
  rds : List (Reader T α)

/-- one action of a reader; programs could change the state, but those of searches and accessors do not -/
inductive RStep (nsort : NSort) (s : CSt T) : CSt T → Reader T α → Reader T α → Prop
  | search {g : CSt T → Bool} {u : CSt T → CSt T} {k : CSt T → Prog (CSt T) (List Neighbour)} (h : g s = true) :
      RStep nsort s (u s) (.search (.act g u k)) (.search (k s))
  | access {g : CSt T → Bool} {u : CSt T → CSt T} {k : CSt T → Prog (CSt T) α} (h : g s = true) :
      RStep nsort s (u s) (.access (.act g u k)) (.access (k s))
  | iter {i i' : IterSt T} (h : iterAct s i = some i') : RStep nsort s s (.iter i) (.iter i')
  | layer {i i' : LayerSt T} (h : layerAct s i = some i') : RStep nsort s s (.layer i) (.layer i')
  | dump {d d' : DumpSt T} (h : dumpAct s d = some d') : RStep nsort s s (.dump d) (.dump d')
  | flatten {f f' : FlatSt T} (h : flatAct nsort s f = some f') : RStep nsort s s (.flatten f) (.flatten f')

/-- one step of the system -/
inductive UStep (nsort : NSort) : USys T α → USys T α → Prop
  | ins {s s' : CSt T} {ts ts' : List (Prog (CSt T) Unit)} {rs : List (Reader T α)} (h : Step (s, ts) (s', ts'))
      (hl : (∃ r ∈ rs, r.holds = true) → s'.idx.layers = s.idx.layers) : UStep nsort ⟨s, ts, rs⟩ ⟨s', ts', rs⟩
  | read {s s' : CSt T} {ts : List (Prog (CSt T) Unit)} {rs : List (Reader T α)} {r r' : Reader T α} (i : Nat)
      (hi : rs[i]? = some r) (h : RStep nsort s s' r r') : UStep nsort ⟨s, ts, rs⟩ ⟨s', ts, rs.set i r'⟩

/-- any number of steps, any schedule -/
inductive USteps (nsort : NSort) : USys T α → USys T α → Prop
  | refl (m : USys T α) : USteps nsort m m
  | step {a b c : USys T α} : USteps nsort a b → UStep nsort b c → USteps nsort a c

/-- What a reader is asked to do. -/
inductive Task (T α : Type) where
  | search (r : Req T)
  /-- an accessor, as a program -/
  | access (u : Prog (CSt T) α)
  | iter
  | layer (l : Nat)
  | dump
  | flatten

/-- the reader before its first action; `fuel` bounds the loops of searches -/
def Task.reader (P : Policy T) (cfg : Cfg T) (fuel : Nat) : Task T α → Reader T α
  | .search r => .search (r.prog P cfg fuel)
  | .access u => .access u
  | .iter => .iter .start
  | .layer l => .layer (.start l)
  | .dump => .dump .start
  | .flatten => .flatten .start

/-- the accessors of the tasks only read -/
def Task.OK : Task T α → Prop
  | .access u => ReadOnly u
  | _ => True

/-- `m` is reached from the quiescent state `c0` by running the insertions `jobs` and the tasks `tasks`, one thread each. -/
def UExec (nsort : NSort) (P : Policy T) (cfg : Cfg T) (c0 : CSt T) (jobs : List (Job T)) (tasks : List (Task T α))
    (m : USys T α) : Prop :=
  USteps nsort ⟨c0, jobs.map (Job.prog P cfg (c0.idx.points.length + jobs.length + 2)),
    tasks.map (Task.reader P cfg (c0.idx.points.length + jobs.length + 2))⟩ m

/-! ## Each reader seen alone with the insertions -/

variable {nsort : NSort}

/-- programs that only read -/
def Reader.RO : Reader T α → Prop
  | .search u => ReadOnly u
  | .access u => ReadOnly u
  | _ => True

theorem RStep.same {s s' : CSt T} {r r' : Reader T α} (h : RStep nsort s s' r r') (hr : r.RO) : s' = s ∧ r'.RO := by
  cases h with
  | search h => exact ⟨(hr.1 s).2, hr.2 s⟩
  | access h => exact ⟨(hr.1 s).2, hr.2 s⟩
  | _ => exact ⟨rfl, trivial⟩

/-- `s0` was the index at some moment of the execution that leads to `s`, `ts` -/
def WasIdx (P : Policy T) (cfg : Cfg T) (c0 : CSt T) (jobs : List (Job T)) (s : CSt T) (ts : List (Prog (CSt T) Unit))
    (s0 : Idx T) : Prop :=
  ∃ (c : CSt T) (ts0 : List (Prog (CSt T) Unit)), Exec P cfg c0 jobs c ts0 ∧ Steps (c, ts0) (s, ts) ∧ c.idx = s0

/-- what a reader asked for a task is doing when the system is in the state `s`, `ts`: an execution of the system made of
the insertions and of this reader -/
def TaskOK (nsort : NSort) (P : Policy T) (cfg : Cfg T) (c0 : CSt T) (jobs : List (Job T)) (s : CSt T)
    (ts : List (Prog (CSt T) Unit)) : Task T α → Reader T α → Prop
  | .search r, .search u => MExec P cfg c0 jobs [r] ⟨s, ts, [u]⟩
  | .access u, .access u' => GSteps (accStart P cfg c0 jobs [u]) ⟨s, ts, [u']⟩
  | .iter, .iter i => IExec P cfg c0 jobs ⟨s, ts, i⟩
  | .layer l, .layer i =>
    match i with
    | .start l' => l' = l
    | .live l' s0 slot out => l' = l ∧ s.idx.layers = s0.layers ∧ WasIdx P cfg c0 jobs s ts s0 ∧
        slot = out.length ∧ out = (s0.layer l).take slot
    | .ended l' s0 out => l' = l ∧ WasIdx P cfg c0 jobs s ts s0 ∧ out = s0.layer l
    | .failed l' _ => l' = l ∧ ∃ s0, WasIdx P cfg c0 jobs s ts s0 ∧ s0.layers.length ≤ l
  | .dump, .dump d => DExec P cfg c0 jobs ⟨s, ts, d⟩
  | .flatten, .flatten f => FSteps nsort (flattenStart P cfg c0 jobs) ⟨s, ts, f⟩
  | _, _ => False

variable {P : Policy T} {cfg : Cfg T} {c0 : CSt T} {jobs : List (Job T)}

theorem WasIdx.step {s s' : CSt T} {ts ts' : List (Prog (CSt T) Unit)} {s0 : Idx T} (h : WasIdx P cfg c0 jobs s ts s0)
    (hs : Step (s, ts) (s', ts')) : WasIdx P cfg c0 jobs s' ts' s0 := by
  obtain ⟨c, ts0, h1, h2, h3⟩ := h
  exact ⟨c, ts0, h1, .step h2 hs, h3⟩

theorem TaskOK.ins {s s' : CSt T} {ts ts' : List (Prog (CSt T) Unit)} {t : Task T α} {r : Reader T α}
    (h : TaskOK nsort P cfg c0 jobs s ts t r) (hs : Step (s, ts) (s', ts'))
    (hl : r.holds = true → s'.idx.layers = s.idx.layers) : TaskOK nsort P cfg c0 jobs s' ts' t r := by
  cases t <;> cases r <;> try exact h
  case search.search => exact MSteps.step h (.ins hs)
  case access.access => exact GSteps.step h (.ins hs)
  case iter.iter => exact ISteps.step h (.ins hs hl)
  case layer.layer l i =>
    cases i with
    | start l' => exact h
    | live l' s0 slot out =>
      obtain ⟨h1, h2, h3, h4⟩ := h
      exact ⟨h1, (hl rfl).trans h2, h3.step hs, h4⟩
    | ended l' s0 out =>
      obtain ⟨h1, h2, h3⟩ := h
      exact ⟨h1, h2.step hs, h3⟩
    | failed l' e =>
      obtain ⟨h1, s0, h2, h3⟩ := h
      exact ⟨h1, s0, h2.step hs, h3⟩
  case dump.dump => exact DSteps.step h (.ins hs hl)
  case flatten.flatten => exact FSteps.step h (.ins hs hl)

theorem TaskOK.own {s s' : CSt T} {ts : List (Prog (CSt T) Unit)} {t : Task T α} {r r' : Reader T α}
    (hex : Exec P cfg c0 jobs s ts) (h : TaskOK nsort P cfg c0 jobs s ts t r) (hs : RStep nsort s s' r r') :
    TaskOK nsort P cfg c0 jobs s' ts t r' := by
  cases hs with
  | search hg =>
    cases t <;> try exact h
    exact MSteps.step h (.srch (.mk 0 (by simp) _ _ _ rfl hg))
  | access hg =>
    cases t <;> try exact h
    exact GSteps.step h (.acc 0 ⟨_, _, _, rfl, hg, rfl⟩)
  | iter ha =>
    cases t <;> try exact h
    exact ISteps.step h (iterAct_step ha)
  | @layer i i' ha =>
    cases t <;> try exact h
    rename_i l
    cases i with
    | start l' =>
      cases ha
      exact ⟨h, rfl, ⟨s, ts, hex, .refl _, rfl⟩, rfl, by simp⟩
    | live l' s0 slot out =>
      obtain ⟨rfl, h2, h3, h4, h5⟩ := h
      simp only [layerAct, layerIterNext] at ha
      cases hv : s.idx.layers[l']? with
      | none =>
        rw [hv] at ha
        cases ha
        refine ⟨rfl, s0, h3, ?_⟩
        rw [← h2]
        exact List.getElem?_eq_none_iff.1 hv
      | some v =>
        have hlay : s0.layer l' = v := by
          rw [← layer_layers h2, layer_eq hv]
        rw [hv] at ha
        dsimp only at ha
        cases hp : v[slot]? with
        | some p =>
          rw [hp] at ha
          cases ha
          refine ⟨rfl, h2, h3, by simp [h4], ?_⟩
          have hlt := (List.getElem?_eq_some_iff.1 hp).1
          rw [hlay] at h5 ⊢
          rw [List.take_add_one, ← h5, hp]
          rfl
        | none =>
          rw [hp] at ha
          cases ha
          refine ⟨rfl, h3, ?_⟩
          have hle := List.getElem?_eq_none_iff.1 hp
          rw [h5, hlay, List.take_of_length_le hle]
    | ended l' s0 out => cases ha
    | failed l' e => cases ha
  | dump ha =>
    cases t <;> try exact h
    exact DSteps.step h (dumpAct_step ha)
  | flatten ha =>
    cases t <;> try exact h
    exact FSteps.step h (flatAct_step ha)

/-- A system of insertions and readers is, for each reader, an execution of the insertions and this reader alone. -/
theorem UExec.tasks {tasks : List (Task T α)} (hok : ∀ t ∈ tasks, t.OK) {m : USys T α}
    (he : UExec nsort P cfg c0 jobs tasks m) :
    Exec P cfg c0 jobs m.st m.ins ∧ m.rds.length = tasks.length ∧ (∀ r ∈ m.rds, r.RO) ∧
      ∀ (i : Nat) (t : Task T α) (r : Reader T α), tasks[i]? = some t → m.rds[i]? = some r → TaskOK nsort P cfg c0 jobs m.st m.ins t r := by
  unfold UExec at he
  generalize hm0 : (⟨c0, jobs.map (Job.prog P cfg (c0.idx.points.length + jobs.length + 2)),
    tasks.map (Task.reader P cfg (c0.idx.points.length + jobs.length + 2))⟩ : USys T α) = m0 at he
  induction he with
  | refl =>
    subst hm0
    refine ⟨.refl _, by simp, fun r hr => ?_, fun i t r ht hr => ?_⟩
    · obtain ⟨t, ht, rfl⟩ := List.mem_map.1 hr
      have := hok t ht
      cases t with
      | search r => exact searchP_ro _ _ _ _ _ _ _
      | access u => exact this
      | _ => trivial
    · simp only [List.getElem?_map, ht, Option.map_some, Option.some.injEq] at hr
      subst hr
      cases t with
      | search r => exact .refl _
      | access u => exact .refl _
      | iter => exact .refl _
      | layer l => exact rfl
      | dump => exact .refl _
      | flatten => exact .refl _
  | @step b c hb hs ih =>
    obtain ⟨h1, h2, h3, h4⟩ := ih
    cases hs with
    | ins hst hl =>
      exact ⟨.step h1 hst, h2, h3, fun i t r ht hr =>
        (h4 i t r ht hr).ins hst fun hh => hl ⟨r, List.mem_of_getElem? hr, hh⟩⟩
    | @read s s' ts rs r r' i hi hst =>
      have hro := h3 r (List.mem_of_getElem? hi)
      obtain ⟨hss, hro'⟩ := hst.same hro
      subst hss
      refine ⟨h1, by simpa using h2, ?_, ?_⟩
      · intro x hx
        rcases mem_of_set hx with rfl | hx
        · exact hro'
        · exact h3 x hx
      · intro i' t x ht hx
        rcases getElem?_set_cases hx with ⟨rfl, rfl, -⟩ | ⟨hne, hx⟩
        · exact (h4 i' t r ht hi).own h1 hst
        · exact h4 i' t x ht hx

/-- run a schedule: `.inl i` is the insertion `i`, `.inr i` the reader `i` -/
def runAll [DecidableEq T] (nsort : NSort) : List (Nat ⊕ Nat) → USys T α → Option (USys T α)
  | [], m => some m
  | .inl i :: is, m =>
    match runSched [i] (m.st, m.ins) with
    | some (s, ts) =>
      if m.rds.any Reader.holds = true → s.idx.layers = m.st.idx.layers then runAll nsort is ⟨s, ts, m.rds⟩ else none
    | none => none
  | .inr i :: is, m =>
    match m.rds[i]? with
    | some (.search (.act g u k)) =>
      if g m.st = true then runAll nsort is ⟨u m.st, m.ins, m.rds.set i (.search (k m.st))⟩ else none
    | some (.access (.act g u k)) =>
      if g m.st = true then runAll nsort is ⟨u m.st, m.ins, m.rds.set i (.access (k m.st))⟩ else none
    | some (.iter x) => (iterAct m.st x).bind fun y => runAll nsort is ⟨m.st, m.ins, m.rds.set i (.iter y)⟩
    | some (.layer x) => (layerAct m.st x).bind fun y => runAll nsort is ⟨m.st, m.ins, m.rds.set i (.layer y)⟩
    | some (.dump x) => (dumpAct m.st x).bind fun y => runAll nsort is ⟨m.st, m.ins, m.rds.set i (.dump y)⟩
    | some (.flatten x) =>
      (flatAct nsort m.st x).bind fun y => runAll nsort is ⟨m.st, m.ins, m.rds.set i (.flatten y)⟩
    | _ => none

theorem USteps.trans {a b c : USys T α} (h : USteps nsort a b) (h' : USteps nsort b c) : USteps nsort a c := by
  induction h' with
  | refl => exact h
  | step _ hs ih => exact .step ih hs

theorem runAll_steps [DecidableEq T] : ∀ (is : List (Nat ⊕ Nat)) (m m' : USys T α),
    runAll nsort is m = some m' → USteps nsort m m' := by
  intro is
  induction is with
  | nil => intro m m' h; cases h; exact .refl _
  | cons x is ih =>
    intro m m' h
    obtain ⟨s0, ts0, rs0⟩ := m
    cases x with
    | inl i =>
      simp only [runAll] at h
      split at h
      · rename_i s ts hr
        split at h
        · rename_i hl
          refine (USteps.step (.refl _) (.ins (runSched_one hr) ?_)).trans (ih _ _ h)
          rintro ⟨r, hr, hh⟩
          exact hl (List.any_eq_true.2 ⟨r, hr, hh⟩)
        · cases h
      · cases h
    | inr i =>
      simp only [runAll] at h
      split at h
      · rename_i hi
        split at h
        · rename_i hg
          exact (USteps.step (.refl _) (.read i hi (.search hg))).trans (ih _ _ h)
        · cases h
      · rename_i hi
        split at h
        · rename_i hg
          exact (USteps.step (.refl _) (.read i hi (.access hg))).trans (ih _ _ h)
        · cases h
      · rename_i hi
        obtain ⟨y, hy, h⟩ := Option.bind_eq_some_iff.1 h
        exact (USteps.step (.refl _) (.read i hi (.iter hy))).trans (ih _ _ h)
      · rename_i hi
        obtain ⟨y, hy, h⟩ := Option.bind_eq_some_iff.1 h
        exact (USteps.step (.refl _) (.read i hi (.layer hy))).trans (ih _ _ h)
      · rename_i hi
        obtain ⟨y, hy, h⟩ := Option.bind_eq_some_iff.1 h
        exact (USteps.step (.refl _) (.read i hi (.dump hy))).trans (ih _ _ h)
      · rename_i hi
        obtain ⟨y, hy, h⟩ := Option.bind_eq_some_iff.1 h
        exact (USteps.step (.refl _) (.read i hi (.flatten hy))).trans (ih _ _ h)
      · cases h

/-! ## Termination and progress -/

/-- the reader has nothing more to do -/
def Reader.Finished : Reader T α → Prop
  | .search u => u.Finished
  | .access u => u.Finished
  | .iter (.ended ..) => True
  | .iter (.failed _) => True
  | .layer (.ended ..) => True
  | .layer (.failed ..) => True
  | .dump (.done ..) => True
  | .flatten (.ended ..) => True
  | .flatten (.failed _) => True
  | _ => False

theorem Reader.not_holds {r : Reader T α} (h : r.Finished) : r.holds = false := by
  cases r with
  | search u => rfl
  | access u => rfl
  | iter i => cases i <;> first | rfl | cases h
  | layer i => cases i <;> first | rfl | cases h
  | dump i => cases i <;> first | rfl | cases h
  | flatten i => cases i <;> first | rfl | cases h

/-- a reader that has not finished can always perform its next action -/
theorem Reader.enabled (s : CSt T) {r : Reader T α} (hro : r.RO) (hf : ¬ r.Finished) : ∃ r', RStep nsort s s r r' := by
  cases r with
  | search u =>
    cases u with
    | ret a => exact absurd trivial hf
    | fail e => exact absurd trivial hf
    | act g v k =>
      have := RStep.search (nsort := nsort) (α := α) (g := g) (u := v) (k := k) (hro.1 s).1
      rw [(hro.1 s).2] at this
      exact ⟨_, this⟩
  | access u =>
    cases u with
    | ret a => exact absurd trivial hf
    | fail e => exact absurd trivial hf
    | act g v k =>
      have := RStep.access (nsort := nsort) (α := α) (g := g) (u := v) (k := k) (hro.1 s).1
      rw [(hro.1 s).2] at this
      exact ⟨_, this⟩
  | iter i =>
    have : ∃ i', iterAct s i = some i' := by
      cases i with
      | ended => exact absurd trivial hf
      | failed => exact absurd trivial hf
      | start => exact ⟨_, rfl⟩
      | live s0 pos out =>
        simp only [iterAct]
        split <;> exact ⟨_, rfl⟩
    exact ⟨_, .iter this.choose_spec⟩
  | layer i =>
    have : ∃ i', layerAct s i = some i' := by
      cases i with
      | ended => exact absurd trivial hf
      | failed => exact absurd trivial hf
      | start => exact ⟨_, rfl⟩
      | live l s0 pos out =>
        simp only [layerAct]
        split <;> exact ⟨_, rfl⟩
    exact ⟨_, .layer this.choose_spec⟩
  | dump i =>
    have : ∃ i', dumpAct s i = some i' := by
      cases i with
      | done => exact absurd trivial hf
      | table d n todo nb => cases todo <;> exact ⟨_, rfl⟩
      | _ => exact ⟨_, rfl⟩
    exact ⟨_, .dump this.choose_spec⟩
  | flatten i =>
    have : ∃ i', flatAct nsort s i = some i' := by
      cases i with
      | ended => exact absurd trivial hf
      | failed => exact absurd trivial hf
      | start => exact ⟨_, rfl⟩
      | live s0 pos out f =>
        simp only [flatAct]
        split <;> exact ⟨_, rfl⟩
      | point s0 pos out f p =>
        simp only [flatAct]
        split <;> exact ⟨_, rfl⟩
    exact ⟨_, .flatten this.choose_spec⟩

/-- what is left to do for a reader that is not a program; a reader that has not taken the table comes first -/
def Reader.left : Reader T α → Nat × Nat
  | .iter .start => (1, 0)
  | .iter (.live s0 _ out) => (0, s0.points.length + 1 - out.length)
  | .layer (.start _) => (1, 0)
  | .layer (.live l s0 _ out) => (0, (s0.layer l).length + 1 - out.length)
  | .dump .start => (3, 0)
  | .dump (.dim _) => (2, 0)
  | .dump (.count _ _) => (1, 0)
  | .dump (.table _ _ todo _) => (0, todo.length + 1)
  | .flatten .start => (1, 0)
  | .flatten (.live s0 _ out _) => (0, 2 * (s0.points.length - out.length) + 1)
  | .flatten (.point s0 _ out _ _) => (0, 2 * (s0.points.length - out.length) + 2)
  | _ => (0, 0)

/-- the points yielded so far are not more than those of the table -/
def Reader.Within : Reader T α → Prop
  | .iter (.live s0 _ out) => out.length ≤ s0.points.length
  | .layer (.live l s0 _ out) => out.length ≤ (s0.layer l).length
  | .flatten (.live s0 _ out _) => out.length ≤ s0.points.length
  | .flatten (.point s0 _ out _ _) => out.length ≤ s0.points.length
  | _ => True

/-- a reader gets nearer to its end -/
inductive Nearer : Reader T α → Reader T α → Prop
  | search {g : CSt T → Bool} {u : CSt T → CSt T} {k : CSt T → Prog (CSt T) (List Neighbour)} (s : CSt T) :
      Nearer (.search (k s)) (.search (.act g u k))
  | access {g : CSt T → Bool} {u : CSt T → CSt T} {k : CSt T → Prog (CSt T) α} (s : CSt T) :
      Nearer (.access (k s)) (.access (.act g u k))
  | left {r r' : Reader T α} (h1 : ∀ u, r' ≠ .search u) (h2 : ∀ u, r' ≠ .access u)
      (h : Prod.Lex (· < ·) (· < ·) r'.left r.left) (h3 : ∀ u, r ≠ .search u) (h4 : ∀ u, r ≠ .access u) : Nearer r' r

theorem nearer_wf : WellFounded (Nearer (T := T) (α := α)) := by
  have hl : ∀ x : Nat × Nat, ∀ r : Reader T α, r.left = x → (∀ u, r ≠ .search u) → (∀ u, r ≠ .access u) →
      Acc Nearer r := by
    intro x
    induction x using (Prod.lex ⟨(· < ·), Nat.lt_wfRel.wf⟩ ⟨(· < ·), Nat.lt_wfRel.wf⟩).wf.induction with
    | h x ih =>
      rintro r rfl h1 h2
      constructor
      intro r' hr
      cases hr with
      | search s => exact absurd rfl (h1 _)
      | access s => exact absurd rfl (h2 _)
      | left a1 a2 a3 a4 a5 => exact ih _ a3 _ rfl a1 a2
  constructor
  intro r
  cases r with
  | search u =>
    induction u with
    | ret a => exact ⟨_, fun r' hr => by cases hr with | left a1 a2 a3 a4 a5 => exact absurd rfl (a4 _)⟩
    | fail e => exact ⟨_, fun r' hr => by cases hr with | left a1 a2 a3 a4 a5 => exact absurd rfl (a4 _)⟩
    | act g v k ih =>
      constructor
      intro r' hr
      cases hr with
      | search s => exact ih s
      | left a1 a2 a3 a4 a5 => exact absurd rfl (a4 _)
  | access u =>
    induction u with
    | ret a => exact ⟨_, fun r' hr => by cases hr with | left a1 a2 a3 a4 a5 => exact absurd rfl (a5 _)⟩
    | fail e => exact ⟨_, fun r' hr => by cases hr with | left a1 a2 a3 a4 a5 => exact absurd rfl (a5 _)⟩
    | act g v k ih =>
      constructor
      intro r' hr
      cases hr with
      | access s => exact ih s
      | left a1 a2 a3 a4 a5 => exact absurd rfl (a5 _)
  | iter i => exact hl _ _ rfl (by simp) (by simp)
  | layer i => exact hl _ _ rfl (by simp) (by simp)
  | dump i => exact hl _ _ rfl (by simp) (by simp)
  | flatten i => exact hl _ _ rfl (by simp) (by simp)

theorem RStep.nearer {s s' : CSt T} {r r' : Reader T α} (h : RStep nsort s s' r r') (hw0 : r.Within) (hw : r'.Within) :
    Nearer r' r := by
  cases h with
  | search h => exact .search s
  | access h => exact .access s
  | @iter i i' h =>
    refine .left (by simp) (by simp) ?_ (by simp) (by simp)
    cases i with
    | start => cases h; exact .left _ _ (by omega)
    | live s0 pos out =>
      simp only [Reader.Within] at hw0
      simp only [iterAct] at h
      split at h <;> cases h <;> refine .right _ ?_
      · simp only [Reader.Within, List.length_append, List.length_singleton] at hw
        simp only [List.length_append, List.length_singleton]
        omega
      all_goals omega
    | ended => cases h
    | failed => cases h
  | @layer i i' h =>
    refine .left (by simp) (by simp) ?_ (by simp) (by simp)
    cases i with
    | start => cases h; exact .left _ _ (by omega)
    | live l s0 pos out =>
      simp only [Reader.Within] at hw0
      simp only [layerAct] at h
      split at h <;> cases h <;> refine .right _ ?_
      · simp only [Reader.Within, List.length_append, List.length_singleton] at hw
        simp only [List.length_append, List.length_singleton]
        omega
      all_goals omega
    | ended => cases h
    | failed => cases h
  | @dump i i' h =>
    refine .left (by simp) (by simp) ?_ (by simp) (by simp)
    cases i with
    | start => cases h; exact .left _ _ (by omega)
    | dim d => cases h; exact .left _ _ (by omega)
    | count d n => cases h; exact .left _ _ (by omega)
    | table d n todo nb =>
      cases todo with
      | nil => cases h; exact .right _ (by simp)
      | cons p todo => cases h; exact .right _ (by simp)
    | done d s => cases h
  | @flatten i i' h =>
    refine .left (by simp) (by simp) ?_ (by simp) (by simp)
    cases i with
    | start => cases h; exact .left _ _ (by omega)
    | live s0 pos out f =>
      simp only [Reader.Within] at hw0
      simp only [flatAct] at h
      split at h <;> cases h <;> refine .right _ ?_
      · simp only [Reader.Within, List.length_append, List.length_singleton] at hw
        simp only [List.length_append, List.length_singleton]
        omega
      all_goals omega
    | point s0 pos out f p =>
      simp only [flatAct] at h
      split at h <;> cases h <;> refine .right _ ?_
      all_goals omega
    | ended => cases h
    | failed => cases h

/-- one element of a list gets smaller -/
theorem set_wf {β : Type} {R : β → β → Prop} (hR : WellFounded R) :
    WellFounded (fun (b a : List β) => ∃ (i : Nat) (x y : β), a[i]? = some x ∧ R y x ∧ b = a.set i y) := by
  have hcons : ∀ (x : β) (l : List β), Acc (fun (b a : List β) => ∃ (i : Nat) (x y : β), a[i]? = some x ∧ R y x ∧ b = a.set i y) l →
      Acc (fun (b a : List β) => ∃ (i : Nat) (x y : β), a[i]? = some x ∧ R y x ∧ b = a.set i y) (x :: l) := by
    intro x
    induction x using hR.induction with
    | h x ihx =>
      intro l hl
      induction hl with
      | intro l hacc ihl =>
        constructor
        rintro b ⟨i, x', y, hi, hy, rfl⟩
        cases i with
        | zero =>
          simp only [List.getElem?_cons_zero, Option.some.injEq] at hi
          subst hi
          exact ihx y hy l ⟨_, hacc⟩
        | succ i =>
          simp only [List.getElem?_cons_succ] at hi
          exact ihl _ ⟨i, x', y, hi, hy, rfl⟩
  constructor
  intro l
  induction l with
  | nil =>
    constructor
    rintro b ⟨i, x, y, hi, -⟩
    simp at hi
  | cons x l ih => exact hcons x l ih

/-- the actions of a dump are those of `dumpAct` -/
theorem DStep.act {m m' : DSys T} (h : DStep m m') :
    (Step (m.st, m.ins) (m'.st, m'.ins) ∧ m'.dump = m.dump ∧ (m.dump.holds = true → m'.st.idx.layers = m.st.idx.layers)) ∨
    (m'.st = m.st ∧ m'.ins = m.ins ∧ dumpAct m.st m.dump = some m'.dump) := by
  cases h with
  | ins h hl => exact .inl ⟨h, rfl, hl⟩
  | _ => exact .inr ⟨rfl, rfl, rfl⟩

/-- the actions of an iteration are those of `iterAct` -/
theorem IStep.act {m m' : ISys T} (h : IStep m m') :
    (Step (m.st, m.ins) (m'.st, m'.ins) ∧ m'.it = m.it ∧ (m.it.holds = true → m'.st.idx.layers = m.st.idx.layers)) ∨
    (m'.st = m.st ∧ m'.ins = m.ins ∧ iterAct m.st m.it = some m'.it) := by
  cases h with
  | ins h hl => exact .inl ⟨h, rfl, hl⟩
  | new => exact .inr ⟨rfl, rfl, rfl⟩
  | yield h => exact .inr ⟨rfl, rfl, by simp only [iterAct, h]⟩
  | stop h => exact .inr ⟨rfl, rfl, by simp only [iterAct, h]⟩
  | fail h => exact .inr ⟨rfl, rfl, by simp only [iterAct, h]⟩

/-- the actions of a flattening are those of `flatAct` -/
theorem FStep.act {m m' : FSys T} (h : FStep nsort m m') :
    (Step (m.st, m.ins) (m'.st, m'.ins) ∧ m'.fl = m.fl ∧ (m.fl.holds = true → m'.st.idx.layers = m.st.idx.layers)) ∨
    (m'.st = m.st ∧ m'.ins = m.ins ∧ flatAct nsort m.st m.fl = some m'.fl) := by
  cases h with
  | ins h hl => exact .inl ⟨h, rfl, hl⟩
  | new => exact .inr ⟨rfl, rfl, rfl⟩
  | yield h => exact .inr ⟨rfl, rfl, by simp only [flatAct, h]⟩
  | read h => exact .inr ⟨rfl, rfl, by simp only [flatAct, h]⟩
  | readFail h => exact .inr ⟨rfl, rfl, by simp only [flatAct, h]⟩
  | stop h => exact .inr ⟨rfl, rfl, by simp only [flatAct, h]⟩
  | fail h => exact .inr ⟨rfl, rfl, by simp only [flatAct, h]⟩

theorem holds_one {r : Reader T α} : (∃ x ∈ [r], x.holds = true) → r.holds = true := by
  rintro ⟨x, hx, h⟩
  rw [List.mem_singleton] at hx
  rwa [← hx]

end Verif
