import Verif.FlattenLemmas
import Verif.IterConcLemmas

set_option autoImplicit false

/-!
# `FlatNeighborhood::from` running at the same time as insertions

The loop of /repo/src/flatten.rs 112-127 on an iterator that keeps the read guard of the table; the lists of each point
yielded are read under the lock of the point, between two calls of `next`.
-/

namespace Verif
variable {T : Type}

/-- Progress of `FlatNeighborhood::from` (/repo/src/flatten.rs 112-127). -/
inductive FlatSt (T : Type) where
  | start
  /-- before a call of `next`: position of the iterator, points yielded, hash map. `s0`, which the code does not keep, is
  the index at the moment the iterator was made -/
  | live (s0 : Idx T) (pos : IterPos) (out : List (Ref T)) (f : FlatNeighborhood)
  /-- the point `p` was yielded, its lists are to be read -/
  | point (s0 : Idx T) (pos : IterPos) (out : List (Ref T)) (f : FlatNeighborhood) (p : Ref T)
  | ended (s0 : Idx T) (out : List (Ref T)) (f : FlatNeighborhood)
  | failed (e : Panic)

/-- the iterator has the read guard of the table -/
def FlatSt.holds : FlatSt T → Bool
  | .live .. => true
  | .point .. => true
  | _ => false

/-- A flattening and insertion threads. -/
structure FSys (T : Type) where
  st : CSt T
  ins : List (Prog (CSt T) Unit)
  fl : FlatSt T

/-- One step: of an insertion, which cannot change the table while the iterator holds it, or of the flattening.
`flatten_point` is one step: `get_neighborhood_id` copies all the lists of the point under its lock
(/repo/src/hnsw.rs 221-241), the rest is local. -/
inductive FStep (nsort : NSort) : FSys T → FSys T → Prop
  | ins {s s' : CSt T} {ts ts' : List (Prog (CSt T) Unit)} {i : FlatSt T} (h : Step (s, ts) (s', ts'))
      (hl : i.holds = true → s'.idx.layers = s.idx.layers) : FStep nsort ⟨s, ts, i⟩ ⟨s', ts', i⟩
  /-- `into_iter` and `HashMap::new` -/
  | new {s : CSt T} {ts : List (Prog (CSt T) Unit)} :
      FStep nsort ⟨s, ts, .start⟩ ⟨s, ts, .live s.idx none [] fun _ => none⟩
  /-- `next` returns a point -/
  | yield {s : CSt T} {ts : List (Prog (CSt T) Unit)} {s0 : Idx T} {pos pos' : IterPos}
      {out : List (Ref T)} {f : FlatNeighborhood} {p : Ref T} (h : iterNext s.idx pos = .ok (some p, pos')) :
      FStep nsort ⟨s, ts, .live s0 pos out f⟩ ⟨s, ts, .point s0 pos' (out ++ [p]) f p⟩
  /-- `flatten_point` and `insert` -/
  | read {s : CSt T} {ts : List (Prog (CSt T) Unit)} {s0 : Idx T} {pos : IterPos}
      {out : List (Ref T)} {f : FlatNeighborhood} {p : Ref T} {v : FlatPoint} (h : flattenPoint nsort s.idx p = .ok v) :
      FStep nsort ⟨s, ts, .point s0 pos out f p⟩ ⟨s, ts, .live s0 pos out (f.insert p.origin v)⟩
  /-- `flatten_point` panics -/
  | readFail {s : CSt T} {ts : List (Prog (CSt T) Unit)} {s0 : Idx T} {pos : IterPos}
      {out : List (Ref T)} {f : FlatNeighborhood} {p : Ref T} {e : Panic} (h : flattenPoint nsort s.idx p = .error e) :
      FStep nsort ⟨s, ts, .point s0 pos out f p⟩ ⟨s, ts, .failed e⟩
  /-- `next` returns `None` -/
  | stop {s : CSt T} {ts : List (Prog (CSt T) Unit)} {s0 : Idx T} {pos pos' : IterPos}
      {out : List (Ref T)} {f : FlatNeighborhood} (h : iterNext s.idx pos = .ok (none, pos')) :
      FStep nsort ⟨s, ts, .live s0 pos out f⟩ ⟨s, ts, .ended s0 out f⟩
  /-- `next` panics -/
  | fail {s : CSt T} {ts : List (Prog (CSt T) Unit)} {s0 : Idx T} {pos : IterPos}
      {out : List (Ref T)} {f : FlatNeighborhood} {e : Panic} (h : iterNext s.idx pos = .error e) :
      FStep nsort ⟨s, ts, .live s0 pos out f⟩ ⟨s, ts, .failed e⟩

/-- any number of steps, any schedule -/
inductive FSteps (nsort : NSort) : FSys T → FSys T → Prop
  | refl (m : FSys T) : FSteps nsort m m
  | step {a b c : FSys T} : FSteps nsort a b → FStep nsort b c → FSteps nsort a c

/-- the beginning: insertions `jobs`, one thread each, and a flattening, from the quiescent state `c0` -/
def flattenStart (P : Policy T) (cfg : Cfg T) (c0 : CSt T) (jobs : List (Job T)) : FSys T :=
  ⟨c0, jobs.map (Job.prog P cfg (c0.idx.points.length + jobs.length + 2)), .start⟩

/-! ## Lemmas -/

variable {nsort : NSort}

theorem FSteps.trans {a b c : FSys T} (h : FSteps nsort a b) (h' : FSteps nsort b c) : FSteps nsort a c := by
  induction h' with
  | refl => exact h
  | step _ hs ih => exact .step ih hs

theorem FSteps.steps {a b : FSys T} (h : FSteps nsort a b) : Steps (a.st, a.ins) (b.st, b.ins) := by
  induction h with
  | refl => exact .refl _
  | step _ hs ih =>
    cases hs with
    | ins h _ => exact .step ih h
    | _ => exact ih

/-- the iteration seen alone -/
def FSys.iter (m : FSys T) : ISys T :=
  ⟨m.st, m.ins, match m.fl with
    | .start => .start
    | .live s0 pos out _ => .live s0 pos out
    | .point s0 pos out _ _ => .live s0 pos out
    | .ended s0 out _ => .ended s0 out
    | .failed e => .failed e⟩

/-- the lists of `p` that were put in the map are those it had at a moment when the iterator had the table -/
def FlatAt (nsort : NSort) (m0 m : FSys T) (f : FlatNeighborhood) (p : Ref T) : Prop :=
  ∃ m1, FSteps nsort m0 m1 ∧ FSteps nsort m1 m ∧ m1.fl.holds = true ∧ (∀ v, Stored m1.st.idx v → Stored m.st.idx v) ∧
    Stored m1.st.idx p ∧ f p.origin = some (flatOf nsort m1.st.idx p)

/-- the map after the points `done` -/
def MapOK (nsort : NSort) (m0 m : FSys T) (done : List (Ref T)) (f : FlatNeighborhood) : Prop :=
  (∀ id, (∀ p ∈ done, p.origin ≠ id) → f id = none) ∧
  ∀ a p b, done = a ++ p :: b → (∀ q ∈ b, q.origin ≠ p.origin) → FlatAt nsort m0 m f p

theorem MapOK.step {m0 m m' : FSys T} {done : List (Ref T)} {f : FlatNeighborhood} (h : MapOK nsort m0 m done f)
    (hs : FStep nsort m m') (hst : ∀ v, Stored m.st.idx v → Stored m'.st.idx v) : MapOK nsort m0 m' done f := by
  refine ⟨h.1, fun a p b h1 h2 => ?_⟩
  obtain ⟨m1, i1, i2, i3, i4, i5⟩ := h.2 a p b h1 h2
  exact ⟨m1, i1, .step i2 hs, i3, fun v hv => hst v (i4 v hv), i5⟩

/-- what is known of the map -/
def FlatOK (nsort : NSort) (m0 m : FSys T) : Prop :=
  match m.fl with
  | .live _ _ out f => MapOK nsort m0 m out f
  | .point _ _ out f p => ∃ done, out = done ++ [p] ∧ MapOK nsort m0 m done f
  | .ended _ out f => MapOK nsort m0 m out f
  | _ => True

theorem noNaN_of_okB {B : Base T} {cfg : Cfg T} {s : Idx T} (h : IdxOKB B cfg s) {p : Ref T}
    (hw : ∀ l, ¬ B.wild p.pid l) : ∀ n ∈ (getNeighborhoodId s p).flatten, n.distance.isNaN = false := by
  intro n hn
  obtain ⟨l, hl, hn⟩ := List.mem_flatten.1 hn
  obtain ⟨i, -, rfl⟩ := List.mem_map.1 hl
  obtain ⟨e, he, rfl⟩ := List.mem_map.1 hn
  exact (h.num _ _).resolve_left (hw _) e he

/-- a flattened point is what it should be, unless the sort panics -/
theorem flattenPoint_eq {s : Idx T} {p : Ref T} {v : FlatPoint} (hn : flattenPoint nsort s p = .ok v) :
    v = flatOf nsort s p := by
  unfold flattenPoint nsortC at hn
  split at hn
  · cases hn
  · rename_i w hw
    split at hw
    · cases hw
    · cases hw
      cases hn
      rfl

theorem flatOKB {B : Base T} {P : Policy T} {cfg : Cfg T} (N : NSortLawful nsort) (L : P.Lawful) {c0 : CSt T}
    (h : GoodCB B cfg c0) (hB : B.Owned c0.idx) (hm : 0 < cfg.maxLayer) {jobs : List (Job T)}
    (hl : ∀ j ∈ jobs, j.level < cfg.maxLayer) {m : FSys T} (he : FSteps nsort (flattenStart P cfg c0 jobs) m) :
    ((∀ e, m.fl ≠ .failed e) ∨ ¬ B.Wild → IExec P cfg c0 jobs m.iter) ∧
      FlatOK nsort (flattenStart P cfg c0 jobs) m := by
  generalize hm0 : flattenStart P cfg c0 jobs = m0 at he
  induction he with
  | refl => subst hm0; exact ⟨fun _ => .refl _, trivial⟩
  | @step b c hb hs ih =>
    obtain ⟨hI', hF⟩ := ih
    have hex : Exec P cfg c0 jobs b.st b.ins := by subst hm0; exact FSteps.steps hb
    have hf := Exec.factsB L h hB hl hex (fun _ => True) (fun _ _ => trivial) (fun _ _ => trivial)
    have hs0 := hs
    cases hs with
    | @ins s s' ts ts' i hst hlay =>
      obtain ⟨ph, hi⟩ := Exec.invB L h hB hl hex (fun _ => True) (fun _ _ => trivial) (fun _ _ => trivial)
      have hmono := (sysInv_mono (c := (s, ts)) (c' := (s', ts')) hst hi).stored
      refine ⟨fun hc => .step (hI' hc) (.ins hst ?_), ?_⟩
      · intro hh
        apply hlay
        cases i <;> first | rfl | cases hh
      · unfold FlatOK at hF ⊢
        cases i with
        | start => trivial
        | live s0 pos out f => exact hF.step hs0 hmono
        | point s0 pos out f p =>
          obtain ⟨done, h1, h2⟩ := hF
          exact ⟨done, h1, h2.step hs0 hmono⟩
        | ended s0 out f => exact hF.step hs0 hmono
        | failed e => trivial
    | @new s ts =>
      have hI := hI' (Or.inl fun e h => by cases h)
      refine ⟨fun _ => .step hI .new, fun _ _ => rfl, fun a p b hx => ?_⟩
      cases a <;> cases hx
    | @yield s ts s0 pos pos' out f p hn =>
      have hI := hI' (Or.inl fun e h => by cases h)
      exact ⟨fun _ => .step hI (.yield hn), out, rfl, MapOK.step hF hs0 fun _ h => h⟩
    | @read s ts s0 pos out f p v hn =>
      have hI := hI' (Or.inl fun e h => by cases h)
      have hit := iterOKB L h hB hm hl hI
      refine ⟨fun _ => hI, ?_⟩
      obtain ⟨done, rfl, h2⟩ := hF
      simp only [IterOK, FSys.iter] at hit
      obtain ⟨i1, -, -, -, -, l, r, -, -, i8⟩ := hit
      have hp : Stored s.idx p := (stored_layers i1 p).2 (show p ∈ s0.points by rw [← i8]; simp)
      obtain rfl := flattenPoint_eq hn
      refine ⟨fun id hid => ?_, fun a q b' hx hb' => ?_⟩
      · unfold FlatNeighborhood.insert
        rw [if_neg (fun hh => hid p (by simp) hh.symm)]
        exact h2.1 id fun q hq => hid q (by simp [hq])
      · rcases List.eq_nil_or_concat b' with rfl | ⟨b1, x, rfl⟩
        · obtain ⟨rfl, hq⟩ := List.append_inj' hx rfl
          cases hq
          refine ⟨_, hb, .step (.refl _) hs0, rfl, fun _ h => h, hp, ?_⟩
          unfold FlatNeighborhood.insert
          rw [if_pos rfl]
        · rw [List.concat_eq_append] at hx hb'
          have hx' : done ++ [p] = (a ++ q :: b1) ++ [x] := by rw [hx]; simp
          obtain ⟨rfl, hxp⟩ := List.append_inj' hx' rfl
          cases hxp
          obtain ⟨m1, j1, j2, j3, j4, j5, j6⟩ := h2.2 a q b1 rfl fun y hy => hb' y (by simp [hy])
          refine ⟨m1, j1, .step j2 hs0, j3, j4, j5, ?_⟩
          unfold FlatNeighborhood.insert
          rw [if_neg (fun hh => hb' p (by simp) hh.symm)]
          exact j6
    | @readFail s ts s0 pos out f p e hn =>
      refine ⟨fun hc => ?_, trivial⟩
      have hw := hc.resolve_left fun h => h e rfl
      unfold flattenPoint nsortC at hn
      rw [if_neg] at hn
      · cases hn
      · rw [N.ok _ (noNaN_of_okB hf.ok fun l h => hw ⟨_, _, h⟩)]
        simp
    | @stop s ts s0 pos pos' out f hn =>
      have hI := hI' (Or.inl fun e h => by cases h)
      exact ⟨fun _ => .step hI (.stop hn), MapOK.step hF hs0 fun _ h => h⟩
    | @fail s ts s0 pos out f e hn =>
      have hI := hI' (Or.inl fun e h => by cases h)
      exact ⟨fun _ => .step hI (.fail hn), trivial⟩

/-! ## Running a schedule -/

/-- the next action of the flattening -/
def flatAct (nsort : NSort) (s : CSt T) : FlatSt T → Option (FlatSt T)
  | .start => some (.live s.idx none [] fun _ => none)
  | .live s0 pos out f =>
    match iterNext s.idx pos with
    | .ok (some p, pos') => some (.point s0 pos' (out ++ [p]) f p)
    | .ok (none, _) => some (.ended s0 out f)
    | .error e => some (.failed e)
  | .point s0 pos out f p =>
    match flattenPoint nsort s.idx p with
    | .ok v => some (.live s0 pos out (f.insert p.origin v))
    | .error e => some (.failed e)
  | .ended .. => none
  | .failed _ => none

theorem flatAct_step {s : CSt T} {ts : List (Prog (CSt T) Unit)} {i i' : FlatSt T} (h : flatAct nsort s i = some i') :
    FStep nsort ⟨s, ts, i⟩ ⟨s, ts, i'⟩ := by
  cases i with
  | start => cases h; exact .new
  | live s0 pos out f =>
    simp only [flatAct] at h
    split at h
    · rename_i hn; cases h; exact .yield hn
    · rename_i hn; cases h; exact .stop hn
    · rename_i hn; cases h; exact .fail hn
  | point s0 pos out f p =>
    simp only [flatAct] at h
    split at h
    · rename_i hn; cases h; exact .read hn
    · rename_i hn; cases h; exact .readFail hn
  | ended => cases h
  | failed => cases h

/-- run a schedule: `none` is the flattening, `some i` the insertion `i` -/
def runFlat [DecidableEq T] (nsort : NSort) : List (Option Nat) → FSys T → Option (FSys T)
  | [], m => some m
  | none :: is, m => (flatAct nsort m.st m.fl).bind fun i => runFlat nsort is ⟨m.st, m.ins, i⟩
  | some i :: is, m =>
    match runSched [i] (m.st, m.ins) with
    | some (s, ts) =>
      if m.fl.holds = true → s.idx.layers = m.st.idx.layers then runFlat nsort is ⟨s, ts, m.fl⟩ else none
    | none => none

theorem runFlat_steps [DecidableEq T] : ∀ (is : List (Option Nat)) (m m' : FSys T),
    runFlat nsort is m = some m' → FSteps nsort m m' := by
  intro is
  induction is with
  | nil => intro m m' h; cases h; exact .refl _
  | cons x is ih =>
    intro m m' h
    obtain ⟨s0, ts0, d0⟩ := m
    cases x with
    | none =>
      simp only [runFlat, Option.bind_eq_some_iff] at h
      obtain ⟨d, hd, h⟩ := h
      exact (FSteps.step (.refl _) (flatAct_step hd)).trans (ih _ _ h)
    | some i =>
      simp only [runFlat] at h
      split at h
      · rename_i s ts hr
        split at h
        · rename_i hl
          exact (FSteps.step (.refl _) (.ins (runSched_one hr) hl)).trans (ih _ _ h)
        · cases h
      · cases h

end Verif
