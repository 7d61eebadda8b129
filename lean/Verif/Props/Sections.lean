import Verif.Sections
import Verif.Props.Concurrent

set_option autoImplicit false

/-!
# C97: the number of lock sections of an insertion
-/

namespace Verif
variable {T : Type} {P : Policy T} {cfg : Cfg T}

theorem StepsBy.lt {σ α : Type} {is : List Nat} {a b : σ × List (Prog σ α)} (h : StepsBy is a b) :
    b.2.length = a.2.length ∧ ∀ i ∈ is, i < a.2.length := by
  induction h with
  | refl c => exact ⟨rfl, by simp⟩
  | step i hi g u k _ ha hg ih =>
    obtain ⟨h1, h2⟩ := ih
    simp only at h1
    refine ⟨by simpa using h1, ?_⟩
    intro j hj
    rcases List.mem_append.1 hj with h | h
    · exact h2 j h
    · rw [List.mem_singleton.1 h, ← h1]; exact hi

theorem length_le_of_count {B : Nat} : ∀ (m : Nat) (is : List Nat), (∀ i ∈ is, i < m) →
    (∀ i, is.count i ≤ B) → is.length ≤ m * B := by
  intro m
  induction m with
  | zero =>
    intro is h _
    cases is with
    | nil => simp
    | cons a is => exact absurd (h a (by simp)) (by omega)
  | succ m ih =>
    intro is h hc
    have h1 := List.length_eq_countP_add_countP (fun i => i == m) (l := is)
    have h2 := ih (is.filter fun i => !(i == m)) (by
      intro i hi
      rw [List.mem_filter] at hi
      have := h i hi.1
      have : i ≠ m := by simpa using hi.2
      omega) (fun i => Nat.le_trans (List.filter_sublist.count_le i) (hc i))
    have h3 := hc m
    rw [List.count] at h3
    rw [← List.countP_eq_length_filter] at h2
    have h4 : is.countP (fun a => decide ¬((a == m) = true)) = is.countP (fun i => !(i == m)) := by
      congr 1; funext a; cases (a == m) <;> rfl
    rw [Nat.succ_mul]
    omega

/-- the bound of `C97_sections`, for all systems in which the states satisfy the invariant -/
theorem sections_le {O : PointId → Prop} (L : P.Lawful) {c0 : CSt T} {jobs : List (Job T)}
    (hl : ∀ j ∈ jobs, j.level < cfg.maxLayer)
    (hI : ∀ c ts, Exec P cfg c0 jobs c ts → SecInv O cfg c) {is : List Nat} {c : CSt T}
    {ts : List (Prog (CSt T) Unit)}
    (he : StepsBy is (c0, jobs.map (Job.prog P cfg (c0.idx.points.length + jobs.length + 2))) (c, ts)) :
    (∀ i, is.count i ≤
      4 + cfg.maxLayer * (c0.idx.points.length + jobs.length + 4 * cfg.maxNb + 6)) ∧
    is.length ≤ jobs.length *
      (4 + cfg.maxLayer * (c0.idx.points.length + jobs.length + 4 * cfg.maxNb + 6)) := by
  have hlt := he.lt.2
  simp only [List.length_map] at hlt
  have hc : ∀ i, is.count i ≤
      4 + cfg.maxLayer * (c0.idx.points.length + jobs.length + 4 * cfg.maxNb + 6) := by
    intro i
    by_cases hi : i < jobs.length
    · have h1 := insertP_depth (cfg := cfg) (O := O) L (c0.idx.points.length + jobs.length + 2)
        (jobs[i].data, jobs[i].id) (hl jobs[i] (List.getElem_mem hi))
      have h2 := (he.count (I := SecInv O cfg) (A := fun _ => True)
        (n := sections cfg (c0.idx.points.length + jobs.length + 2)) (i := i)
        (fun is' c' h' => hI _ _ h'.steps)
        (by simpa using hi) (by simpa [Job.prog] using h1)).1
      unfold sections at h2
      refine Nat.le_trans h2 (Nat.add_le_add_left (Nat.mul_le_mul_left _ ?_) _)
      change _ + 4 * cfg.maxNb + 4 ≤ _
      omega
    · rw [List.count_eq_zero_of_not_mem (fun hm => hi (hlt i hm))]
      exact Nat.zero_le _
  exact ⟨hc, length_le_of_count _ _ hlt hc⟩

/-- **C97** A batch of insertions in an index, one thread each, under any schedule: no thread enters more
than `4 + max_layer * (n + 4 * max_nb_connection + 6)` critical sections (acquires and releases of the
locks of the point table, of the entry point and of the lists of neighbours), where `n` counts the points
stored before and those of the batch; the number of steps of the whole batch, finished or not, is at most
that many times the number of insertions.  `is` is the schedule: the numbers of the threads that made the
steps (every execution has one, `C97_schedule`). -/
theorem C97_sections (L : P.Lawful) {c0 : CSt T} (h : ReachC P cfg c0) (ext kp : Bool)
    {jobs : List (Job T)} (hl : ∀ j ∈ jobs, j.level < cfg.maxLayer) {is : List Nat} {c : CSt T}
    {ts : List (Prog (CSt T) Unit)}
    (he : StepsBy is (c0, jobs.map (Job.prog P (cfg.withFlags ext kp)
      (c0.idx.points.length + jobs.length + 2))) (c, ts)) :
    (∀ i, is.count i ≤
      4 + cfg.maxLayer * (c0.idx.points.length + jobs.length + 4 * cfg.maxNb + 6)) ∧
    is.length ≤ jobs.length *
      (4 + cfg.maxLayer * (c0.idx.points.length + jobs.length + 4 * cfg.maxNb + 6)) :=
  sections_le (cfg := cfg.withFlags ext kp) L hl
    (fun _ _ h' => secInv_of (idxOK_flags.2 (C30_always_ok L h ext kp hl h'))) he

/-- Executions of a batch and schedules: one is in the model iff the other exists. -/
theorem C97_schedule {c0 : CSt T} {jobs : List (Job T)} {c : CSt T} {ts : List (Prog (CSt T) Unit)} :
    Exec P cfg c0 jobs c ts ↔ ∃ is, StepsBy is (c0, jobs.map (Job.prog P cfg
      (c0.idx.points.length + jobs.length + 2))) (c, ts) :=
  ⟨fun h => h.by, fun ⟨_, h⟩ => h.steps⟩

/-- two insertions interleaved, 24 and 22 steps until they have returned; the bound is 356 for each -/
example : ((List.replicate 22 [0, 1]).flatten ++ [0, 0]).count 0 = 24 ∧
    4 + (exCfg 3).maxLayer * (exStart.idx.points.length + exTwo.length + 4 * (exCfg 3).maxNb + 6) = 356 ∧
    exHolds exStart exTwo ((List.replicate 22 [0, 1]).flatten ++ [0, 0]) (fun _ ts => ts.all isRet) = true ∧
    exHolds exStart exTwo ((List.replicate 22 [0, 1]).flatten ++ [0]) (fun _ ts => ts.all isRet) = false := by
  decide +kernel

/-- the hypotheses of `C97_sections` hold for this batch, and its execution exists -/
example : ReachC (listPolicy Nat) (exCfg 3) exStart ∧ (∀ j ∈ exTwo, j.level < (exCfg 3).maxLayer) ∧
    ∃ is c ts, StepsBy is (exStart, exTwo.map (Job.prog (listPolicy Nat) (exCfg 3)
      (exStart.idx.points.length + exTwo.length + 2))) (c, ts) ∧ ts.all isRet = true := by
  refine ⟨exStart_reach, by decide, ?_⟩
  obtain ⟨c, ts, he, hp⟩ := exHolds_exec (c0 := exStart) (jobs := exTwo)
    (sched := (List.replicate 22 [0, 1]).flatten ++ [0, 0]) (p := fun _ ts => ts.all isRet) (by decide +kernel)
  obtain ⟨is, hs⟩ := C97_schedule.1 he
  exact ⟨is, c, ts, hs, hp⟩

end Verif
