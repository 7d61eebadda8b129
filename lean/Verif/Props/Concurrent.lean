import Verif.ExecLemmas
import Verif.Access
import Verif.Examples

set_option autoImplicit false

/-!
# Properties of concurrent insertion (C29 - C32)

`Exec P cfg c0 jobs c ts`: starting from the quiescent state `c0`, the threads inserting the `jobs`
(one each) have performed some interleaving of their atomic actions; the shared state is now `c`
and what each thread still has to do is `ts`.  A thread is an action waiting for a lock, or has
returned (`ret`), or has panicked (`fail`).
-/

namespace Verif
variable {T : Type} {P : Policy T} {cfg : Cfg T}

/-- start state of the examples: 10 at level 2, 50 at level 0 -/
def exStart : CSt Nat := exSt (exCfg 3) [(10, 2), (50, 0)]

theorem exStart_reach : ReachC (listPolicy Nat) (exCfg 3) exStart := exSt_reach _ _ (by decide)

/-- two insertions -/
def exTwo : List (Job Nat) := [⟨[20], 20, 2⟩, ⟨[21], 21, 1⟩]

/-- their threads at the start -/
def exThreads (c0 : CSt Nat) (jobs : List (Job Nat)) : List (Prog (CSt Nat) Unit) :=
  jobs.map (Job.prog (listPolicy Nat) (exCfg 3) (c0.idx.points.length + jobs.length + 2))

/-- the execution described by a list of thread numbers, if possible -/
def exRun (c0 : CSt Nat) (jobs : List (Job Nat)) (sched : List Nat) :
    Option (CSt Nat × List (Prog (CSt Nat) Unit)) :=
  runSched sched (c0, exThreads c0 jobs)

theorem exRun_exec {c0 : CSt Nat} {jobs : List (Job Nat)} {sched : List Nat} {c : CSt Nat}
    {ts : List (Prog (CSt Nat) Unit)} (h : exRun c0 jobs sched = some (c, ts)) :
    Exec (listPolicy Nat) (exCfg 3) c0 jobs c ts := runSched_steps _ _ _ h

/-- a property of the state reached -/
def exHolds (c0 : CSt Nat) (jobs : List (Job Nat)) (sched : List Nat)
    (p : CSt Nat → List (Prog (CSt Nat) Unit) → Bool) : Bool :=
  match exRun c0 jobs sched with
  | some (c, ts) => p c ts
  | none => false

theorem exHolds_exec {c0 : CSt Nat} {jobs : List (Job Nat)} {sched : List Nat}
    {p : CSt Nat → List (Prog (CSt Nat) Unit) → Bool} (h : exHolds c0 jobs sched p = true) :
    ∃ c ts, Exec (listPolicy Nat) (exCfg 3) c0 jobs c ts ∧ p c ts = true := by
  unfold exHolds at h
  split at h
  · rename_i c ts hr
    exact ⟨c, ts, exRun_exec hr, h⟩
  · cases h

theorem isRet_finished {ts : List (Prog (CSt T) Unit)} (h : ts.all isRet = true) :
    ∀ t ∈ ts, t = .ret () := by
  intro t ht
  have := List.all_eq_true.1 h t ht
  cases t with
  | ret a => rfl
  | fail e => cases this
  | act g u k => cases this

/-- **C29** When all the threads are done, the index contains the old points, at their place, plus
exactly the submitted items, each once, in the layer of its level; ids are unique and dense; the
counter is exact.  (Also when some of the threads panicked.) -/
theorem C29_exactly_once (L : P.Lawful) {c0 : CSt T} (h : ReachC P cfg c0) (ext kp : Bool)
    {jobs : List (Job T)} (hl : ∀ j ∈ jobs, j.level < cfg.maxLayer) {c : CSt T}
    {ts : List (Prog (CSt T) Unit)} (he : Exec P (cfg.withFlags ext kp) c0 jobs c ts)
    (hf : ∀ t ∈ ts, t.Finished) :
    (∀ l, ∃ news, c.idx.layer l = c0.idx.layer l ++ news ∧
      (news.map fun p => (p.data, p.origin)).Perm
        ((jobs.filter (fun j => j.level = l)).map fun j => (j.data, j.id))) ∧
    (∀ (l r : Nat) (p : Ref T), (c.idx.layer l)[r]? = some p → p.pid = ⟨l, r⟩) ∧
    (c.idx.points.map (·.pid)).Nodup ∧
    getNbPoint c.idx = getNbPoint c0.idx + jobs.length := by
  have h0 := h.goodC L
  have h' : GoodC (cfg.withFlags ext kp) c0 := goodC_flags.2 h0
  have hG : GoodC cfg c := goodC_flags.1 (Exec.goodC (cfg := cfg.withFlags ext kp) L h' hl he hf)
  obtain ⟨-, refs, hlen, href, hperm, -, -, -⟩ :=
    Exec.finished (cfg := cfg.withFlags ext kp) L h' hl he hf
  refine ⟨?_, hG.inv.ok.tab.ids, pids_points_nodup hG.inv.ok.tab, ?_⟩
  · intro l
    obtain ⟨v, hv⟩ := layer_prefix h0.inv.ok.tab hG.inv.ok.tab
      (Exec.stored_mono (cfg := cfg.withFlags ext kp) L h' hl he) l
    refine ⟨v, hv.symm, ?_⟩
    have h2 := (filter_points_perm hG.inv.ok.tab l).symm.trans
      (hperm.filter (fun p => decide (p.pid.layer = l)))
    rw [List.filter_append] at h2
    have h3 := h2.trans ((filter_points_perm h0.inv.ok.tab l).append_right _)
    rw [← hv, List.perm_append_left_iff] at h3
    refine (h3.map _).trans ?_
    clear h2 h3 hv hperm he hf hl hG
    induction refs generalizing jobs with
    | nil =>
      cases jobs with
      | nil => exact List.Perm.refl _
      | cons j jobs => simp at hlen
    | cons r refs ih =>
      cases jobs with
      | nil => simp at hlen
      | cons j jobs =>
        have hr : IsRef j r := href 0 j r rfl rfl
        have := ih (jobs := jobs) (by simpa using hlen)
          (fun i j' r' hj hr' => href (i + 1) j' r' hj hr')
        simp only [List.filter_cons, hr.2.2]
        split
        · simp only [List.map_cons, hr.1, hr.2.1]
          exact this.cons _
        · exact this
  · rw [getNbPoint, getNbPoint, hG.count, h0.count, hperm.length_eq, List.length_append, hlen]

/-- two insertions, interleaved action by action -/
example : exHolds exStart exTwo ((List.replicate 22 [0, 1]).flatten ++ [0, 0]) (fun c ts =>
    ts.all isRet && c.idx.points.map (·.data) == [[50], [21], [10], [20]] && c.idx.nbPoint == 4) =
    true := by decide +kernel

/-- **C30** Under any schedule, at any moment (also while other threads are in the middle of an
insertion, and after a panic), the link invariants hold: lists are sorted, duplicate free, without
self link, bounded, refer to stored points and carry true legal distances (fields of `IdxOK`). -/
theorem C30_always_ok (L : P.Lawful) {c0 : CSt T} (h : ReachC P cfg c0) (ext kp : Bool)
    {jobs : List (Job T)} (hl : ∀ j ∈ jobs, j.level < cfg.maxLayer) {c : CSt T}
    {ts : List (Prog (CSt T) Unit)} (he : Exec P (cfg.withFlags ext kp) c0 jobs c ts) :
    IdxOK cfg c.idx := by
  have h' : GoodC (cfg.withFlags ext kp) c0 := goodC_flags.2 (h.goodC L)
  obtain ⟨ph, hS⟩ := Exec.inv (cfg := cfg.withFlags ext kp) L h' hl he (fun _ => True) (by simp)
    (by simp)
  exact idxOK_flags.1 hS.env.inv.ok

/-- a moment where both threads are in the middle of their insertion, and 20 is already linked from
10 -/
example : exHolds exStart exTwo (List.replicate 14 0 ++ List.replicate 12 1) (fun c ts =>
    ts.all (fun t => !isRet t) && (c.idx.nb ⟨2, 0⟩ 2).map (·.pt.data) == [[20]]) =
    true := by decide +kernel

/-- **C31 is false**: two threads insert in an empty index a point of level 1 and a point of level 0.
The first one is counted first; the second becomes the entry point before the first one looks; the
first one then leaves without linking its point nor updating the entry point. -/
theorem C31_refuted : ¬ ∀ (jobs : List (Job Nat)) (c : CSt Nat) (ts : List (Prog (CSt Nat) Unit)),
    (∀ j ∈ jobs, j.level < 16) → jobs ≠ [] →
    Exec (listPolicy Nat) (exCfg 3) (CSt.new 16) jobs c ts → (∀ t ∈ ts, t = .ret ()) →
    ∀ p ∈ c.idx.points, p.pid.layer ≤ getMaxLevelObserved c.idx := by
  intro h
  obtain ⟨c, ts, he, hp⟩ := exHolds_exec (c0 := CSt.new 16) (jobs := [⟨[20], 20, 1⟩, ⟨[21], 21, 0⟩])
    (sched := [0, 0, 1, 1, 1, 1, 0])
    (p := fun c ts => ts.all isRet && c.idx.points.any (fun p => getMaxLevelObserved c.idx < p.pid.layer))
    (by decide +kernel)
  rw [Bool.and_eq_true, List.any_eq_true] at hp
  obtain ⟨h1, p, hp, hlt⟩ := hp
  have := h _ c ts (by decide) (by decide) he (isRet_finished h1) p hp
  have hlt := of_decide_eq_true hlt
  omega

/-- In that execution the point of level 1 is not linked to anything and no search can find it. -/
theorem C31_lost_point : exHolds (CSt.new 16) [⟨[20], 20, 1⟩, ⟨[21], 21, 0⟩] [0, 0, 1, 1, 1, 1, 0]
    (fun c ts => ts.all isRet && c.idx.points.map (·.data) == [[21], [20]] &&
      (List.range 16).all (fun l => (c.idx.nb ⟨1, 0⟩ l).isEmpty && (c.idx.nb ⟨0, 0⟩ l).isEmpty)) =
    true := by decide +kernel

/-- **C31** (partial: the index was not empty before, and its entry point was on the highest populated
layer, as it is after any sequential history, `C19_entry_top`).  Whatever the schedule, when all the
threads have returned the entry point is a stored point on the highest populated layer. -/
theorem C31_entry_top_partial (L : P.Lawful) {c0 : CSt T} (h : ReachC P cfg c0) (ext kp : Bool)
    (htop : TopEntry c0.idx) {jobs : List (Job T)} (hl : ∀ j ∈ jobs, j.level < cfg.maxLayer)
    {c : CSt T} {ts : List (Prog (CSt T) Unit)}
    (he : Exec P (cfg.withFlags ext kp) c0 jobs c ts) (hf : ∀ t ∈ ts, t = .ret ()) :
    TopEntry c.idx := by
  have h0 := h.goodC L
  have h' : GoodC (cfg.withFlags ext kp) c0 := goodC_flags.2 h0
  have hf' : ∀ t ∈ ts, t.Finished := fun t ht => by rw [hf t ht]; trivial
  have hG : GoodC cfg c := goodC_flags.1 (Exec.goodC (cfg := cfg.withFlags ext kp) L h' hl he hf')
  obtain ⟨htl, refs, hlen, href, hperm, hent, hold, -⟩ :=
    Exec.finished (cfg := cfg.withFlags ext kp) L h' hl he hf'
  obtain ⟨e0, he0, hs0, ht0⟩ := htop
  obtain ⟨e, hee, hle⟩ := hold e0 he0
  refine ⟨e, hee, hG.inv.ok.entry e hee, ?_⟩
  intro p hp
  unfold Stored at hp
  rw [hperm.mem_iff] at hp
  rcases List.mem_append.1 hp with hp | hp
  · exact Nat.le_trans (ht0 p hp) hle
  · obtain ⟨i, hi⟩ := List.getElem?_of_mem hp
    have hlt : i < ts.length := by
      rw [htl, ← hlen]; exact (List.getElem?_eq_some_iff.1 hi).1
    have hti : ts[i]? = some (.ret ()) := by
      rw [List.getElem?_eq_getElem hlt, hf _ (List.getElem_mem hlt)]
    rcases hent i p hi hti with ⟨hn, -⟩ | ⟨e', he', hle'⟩
    · rw [h0.count] at hn
      have : c0.idx.points = [] := List.length_eq_zero_iff.1 hn
      unfold Stored at hs0
      rw [this] at hs0
      cases hs0
    · have : e = e' := by rw [hee] at he'; exact Option.some.inj he'
      rw [this]; exact hle'

/-- the entry point moves from 10 (level 2) to 20 (level 3) -/
example : exHolds exStart [⟨[20], 20, 3⟩, ⟨[21], 21, 1⟩]
    ((List.replicate 22 [0, 1]).flatten ++ List.replicate 8 0)
    (fun c ts => ts.all isRet && getMaxLevelObserved c.idx == 3) =
    true := by decide +kernel

/-- **C32 is false**: the insertion of 20 (level 2) and that of 21 (level 1) reach a state where none of
the two has finished and each one holds the lock the other one is waiting for. -/
theorem C32_refuted : ¬ ∀ (c0 : CSt Nat) (jobs : List (Job Nat)) (c : CSt Nat)
    (ts : List (Prog (CSt Nat) Unit)), ReachC (listPolicy Nat) (exCfg 3) c0 →
    (∀ j ∈ jobs, j.level < 16) → Exec (listPolicy Nat) (exCfg 3) c0 jobs c ts →
    (∃ t ∈ ts, ¬ t.Finished) → ∃ x, Step (c, ts) x := by
  intro h
  obtain ⟨c, ts, he, hp⟩ := exHolds_exec (c0 := exStart) (jobs := exTwo)
    (sched := List.replicate 14 0 ++ List.replicate 20 1 ++ [0])
    (p := fun c ts => ts.length == 2 && ts.all (isBlocked c)) (by decide +kernel)
  rw [Bool.and_eq_true, List.all_eq_true] at hp
  obtain ⟨h2, hb⟩ := hp
  have hlen : ts.length = 2 := by simpa using h2
  have h0 : 0 < ts.length := by omega
  obtain ⟨x, hx⟩ := h exStart exTwo c ts exStart_reach (by decide) he ⟨ts[0], List.getElem_mem h0, by
    intro hf
    have := hb _ (List.getElem_mem h0)
    cases ht : ts[0] with
    | ret a => rw [ht] at this; cases this
    | fail e => rw [ht] at this; cases this
    | act g u k => rw [ht] at hf; exact hf⟩
  cases hx with
  | mk i hi g u k hact hg =>
    have := hb _ (List.getElem_mem hi)
    rw [hact] at this
    simp only [isBlocked] at this
    rw [hg] at this
    cases this

/-- a schedule after which all the threads wait -/
theorem exHolds_stuck {c0 : CSt Nat} {jobs : List (Job Nat)} {sched : List Nat}
    (h : exHolds c0 jobs sched (fun c ts => !ts.isEmpty && ts.all (isBlocked c)) = true) :
    ∃ c ts, Exec (listPolicy Nat) (exCfg 3) c0 jobs c ts ∧ (∃ t ∈ ts, ¬ t.Finished) ∧
      ¬ ∃ x, Step (c, ts) x := by
  obtain ⟨c, ts, he, hp⟩ := exHolds_exec h
  simp only [Bool.and_eq_true, Bool.not_eq_true', List.all_eq_true] at hp
  obtain ⟨h0, hb⟩ := hp
  refine ⟨c, ts, he, ?_, ?_⟩
  · cases ts with
    | nil => cases h0
    | cons t ts =>
      refine ⟨t, by simp, ?_⟩
      have := hb t (by simp)
      intro hf
      cases t with
      | ret a => cases this
      | fail e => cases this
      | act g u k => exact hf
  · rintro ⟨x, hx⟩
    cases hx with
    | mk i hi g u k hact hg =>
      have := hb _ (List.getElem_mem hi)
      rw [hact] at this
      simp only [isBlocked] at this
      rw [hg] at this
      cases this

/-- **C32 is false** already with levels 0 and 1 only: three insertions, two of which are on the bottom
layer, or one of which is, can wait for each other in a circle. (In the first case 20, of level 1, waits for
30, which waits for 45, which waits for 20.) -/
theorem C32_levels_refuted : ∀ levels ∈ [[1, 0, 0], [1, 0, 1], [2, 1]],
    ∃ (c0 : CSt Nat) (jobs : List (Job Nat)) (c : CSt Nat) (ts : List (Prog (CSt Nat) Unit)),
      ReachC (listPolicy Nat) (exCfg 3) c0 ∧ jobs.map (·.level) = levels ∧
      Exec (listPolicy Nat) (exCfg 3) c0 jobs c ts ∧ (∃ t ∈ ts, ¬ t.Finished) ∧
      ¬ ∃ x, Step (c, ts) x := by
  intro levels hlv
  simp only [List.mem_cons, List.not_mem_nil, or_false] at hlv
  rcases hlv with rfl | rfl | rfl
  · obtain ⟨c, ts, h⟩ := exHolds_stuck (c0 := exSt (exCfg 3) [(10, 1), (50, 0)])
      (jobs := [⟨[20], 20, 1⟩, ⟨[30], 30, 0⟩, ⟨[45], 45, 0⟩])
      (sched := List.replicate 12 0 ++ List.replicate 15 2 ++ List.replicate 15 1 ++ [0, 1, 0, 0])
      (by decide +kernel)
    exact ⟨_, _, c, ts, exSt_reach _ _ (by decide), rfl, h⟩
  · obtain ⟨c, ts, h⟩ := exHolds_stuck (c0 := exSt (exCfg 3) [(70, 1), (80, 0)])
      (jobs := [⟨[20], 20, 1⟩, ⟨[30], 30, 0⟩, ⟨[40], 40, 1⟩])
      (sched := List.replicate 13 0 ++ List.replicate 17 2 ++ List.replicate 16 1 ++ [0])
      (by decide +kernel)
    exact ⟨_, _, c, ts, exSt_reach _ _ (by decide), rfl, h⟩
  · obtain ⟨c, ts, h⟩ := exHolds_stuck (c0 := exStart) (jobs := exTwo)
      (sched := List.replicate 14 0 ++ List.replicate 20 1 ++ [0]) (by decide +kernel)
    exact ⟨_, _, c, ts, exStart_reach, rfl, h⟩

/-- **C32** (partial: the points inserted concurrently have all drawn the same level, for example they are
all on the bottom layer; or there are two of them, one of which is on the bottom layer). Some thread can
always make progress until all are finished. `C32_levels_refuted` shows that the levels cannot be much more
general. -/
theorem C32_progress_partial (L : P.Lawful) {c0 : CSt T} (h : ReachC P cfg c0) (ext kp : Bool)
    {jobs : List (Job T)} (hl : ∀ j ∈ jobs, j.level < cfg.maxLayer)
    (hlv : (∀ j ∈ jobs, ∀ j' ∈ jobs, j.level = j'.level) ∨
      (jobs.length ≤ 2 ∧ ∃ j ∈ jobs, j.level = 0)) {c : CSt T} {ts : List (Prog (CSt T) Unit)}
    (he : Exec P (cfg.withFlags ext kp) c0 jobs c ts) (hu : ∃ t ∈ ts, ¬ t.Finished) :
    ∃ x, Step (c, ts) x :=
  Exec.progress (cfg := cfg.withFlags ext kp) L (goodC_flags.2 (h.goodC L)) hl hlv he hu

/-- **C32**, no livelock: no schedule of any number of insertions is infinite. -/
theorem C32_no_infinite_schedule {σ : Type} (f : Nat → σ × List (Prog σ Unit)) :
    ¬ ∀ n, Step (f n) (f (n + 1)) := by
  intro h
  have : ∀ x, ∀ n, f n ≠ x := by
    intro x
    induction x using step_wf.induction with
    | h x ih =>
      rintro n rfl
      exact ih (f (n + 1)) (h n) (n + 1) rfl
  exact this _ 0 rfl

/-- so that, with the same restriction, any execution can be completed, whatever its state -/
theorem C32_completes_partial (L : P.Lawful) {c0 : CSt T} (h : ReachC P cfg c0) (ext kp : Bool)
    {jobs : List (Job T)} (hl : ∀ j ∈ jobs, j.level < cfg.maxLayer)
    (hlv : (∀ j ∈ jobs, ∀ j' ∈ jobs, j.level = j'.level) ∨
      (jobs.length ≤ 2 ∧ ∃ j ∈ jobs, j.level = 0)) {c : CSt T} {ts : List (Prog (CSt T) Unit)}
    (he : Exec P (cfg.withFlags ext kp) c0 jobs c ts) :
    ∃ c' ts', Steps (c, ts) (c', ts') ∧ ∀ t ∈ ts', t.Finished := by
  obtain ⟨c', ts', -, h2, h3⟩ := Exec.completes (cfg := cfg.withFlags ext kp) L
    (goodC_flags.2 (h.goodC L)) hl hlv he
  exact ⟨c', ts', h2, h3⟩

/-- a moment where a thread inserting a point of level 1 has to wait for one of level 0 -/
example : exHolds exStart [⟨[20], 20, 1⟩, ⟨[21], 21, 0⟩] (List.replicate 15 1 ++ List.replicate 19 0)
    (fun c ts => ts.length == 2 && (ts.head?.map (isBlocked c)).getD false) = true := by decide +kernel

/-- a moment where a thread inserting a point of level 0 has to wait for one of level 1 -/
example : exHolds exStart [⟨[20], 20, 1⟩, ⟨[21], 21, 0⟩] (List.replicate 19 0 ++ List.replicate 18 1)
    (fun c ts => ts.length == 2 && ts.all (fun t => !isRet t) && ts.any (isBlocked c)) = true := by decide +kernel

/-- a moment where a thread inserting a point of level 0 has to wait for another one -/
example : exHolds exStart [⟨[20], 20, 0⟩, ⟨[21], 21, 0⟩] (List.replicate 14 0 ++ List.replicate 14 1)
    (fun c ts => ts.length == 2 && ts.all (fun t => !isRet t) && ts.any (isBlocked c)) = true := by decide +kernel

end Verif
