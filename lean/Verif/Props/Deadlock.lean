import Verif.Deadlock
import Verif.Props.Concurrent

set_option autoImplicit false

/-!
# Which levels allow a deadlock (C113)

`C32_refuted` and `C32_levels_refuted` show executions in which insertions wait for each other for ever.
Here is exactly for which levels of the points inserted concurrently there are such executions.
-/

namespace Verif

/-- some threads have a schedule after which they all wait: a system in which they occur too can be stuck -/
theorem stuck_of_core {c0 : CSt Nat} (hr : ReachC (listPolicy Nat) (exCfg 3) c0) {core jobs : List (Job Nat)}
    {sched : List Nat} (hs : sched ≠ [])
    (h : exHolds c0 core sched (fun c ts => ts.all (isBlocked c)) = true)
    (hl : ∀ j ∈ jobs, j.level < 16) (hlen : core.length ≤ jobs.length) {f : Nat → Nat}
    (hf : ∀ a < core.length, ∀ b < core.length, f a = f b → a = b)
    (hj : ∀ n j, core[n]? = some j → jobs[f n]? = some j) :
    ∃ c ts, Exec (listPolicy Nat) (exCfg 3) c0 jobs c ts ∧ (∃ t ∈ ts, ¬ t.Finished) ∧
      ¬ ∃ x, Step (c, ts) x := by
  unfold exHolds exRun at h
  split at h
  · rename_i c us hrun
    obtain ⟨h1, h2, ts, h3, h4⟩ := runSched_embed (f := f)
      (ts := jobs.map (Job.prog (listPolicy Nat) (exCfg 3) (c0.idx.points.length + jobs.length + 2)))
      (by simpa [exThreads] using hf) (by
        intro n t ht
        simp only [exThreads, List.getElem?_map] at ht
        cases hn : core[n]? with
        | none => rw [hn] at ht; cases ht
        | some j =>
          rw [hn] at ht
          cases ht
          refine ⟨_, by rw [List.getElem?_map, hj n j hn]; rfl, insertP_refuel (by omega) j⟩) hrun
    refine stuck_of_blocked listPolicy_lawful (hr.goodC listPolicy_lawful) (Base.owned_none _) hl h3
      (by simpa using hs) ?_
    intro n hn
    obtain ⟨m, hm, rfl⟩ := List.mem_map.1 hn
    have hml : m < us.length := by rw [h1]; exact h2 m hm
    have hb := List.all_eq_true.1 h _ (List.getElem_mem hml)
    obtain ⟨t', ht', hmore⟩ := h4 m _ (List.getElem?_eq_getElem hml)
    cases hu : us[m] with
    | ret a => rw [hu] at hb; cases hb
    | fail e => rw [hu] at hb; cases hb
    | act g u k =>
      rw [hu] at hb hmore
      obtain ⟨hc, k', rfl, -⟩ := hmore
      exact ⟨g, u, k', ht', by simpa [isBlocked] using hb, hc⟩
  · cases h

/-- two points of different levels, both above the bottom layer -/
theorem stuck_two : ∀ b < 16, ∀ a < b, 1 ≤ a →
    exHolds (exSt (exCfg 3) [(10, b), (50, 0)]) [⟨[20], 20, b⟩, ⟨[21], 21, a⟩]
      (List.replicate (12 + b) 0 ++ List.replicate (16 + b + 2 * a) 1 ++ List.replicate (2 * (b - a) - 1) 0)
      (fun c ts => ts.all (isBlocked c)) = true := by decide +kernel

/-- two points of the bottom layer and one above -/
theorem stuck_low : ∀ b < 16, 1 ≤ b →
    exHolds (exSt (exCfg 3) [(10, b), (50, 0)]) [⟨[20], 20, b⟩, ⟨[30], 30, 0⟩, ⟨[45], 45, 0⟩]
      (List.replicate (11 + b) 0 ++ List.replicate (14 + b) 2 ++ List.replicate (14 + b) 1 ++ [0, 1] ++
        List.replicate (2 * b) 0)
      (fun c ts => ts.all (isBlocked c)) = true := by decide +kernel

/-- one point of the bottom layer and two above, of the same level -/
theorem stuck_high : ∀ b < 16, 1 ≤ b →
    exHolds (exSt (exCfg 3) [(70, b), (80, 0)]) [⟨[20], 20, b⟩, ⟨[30], 30, 0⟩, ⟨[40], 40, b⟩]
      (List.replicate (12 + b) 0 ++ List.replicate (14 + b) 2 ++ List.replicate (15 + b) 1 ++
        List.replicate (2 * b - 1) 0 ++ List.replicate (2 * b) 2)
      (fun c ts => ts.all (isBlocked c)) = true := by decide +kernel

/-- three insertions with given levels, and others -/
def mixJobs (v : Nat → Nat) (levels : List Nat) : List (Job Nat) :=
  levels.mapIdx fun m l => ⟨[v m], UInt64.ofNat (v m), l⟩

theorem mixJobs_level (v : Nat → Nat) (levels : List Nat) : (mixJobs v levels).map (·.level) = levels := by
  apply List.ext_getElem?
  intro n
  simp only [mixJobs, List.getElem?_map, List.getElem?_mapIdx]
  cases levels[n]? <;> rfl

theorem mixJobs_get {v : Nat → Nat} {levels : List Nat} {n l : Nat} (h : levels[n]? = some l) :
    (mixJobs v levels)[n]? = some ⟨[v n], UInt64.ofNat (v n), l⟩ := by
  simp [mixJobs, List.getElem?_mapIdx, h]

/-- the levels which allow a deadlock: two different ones above 0, or 0, another one and a third one equal to
one of them -/
theorem levels_cases {levels : List Nat}
    (h : ¬ ((∀ l ∈ levels, ∀ l' ∈ levels, l = l') ∨ (levels.length ≤ 2 ∧ 0 ∈ levels))) :
    (∃ i j b a : Nat, levels[i]? = some b ∧ levels[j]? = some a ∧ 1 ≤ a ∧ a < b) ∨
    ∃ i j k b z : Nat, levels[i]? = some b ∧ levels[j]? = some 0 ∧ levels[k]? = some z ∧ i ≠ j ∧ i ≠ k ∧ j ≠ k ∧
      1 ≤ b ∧ (z = 0 ∨ z = b) := by
  rw [not_or] at h
  obtain ⟨h1, h2⟩ := h
  have hx : ∃ (i j : Nat) (b a : Nat), levels[i]? = some b ∧ levels[j]? = some a ∧ a < b := by
    apply Classical.byContradiction
    intro hno
    apply h1
    intro l hl l' hl'
    obtain ⟨i, hi⟩ := List.getElem?_of_mem hl
    obtain ⟨j, hj⟩ := List.getElem?_of_mem hl'
    have n1 : ¬ l < l' := fun hlt => hno ⟨j, i, l', l, hj, hi, hlt⟩
    have n2 : ¬ l' < l := fun hlt => hno ⟨i, j, l, l', hi, hj, hlt⟩
    omega
  obtain ⟨i, j, b, a, hi, hj, hab⟩ := hx
  by_cases ha : 1 ≤ a
  · exact Or.inl ⟨i, j, b, a, hi, hj, ha, hab⟩
  · obtain rfl : a = 0 := by omega
    have hlen : 2 < levels.length := by
      apply Classical.byContradiction
      intro hno
      exact h2 ⟨by omega, List.mem_of_getElem? hj⟩
    have hij : i ≠ j := by
      rintro rfl
      rw [hi] at hj
      cases hj
      omega
    have hk : ∃ k, k < 3 ∧ i ≠ k ∧ j ≠ k := by
      by_cases h0 : i ≠ 0 ∧ j ≠ 0
      · exact ⟨0, by omega, h0.1, h0.2⟩
      · by_cases h1 : i ≠ 1 ∧ j ≠ 1
        · exact ⟨1, by omega, h1.1, h1.2⟩
        · exact ⟨2, by omega, by omega, by omega⟩
    obtain ⟨k, hk3, hik, hjk⟩ := hk
    have hkl : k < levels.length := by omega
    have hkz := List.getElem?_eq_getElem hkl
    generalize levels[k] = z at hkz
    by_cases hz : z = 0 ∨ z = b
    · exact Or.inr ⟨i, j, k, b, z, hi, hj, hkz, hij, hik, hjk, by omega, hz⟩
    · left
      rw [not_or] at hz
      by_cases hzb : z < b
      · exact ⟨i, k, b, z, hi, hkz, by omega, hzb⟩
      · exact ⟨k, i, z, b, hkz, hi, by omega, by omega⟩

/-- **C113** (possible) For every list of levels which are not all the same, except two levels one of which
is 0, there is an index and an execution of concurrent insertions at these levels which comes to an end
although some of the insertions are not finished: they wait for each other for ever. -/
theorem C113_possible (levels : List Nat) (hl : ∀ l ∈ levels, l < 16)
    (h : ¬ ((∀ l ∈ levels, ∀ l' ∈ levels, l = l') ∨ (levels.length ≤ 2 ∧ 0 ∈ levels))) :
    ∃ (c0 : CSt Nat) (jobs : List (Job Nat)) (c : CSt Nat) (ts : List (Prog (CSt Nat) Unit)),
      ReachC (listPolicy Nat) (exCfg 3) c0 ∧ jobs.map (·.level) = levels ∧
      Exec (listPolicy Nat) (exCfg 3) c0 jobs c ts ∧ (∃ t ∈ ts, ¬ t.Finished) ∧
      ¬ ∃ x, Step (c, ts) x := by
  have hlv : ∀ v, ∀ j ∈ mixJobs v levels, j.level < 16 := by
    intro v j hj
    exact hl _ (mixJobs_level v levels ▸ List.mem_map_of_mem hj)
  have hml : ∀ v, (mixJobs v levels).length = levels.length := by
    intro v; simp [mixJobs]
  rcases levels_cases h with ⟨i, j, b, a, hi, hj, ha, hab⟩ | ⟨i, j, k, b, z, hi, hj, hk, hij, hik, hjk, hb, hz⟩
  · have hb16 := hl b (List.mem_of_getElem? hi)
    have hij : i ≠ j := by
      rintro rfl
      rw [hi] at hj
      cases hj
      omega
    have hil := (List.getElem?_eq_some_iff.1 hi).1
    have hjl := (List.getElem?_eq_some_iff.1 hj).1
    obtain ⟨c, ts, hx⟩ := stuck_of_core (jobs := mixJobs (fun m => if m = i then 20 else 21) levels)
      (f := fun n => if n = 0 then i else j)
      (exSt_reach _ _ (by simp only [exCfg]; simp; omega)) (by simp) (stuck_two b hb16 a hab ha)
      (hlv _) (by rw [hml]; simp; omega) (by
        intro x hx y hy
        simp only [List.length_cons, List.length_nil] at hx hy
        split <;> split <;> omega) (by
        intro n job hn
        rcases n with _ | _ | n
        · cases hn
          rw [if_pos rfl, mixJobs_get hi, if_pos rfl]
          rfl
        · cases hn
          rw [if_neg (by decide), mixJobs_get hj, if_neg (Ne.symm hij)]
          rfl
        · simp at hn)
    exact ⟨_, _, c, ts, exSt_reach _ _ (by simp only [exCfg]; simp; omega), mixJobs_level _ _, hx⟩
  · have hb16 := hl b (List.mem_of_getElem? hi)
    have hil := (List.getElem?_eq_some_iff.1 hi).1
    have hjl := (List.getElem?_eq_some_iff.1 hj).1
    have hkl := (List.getElem?_eq_some_iff.1 hk).1
    have hinj : ∀ x < 3, ∀ y < 3, (if x = 0 then i else if x = 1 then j else k) =
        (if y = 0 then i else if y = 1 then j else k) → x = y := by
      intro x hx y hy
      repeat' split
      all_goals omega
    rcases hz with rfl | rfl
    · obtain ⟨c, ts, hx⟩ := stuck_of_core
        (jobs := mixJobs (fun m => if m = i then 20 else if m = j then 30 else 45) levels)
        (f := fun n => if n = 0 then i else if n = 1 then j else k)
        (exSt_reach _ _ (by simp only [exCfg]; simp; omega)) (by simp) (stuck_low b hb16 hb)
        (hlv _) (by rw [hml]; simp; omega) hinj (by
          intro n job hn
          rcases n with _ | _ | _ | n
          · cases hn
            rw [if_pos rfl, mixJobs_get hi, if_pos rfl]
            rfl
          · cases hn
            rw [if_neg (by decide), if_pos rfl, mixJobs_get hj, if_neg (Ne.symm hij), if_pos rfl]
            rfl
          · cases hn
            rw [if_neg (by decide), if_neg (by decide), mixJobs_get hk, if_neg (Ne.symm hik),
              if_neg (Ne.symm hjk)]
            rfl
          · simp at hn)
      exact ⟨_, _, c, ts, exSt_reach _ _ (by simp only [exCfg]; simp; omega), mixJobs_level _ _, hx⟩
    · obtain ⟨c, ts, hx⟩ := stuck_of_core
        (jobs := mixJobs (fun m => if m = i then 20 else if m = j then 30 else 40) levels)
        (f := fun n => if n = 0 then i else if n = 1 then j else k)
        (exSt_reach _ _ (by simp only [exCfg]; simp; omega)) (by simp) (stuck_high _ hb16 hb)
        (hlv _) (by rw [hml]; simp; omega) hinj (by
          intro n job hn
          rcases n with _ | _ | _ | n
          · cases hn
            rw [if_pos rfl, mixJobs_get hi, if_pos rfl]
            rfl
          · cases hn
            rw [if_neg (by decide), if_pos rfl, mixJobs_get hj, if_neg (Ne.symm hij), if_pos rfl]
            rfl
          · cases hn
            rw [if_neg (by decide), if_neg (by decide), mixJobs_get hk, if_neg (Ne.symm hik),
              if_neg (Ne.symm hjk)]
            rfl
          · simp at hn)
      exact ⟨_, _, c, ts, exSt_reach _ _ (by simp only [exCfg]; simp; omega), mixJobs_level _ _, hx⟩

/-- **C113** Concurrent insertions of points with given levels can come to an end with an insertion that is not
finished — for some type of vectors, some distance, some parameters and some index with 16 layers — exactly
if the levels are not all the same and it is not a matter of two points one of which is on the bottom layer. -/
theorem C113_deadlock_levels (levels : List Nat) (hl : ∀ l ∈ levels, l < 16) :
    (∃ (T : Type) (P : Policy T) (cfg : Cfg T) (c0 : CSt T) (jobs : List (Job T)) (c : CSt T)
      (ts : List (Prog (CSt T) Unit)), P.Lawful ∧ cfg.maxLayer = 16 ∧ ReachC P cfg c0 ∧
      jobs.map (·.level) = levels ∧ Exec P cfg c0 jobs c ts ∧ (∃ t ∈ ts, ¬ t.Finished) ∧
      ¬ ∃ x, Step (c, ts) x) ↔
    ¬ ((∀ l ∈ levels, ∀ l' ∈ levels, l = l') ∨ (levels.length ≤ 2 ∧ 0 ∈ levels)) := by
  constructor
  · rintro ⟨T, P, cfg, c0, jobs, c, ts, L, hm, hr, rfl, he, hu, hno⟩ hlv
    refine hno (Exec.progress L (hr.goodC L) (fun j hj => ?_) ?_ he hu)
    · rw [hm]; exact hl _ (List.mem_map_of_mem hj)
    · rcases hlv with h | ⟨h, h0⟩
      · exact Or.inl fun j hj j' hj' => h _ (List.mem_map_of_mem hj) _ (List.mem_map_of_mem hj')
      · obtain ⟨j, hj, hj0⟩ := List.mem_map.1 h0
        exact Or.inr ⟨by simpa using h, j, hj, hj0⟩
  · intro h
    obtain ⟨c0, jobs, c, ts, hr, hj, hx⟩ := C113_possible levels hl h
    exact ⟨Nat, listPolicy Nat, exCfg 3, c0, jobs, c, ts, listPolicy_lawful, rfl, hr, hj, hx⟩

/-- a batch of the usual kind: five points of the bottom layer and one above -/
example : ¬ ((∀ l ∈ [0, 0, 1, 0, 0, 0], ∀ l' ∈ [0, 0, 1, 0, 0, 0], l = l') ∨
    ([0, 0, 1, 0, 0, 0].length ≤ 2 ∧ 0 ∈ [0, 0, 1, 0, 0, 0])) := by decide

end Verif
