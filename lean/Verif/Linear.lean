import Verif.Deadlock
import Verif.ExecLemmas

set_option autoImplicit false

/-!
# Insertions one after the other (for C134)
-/

namespace Verif
variable {T : Type} {P : Policy T} {cfg : Cfg T}

/-- Calls to `insert` one after the other (/repo/src/hnsw.rs 1047-1049): what the iterations of
`parallel_insert` (/repo/src/hnsw.rs 1199-1205) do when none overlaps another, a panic of a call being caught. -/
def inOrder (P : Policy T) (cfg : Cfg T) : CSt T → List (Job T) → CSt T
  | c, [] => c
  | c, j :: js => inOrder P cfg (insert P cfg c (j.data, j.id) j.level).state js

/-! ## Tables -/

/-- what a finished execution adds to the table -/
theorem Exec.layersB (L : P.Lawful) {c0 : CSt T} {B : Base T} (h0 : GoodCB B cfg c0) (hB : B.Owned c0.idx)
    {jobs : List (Job T)} (hl : ∀ j ∈ jobs, j.level < cfg.maxLayer) {c : CSt T} {ts : List (Prog (CSt T) Unit)}
    (he : Exec P cfg c0 jobs c ts) (hf : ∀ t ∈ ts, t.Finished) (l : Nat) :
    ∃ news, c.idx.layer l = c0.idx.layer l ++ news ∧
      (news.map fun p => (p.data, p.origin)).Perm
        ((jobs.filter (fun j => j.level = l)).map fun j => (j.data, j.id)) := by
  have hG : GoodCB B cfg c := Exec.goodCB L h0 hB hl he hf
  obtain ⟨-, refs, hlen, href, hperm, -, -, -⟩ := Exec.finishedB L h0 hB hl he hf
  obtain ⟨v, hv⟩ := layer_prefix h0.inv.okB.tab hG.inv.okB.tab (Exec.stored_monoB L h0 hB hl he) l
  refine ⟨v, hv.symm, ?_⟩
  have h2 := (filter_points_perm hG.inv.okB.tab l).symm.trans
    (hperm.filter (fun p => decide (p.pid.layer = l)))
  rw [List.filter_append] at h2
  have h3 := h2.trans ((filter_points_perm h0.inv.okB.tab l).append_right _)
  rw [← hv, List.perm_append_left_iff] at h3
  refine (h3.map _).trans ?_
  clear h2 h3 hv hperm he hf hl hG
  induction refs generalizing jobs with
  | nil =>
    cases jobs with
    | nil => exact List.Perm.refl _
    | cons j jobs => simp at hlen
  | cons r refs ih =>
    cases jobs with
    | nil => simp at hlen
    | cons j jobs =>
      have hr : IsRef j r := href 0 j r rfl rfl
      have := ih (jobs := jobs) (by simpa using hlen)
        (fun i j' r' hj hr' => href (i + 1) j' r' hj hr')
      simp only [List.filter_cons, hr.2.2]
      split
      · simp only [List.map_cons, hr.1, hr.2.1]
        exact this.cons _
      · exact this

/-- one call -/
theorem insert_addsB (L : P.Lawful) {c0 : CSt T} {B : Base T} (h : GoodCB B cfg c0) (hB : B.Owned c0.idx) {j : Job T}
    (hl : j.level < cfg.maxLayer) {c : CSt T} (hc : (insert P cfg c0 (j.data, j.id) j.level).state = c) :
    GoodCB B cfg c ∧ B.Owned c.idx ∧ c.idx.points.length = c0.idx.points.length + 1 ∧
    ∀ l, (c.idx.layer l).map (fun p => (p.data, p.origin)) = (c0.idx.layer l).map (fun p => (p.data, p.origin)) ++
      if l = j.level then [(j.data, j.id)] else [] := by
  obtain ⟨c1, t, he, hf, ho⟩ := insert_execB (P := P) L h hB (j := j) hl
  have hlj : ∀ j' ∈ [j], j'.level < cfg.maxLayer := by
    intro j' hj'
    rw [List.mem_singleton.1 hj']
    exact hl
  have hft : ∀ t' ∈ [t], t'.Finished := by simpa using hf
  have h1 : c1 = c := by
    rw [← hc]
    rcases ho with ⟨h1, -⟩ | ⟨e, h1, -⟩ <;> rw [h1] <;> rfl
  subst h1
  obtain ⟨-, refs, hlen, -, hperm, -⟩ := Exec.finishedB L h hB hlj he hft
  refine ⟨Exec.goodCB L h hB hlj he hft, fun p l e hb => ?_, ?_, fun l => ?_⟩
  · obtain ⟨o, ho, hop⟩ := hB p l e hb
    exact ⟨o, Exec.stored_monoB L h hB hlj he o ho, hop⟩
  · rw [hperm.length_eq, List.length_append, hlen]
    rfl
  · obtain ⟨news, hn, hp⟩ := Exec.layersB L h hB hlj he hft l
    rw [hn, List.map_append]
    congr 1
    by_cases hjl : l = j.level
    · rw [if_pos hjl]
      simp only [List.filter_cons, hjl, decide_true, if_true, List.filter_nil, List.map_cons, List.map_nil] at hp
      exact List.perm_singleton.1 hp
    · rw [if_neg hjl]
      have : ¬ j.level = l := fun h => hjl h.symm
      simp only [List.filter_cons, this, decide_false, List.filter_nil] at hp
      exact hp.eq_nil

/-- what insertions one after the other add to the table -/
theorem inOrder_table (L : P.Lawful) {B : Base T} : ∀ (js : List (Job T)) {c0 : CSt T}, GoodCB B cfg c0 →
    B.Owned c0.idx → (∀ j ∈ js, j.level < cfg.maxLayer) →
    GoodCB B cfg (inOrder P cfg c0 js) ∧
    ∀ l, ((inOrder P cfg c0 js).idx.layer l).map (fun p => (p.data, p.origin)) =
      (c0.idx.layer l).map (fun p => (p.data, p.origin)) ++
        (js.filter (fun j => j.level = l)).map (fun j => (j.data, j.id)) := by
  intro js
  induction js with
  | nil => intro c0 h _ _; exact ⟨h, fun l => by simp [inOrder]⟩
  | cons j js ih =>
    intro c0 h hB hl
    obtain ⟨hG, hB', -, hlay⟩ := insert_addsB (P := P) L h hB (hl j (by simp)) rfl
    obtain ⟨h1, h2⟩ := ih hG hB' (fun j' hj' => hl j' (List.mem_cons_of_mem _ hj'))
    refine ⟨h1, fun l => ?_⟩
    show ((inOrder P _ _ js).idx.layer l).map _ = _
    rw [h2 l, hlay l]
    by_cases hjl : l = j.level
    · subst hjl
      simp
    · have : ¬ j.level = l := fun h => hjl h.symm
      simp [hjl, this]

/-- a table is determined by its data, the ids being positions -/
theorem layers_ext {m : Nat} {s s' : Idx T} (h : TableOK m s) (h' : TableOK m s')
    (he : ∀ l, (s.layer l).map (fun p => (p.data, p.origin)) = (s'.layer l).map (fun p => (p.data, p.origin))) :
    s.layers = s'.layers := by
  have hl : ∀ l, s.layer l = s'.layer l := by
    intro l
    have hlen : (s.layer l).length = (s'.layer l).length := by
      have := congrArg List.length (he l)
      simpa using this
    refine List.ext_getElem hlen fun i h1 h2 => ?_
    have e1 := h.ids l i _ (List.getElem?_eq_getElem h1)
    have e2 := h'.ids l i _ (List.getElem?_eq_getElem h2)
    have e3 : ((s.layer l).map (fun p => (p.data, p.origin)))[i]? =
        ((s'.layer l).map (fun p => (p.data, p.origin)))[i]? := by rw [he l]
    rw [List.getElem?_map, List.getElem?_map, List.getElem?_eq_getElem h1, List.getElem?_eq_getElem h2] at e3
    simp only [Option.map_some, Option.some.injEq, Prod.mk.injEq] at e3
    generalize (s.layer l)[i] = a at *
    generalize (s'.layer l)[i] = b at *
    cases a
    cases b
    simp_all
  refine List.ext_getElem (by rw [h.len, h'.len]) fun i h1 h2 => ?_
  have := hl i
  unfold Idx.layer at this
  rw [List.getElem?_eq_getElem h1, List.getElem?_eq_getElem h2] at this
  simpa using this

theorem split_level (js : List (Job T)) (m : Nat) :
    (js.filter (fun j => j.level < m) ++ js.filter (fun j => j.level = m)).Perm
      (js.filter (fun j => j.level < m + 1)) := by
  induction js with
  | nil => simp
  | cons j js ih =>
    by_cases h1 : j.level < m
    · have h2 : ¬ j.level = m := by omega
      have h3 : j.level < m + 1 := by omega
      simp only [List.filter_cons, h1, h2, h3, decide_true, decide_false, if_true, List.cons_append]
      exact ih.cons _
    · by_cases h2 : j.level = m
      · have h3 : j.level < m + 1 := by omega
        simp only [List.filter_cons, h1, h2, h3, decide_true, decide_false, if_true]
        simp only [h2, Nat.lt_irrefl, Nat.lt_succ_self, decide_true, decide_false, if_true]
        exact List.perm_middle.trans (ih.cons _)
      · have h3 : ¬ j.level < m + 1 := by omega
        simp only [List.filter_cons, h1, h2, h3, decide_false]
        exact ih

/-- grouping the calls by level -/
theorem byLevel_perm (js : List (Job T)) (f : Nat → List (Job T))
    (hf : ∀ l, (f l).Perm (js.filter (fun j => j.level = l))) (m : Nat) :
    ((List.range m).flatMap f).Perm (js.filter (fun j => j.level < m)) := by
  induction m with
  | zero => simp
  | succ m ih =>
    rw [List.range_succ, List.flatMap_append]
    simp only [List.flatMap_cons, List.flatMap_nil, List.append_nil]
    exact (ih.append (hf m)).trans (split_level js m)

theorem byLevel_filter (f : Nat → List (Job T)) (hf : ∀ l, ∀ j ∈ f l, j.level = l) (m l : Nat) :
    ((List.range m).flatMap f).filter (fun j => j.level = l) = if l < m then f l else [] := by
  induction m with
  | zero => simp
  | succ m ih =>
    rw [List.range_succ, List.flatMap_append, List.filter_append, ih]
    simp only [List.flatMap_cons, List.flatMap_nil, List.append_nil]
    by_cases hm : m = l
    · subst hm
      rw [if_neg (by omega), if_pos (by omega), List.nil_append, List.filter_eq_self]
      intro j hj
      simpa using hf m j hj
    · have : (f m).filter (fun j => j.level = l) = [] := by
        rw [List.filter_eq_nil_iff]
        intro j hj h
        exact hm ((hf m j hj).symm.trans (by simpa using h))
      rw [this, List.append_nil]
      by_cases h : l < m
      · rw [if_pos h, if_pos (by omega)]
      · rw [if_neg h, if_neg (by omega)]

/-- The table of any finished execution is that of the calls made one after the other in some order. -/
theorem Exec.tableB (L : P.Lawful) {c0 : CSt T} {B : Base T} (h0 : GoodCB B cfg c0) (hB : B.Owned c0.idx)
    {jobs : List (Job T)} (hl : ∀ j ∈ jobs, j.level < cfg.maxLayer) {c : CSt T} {ts : List (Prog (CSt T) Unit)}
    (he : Exec P cfg c0 jobs c ts) (hf : ∀ t ∈ ts, t.Finished) :
    ∃ jobs', jobs'.Perm jobs ∧ c.idx.layers = (inOrder P cfg c0 jobs').idx.layers ∧
      c.idx.nbPoint = (inOrder P cfg c0 jobs').idx.nbPoint := by
  have hG : GoodCB B cfg c := Exec.goodCB L h0 hB hl he hf
  obtain ⟨news, hnews⟩ := Classical.axiomOfChoice (Exec.layersB L h0 hB hl he hf)
  let f : Nat → List (Job T) := fun l => (news l).map fun p => ⟨p.data, p.origin, l⟩
  have hfl : ∀ l, (f l).Perm (jobs.filter (fun j => j.level = l)) := by
    intro l
    have := (hnews l).2.map (fun x : List T × DataId => (⟨x.1, x.2, l⟩ : Job T))
    rw [List.map_map, List.map_map] at this
    refine this.trans (List.Perm.of_eq ?_)
    conv => rhs; rw [← List.map_id (jobs.filter (fun j => j.level = l))]
    refine List.map_congr_left fun j hj => ?_
    have hj : j.level = l := by simpa using (List.mem_filter.1 hj).2
    subst hj
    rfl
  have hfv : ∀ l, ∀ j ∈ f l, j.level = l := by
    intro l j hj
    obtain ⟨p, -, rfl⟩ := List.mem_map.1 hj
    rfl
  refine ⟨(List.range cfg.maxLayer).flatMap f, ?_, ?_⟩
  · refine (byLevel_perm jobs f hfl cfg.maxLayer).trans (List.Perm.of_eq ?_)
    rw [List.filter_eq_self]
    intro j hj
    simpa using hl j hj
  · have hl' : ∀ j ∈ (List.range cfg.maxLayer).flatMap f, j.level < cfg.maxLayer := by
      intro j hj
      obtain ⟨l, h1, h2⟩ := List.mem_flatMap.1 hj
      rw [hfv l j h2]
      exact List.mem_range.1 h1
    obtain ⟨hG', htab⟩ := inOrder_table (P := P) L _ h0 hB hl'
    have hlay : c.idx.layers = (inOrder P cfg c0 ((List.range cfg.maxLayer).flatMap f)).idx.layers := by
      refine layers_ext hG.inv.okB.tab hG'.inv.okB.tab fun l => ?_
      rw [htab l, (hnews l).1, List.map_append, byLevel_filter f hfv]
      congr 1
      by_cases hlm : l < cfg.maxLayer
      · rw [if_pos hlm, List.map_map]
        rfl
      · have h1 : jobs.filter (fun j => j.level = l) = [] := by
          rw [List.filter_eq_nil_iff]
          intro j hj h
          have := hl j hj
          have : j.level = l := by simpa using h
          omega
        have h2 := (hnews l).2
        rw [h1] at h2
        rw [if_neg hlm, h2.eq_nil]
        rfl
    refine ⟨hlay, ?_⟩
    rw [hG.count, hG'.count]
    unfold Idx.points
    rw [hlay]

/-! ## Schedules without overlap -/

section
variable {σ α : Type}

theorem runSched_other {d : Nat} : ∀ (is : List Nat) (s : σ) (ts : List (Prog σ α)) (c : σ) (ts' : List (Prog σ α)),
    (∀ i ∈ is, i ≠ d) → runSched is (s, ts) = some (c, ts') → ts'[d]? = ts[d]? := by
  intro is
  induction is with
  | nil => intro s ts c ts' _ h; cases h; rfl
  | cons i is ih =>
    intro s ts c ts' hi h
    unfold runSched at h
    split at h
    · split at h
      · rw [ih _ _ _ _ (fun x hx => hi x (List.mem_cons_of_mem _ hx)) h,
          List.getElem?_set_ne (hi i (by simp))]
      · cases h
    · cases h

theorem getElem?_mid (done : List (Prog σ α)) (t : Prog σ α) (rest : List (Prog σ α)) :
    (done ++ t :: rest)[done.length]? = some t := by simp

theorem set_mid (done : List (Prog σ α)) (t t' : Prog σ α) (rest : List (Prog σ α)) :
    (done ++ t :: rest).set done.length t' = done ++ t' :: rest := by simp

/-- If the thread numbers of a schedule do not decrease, the first thread that moves runs to its end before the others. -/
theorem runSched_first (done rest : List (Prog σ α)) (c : σ) (ts' : List (Prog σ α)) (hf : ∀ t ∈ ts', t.Finished) :
    ∀ (t : Prog σ α) (s : σ) (is : List Nat), is.Pairwise (· ≤ ·) → (∀ i ∈ is, done.length ≤ i) →
    runSched is (s, done ++ t :: rest) = some (c, ts') →
    ∃ is' t', is'.Pairwise (· ≤ ·) ∧ (∀ i ∈ is', done.length + 1 ≤ i) ∧ t'.Finished ∧
      runSched is' ((t.run s).state, done ++ t' :: rest) = some (c, ts') := by
  have tail : ∀ (t : Prog σ α) (s : σ) (i : Nat) (is : List Nat), (i :: is).Pairwise (· ≤ ·) → done.length ≤ i →
      i ≠ done.length → ∀ x ∈ i :: is, done.length + 1 ≤ x := by
    intro t s i is hp h1 h2 x hx
    rcases List.mem_cons.1 hx with rfl | hx
    · omega
    · have := List.rel_of_pairwise_cons hp hx
      omega
  have fin : ∀ (t : Prog σ α) (s : σ) (is : List Nat), t.Finished → (∀ u, (t.run u).state = u) → is.Pairwise (· ≤ ·) →
      (∀ i ∈ is, done.length ≤ i) → runSched is (s, done ++ t :: rest) = some (c, ts') →
      ∃ is' t', is'.Pairwise (· ≤ ·) ∧ (∀ i ∈ is', done.length + 1 ≤ i) ∧ t'.Finished ∧
        runSched is' ((t.run s).state, done ++ t' :: rest) = some (c, ts') := by
    intro t s is ht hr hp hi h
    refine ⟨is, t, hp, ?_, ht, by rw [hr]; exact h⟩
    cases is with
    | nil => simp
    | cons i is =>
      refine tail t s i is hp (hi i (by simp)) ?_
      rintro rfl
      unfold runSched at h
      rw [getElem?_mid] at h
      cases t with
      | ret a => cases h
      | fail e => cases h
      | act g u k => exact ht
  intro t
  induction t with
  | ret a => intro s is hp hi h; exact fin _ s is trivial (fun _ => rfl) hp hi h
  | fail e => intro s is hp hi h; exact fin _ s is trivial (fun _ => rfl) hp hi h
  | act g u k ih =>
    intro s is hp hi h
    have stays : (∀ i ∈ is, i ≠ done.length) → False := by
      intro hne
      have := runSched_other is _ _ _ _ hne h
      rw [getElem?_mid] at this
      exact hf _ (List.mem_of_getElem? this)
    cases is with
    | nil => exact absurd (by simp) stays
    | cons i is =>
      by_cases hid : i = done.length
      · subst hid
        unfold runSched at h
        rw [getElem?_mid] at h
        simp only at h
        split at h
        · rename_i hg
          rw [set_mid] at h
          obtain ⟨is', t', h1, h2, h3, h4⟩ := ih s (u s) is (List.Pairwise.of_cons hp)
            (fun x hx => hi x (List.mem_cons_of_mem _ hx)) h
          refine ⟨is', t', h1, h2, h3, ?_⟩
          simp only [Prog.run, if_pos hg]
          exact h4
        · cases h
      · refine absurd (fun x hx => ?_) stays
        have := tail (.act g u k) s i is hp (hi i (by simp)) hid x hx
        omega

/-- a thread that does not block can run alone to its end -/
theorem runSched_alone (done rest : List (Prog σ α)) : ∀ (t : Prog σ α) (s : σ), (∀ c, t.run s ≠ .blocked c) →
    ∃ (n : Nat) (t' : Prog σ α), t'.Finished ∧
      ∀ is, runSched (List.replicate n done.length ++ is) (s, done ++ t :: rest) =
        runSched is ((t.run s).state, done ++ t' :: rest) := by
  intro t
  induction t with
  | ret a => intro s _; exact ⟨0, .ret a, trivial, fun is => rfl⟩
  | fail e => intro s _; exact ⟨0, .fail e, trivial, fun is => rfl⟩
  | act g u k ih =>
    intro s hb
    by_cases hg : g s = true
    · obtain ⟨n, t', h1, h2⟩ := ih s (u s) (fun c hc => hb c (by simp only [Prog.run, if_pos hg]; exact hc))
      refine ⟨n + 1, t', h1, fun is => ?_⟩
      rw [List.replicate_succ, List.cons_append]
      simp only [runSched, getElem?_mid, hg, if_true, Prog.run]
      rw [set_mid]
      exact h2 is
    · exact absurd (by simp only [Prog.run, if_neg hg]) (hb s)

end

/-- more fuel changes nothing -/
theorem Refuel.run {α : Type} {t t' : Prog (CSt T) α} (h : Refuel t t') (s : CSt T)
    (hn : ∀ c, t.run s ≠ .panic .fuel c) : t'.run s = t.run s := by
  induction t generalizing t' s with
  | ret a => cases h; rfl
  | fail e =>
    rcases h with rfl | rfl
    · exact absurd rfl (hn s)
    · rfl
  | act g u k ih =>
    obtain ⟨-, k', rfl, hk⟩ := h
    simp only [Prog.run]
    by_cases hg : g s = true
    · rw [if_pos hg, if_pos hg]
      exact ih s (hk s) (u s) (fun c hc => hn c (by simp only [Prog.run, if_pos hg]; exact hc))
    · rw [if_neg hg, if_neg hg]

/-- a single call with more fuel -/
theorem insert_refuel (L : P.Lawful) {c : CSt T} {B : Base T} (h : GoodCB B cfg c) (hB : B.Owned c.idx) {j : Job T} (hl : j.level < cfg.maxLayer) {F : Nat}
    (hF : c.idx.points.length + 3 ≤ F) :
    (j.prog P cfg F).run c = insert P cfg c (j.data, j.id) j.level ∧
    ∀ c', (j.prog P cfg F).run c ≠ .blocked c' := by
  have hr := (insertP_refuel (P := P) (cfg := cfg) hF j).run c (fun c' hc => by
    obtain ⟨c1, t, he, hf, ho⟩ := insert_execB (P := P) (cfg := cfg) L h hB (j := j) hl
    have hi : insert P cfg c (j.data, j.id) j.level = .panic .fuel c' := hc
    rcases ho with ⟨h1, -⟩ | ⟨e, h1, rfl⟩
    · rw [hi] at h1; cases h1
    · rw [hi] at h1
      cases h1
      exact Exec.no_fuelB L h hB (by intro j' hj'; rw [List.mem_singleton.1 hj']; exact hl) he _ (by simp) rfl)
  have h1 : (j.prog P cfg F).run c = insert P cfg c (j.data, j.id) j.level := hr
  exact ⟨h1, fun c' hc => insert_not_blockedB L h hB hl c' (h1 ▸ hc)⟩

theorem runSched_inOrder (L : P.Lawful) {B : Base T} {F : Nat} {cf : CSt T} {ts' : List (Prog (CSt T) Unit)}
    (hf : ∀ t ∈ ts', t.Finished) : ∀ (js : List (Job T)) (done : List (Prog (CSt T) Unit)) (c : CSt T) (is : List Nat),
    GoodCB B cfg c → B.Owned c.idx → (∀ j ∈ js, j.level < cfg.maxLayer) → c.idx.points.length + js.length + 2 ≤ F →
    is.Pairwise (· ≤ ·) → (∀ i ∈ is, done.length ≤ i) →
    runSched is (c, done ++ js.map (Job.prog P cfg F)) = some (cf, ts') →
    cf = inOrder P cfg c js := by
  intro js
  induction js with
  | nil =>
    intro done c is _ _ _ _ _ hi h
    cases is with
    | nil => cases h; rfl
    | cons i is =>
      have : (done ++ List.map (Job.prog P cfg F) [])[i]? = none := by
        rw [List.getElem?_eq_none_iff]
        simpa using hi i (by simp)
      unfold runSched at h
      rw [this] at h
      cases h
  | cons j js ih =>
    intro done c is hG hB hl hF hp hi h
    obtain ⟨is', t', h1, h2, h3, h4⟩ := runSched_first done _ cf ts' hf _ c is hp hi h
    have hr := insert_refuel (P := P) L hG hB (hl j (by simp)) (F := F)
      (by simp at hF; omega)
    rw [hr.1] at h4
    obtain ⟨hG', hB', hlen, -⟩ := insert_addsB (P := P) L hG hB (hl j (by simp)) rfl
    refine ih (done ++ [t']) _ is' hG' hB' (fun j' hj' => hl j' (List.mem_cons_of_mem _ hj')) ?_ h1 ?_ ?_
    · simp at hF hlen ⊢
      omega
    · simpa using h2
    · rw [List.append_assoc]
      exact h4

theorem inOrder_runs (L : P.Lawful) {B : Base T} {F : Nat} :
    ∀ (js : List (Job T)) (done : List (Prog (CSt T) Unit)) (c : CSt T), (∀ t ∈ done, t.Finished) →
    GoodCB B cfg c → B.Owned c.idx → (∀ j ∈ js, j.level < cfg.maxLayer) → c.idx.points.length + js.length + 2 ≤ F →
    ∃ is ts', is.Pairwise (· ≤ ·) ∧ (∀ i ∈ is, done.length ≤ i) ∧ (∀ t ∈ ts', t.Finished) ∧
      runSched is (c, done ++ js.map (Job.prog P cfg F)) =
        some (inOrder P cfg c js, ts') := by
  intro js
  induction js with
  | nil =>
    intro done c hd _ _ _ _
    exact ⟨[], done, .nil, by simp, hd, by simp [runSched, inOrder]⟩
  | cons j js ih =>
    intro done c hd hG hB hl hF
    have hr := insert_refuel (P := P) L hG hB (hl j (by simp)) (F := F)
      (by simp at hF; omega)
    obtain ⟨n, t', ht, hrun⟩ := runSched_alone done (js.map (Job.prog P cfg F)) _ c hr.2
    rw [hr.1] at hrun
    obtain ⟨hG', hB', hlen, -⟩ := insert_addsB (P := P) L hG hB (hl j (by simp)) rfl
    obtain ⟨is, ts', h1, h2, h3, h4⟩ := ih (done ++ [t']) _ (by
        intro t h
        rcases List.mem_append.1 h with h | h
        · exact hd t h
        · rw [List.mem_singleton.1 h]; exact ht) hG' hB'
      (fun j' hj' => hl j' (List.mem_cons_of_mem _ hj')) (by simp at hF hlen ⊢; omega)
    refine ⟨List.replicate n done.length ++ is, ts', ?_, ?_, h3, ?_⟩
    · rw [List.pairwise_append]
      refine ⟨List.pairwise_replicate.2 (Or.inr (Nat.le_refl _)), h1, fun a ha b hb => ?_⟩
      rw [(List.mem_replicate.1 ha).2]
      have := h2 b hb
      simp at this
      omega
    · intro i h
      rcases List.mem_append.1 h with h | h
      · rw [(List.mem_replicate.1 h).2]; exact Nat.le_refl _
      · have := h2 i h
        simp at this
        omega
    · rw [List.map_cons, hrun is]
      rw [List.append_assoc] at h4
      exact h4

end Verif
