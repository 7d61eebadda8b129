import Verif.SearchConcLemmas
import Verif.Props.Concurrent

set_option autoImplicit false

/-!
# Properties of searches that run at the same time as insertions

The hypothesis `cfg.maxLayer ≤ 256` holds for every index: `Hnsw::new` bounds the number of layers by 16
(/repo/src/hnsw.rs 775).
-/

namespace Verif
variable {T : Type} {P : Policy T} {cfg : Cfg T}

/-! ## Answers -/

/-- **C80** Whatever the insertions running at the same time and the schedule, a search that returns
gives at most `knbn` answers, without repetition; each one is the record of a point that is stored at that
moment (and ever after): one that was there before the insertions started, or one being inserted, with the
vector, the id and the level of its insertion.  If no distance from the query to a stored point is a NaN,
the answers come by increasing legal distance.  Missing: the order with NaN (`C01_sorted_refuted`). -/
theorem C80_answers_partial (L : P.Lawful) (hml : cfg.maxLayer ≤ 256) {c0 : CSt T} (h : ReachC P cfg c0)
    (ext kp : Bool) {jobs : List (Job T)} {reqs : List (Req T)}
    (hl : ∀ j ∈ jobs, j.level < cfg.maxLayer) {m : Mixed T}
    (he : MExec P (cfg.withFlags ext kp) c0 jobs reqs m) {i : Nat} {r : Req T} {ns : List Neighbour}
    (hr : reqs[i]? = some r) (hn : m.srch[i]? = some (.ret ns)) :
    ns.length ≤ r.knbn ∧ (ns.map (·.pId)).Nodup ∧
    ((∀ p ∈ m.st.idx.points, (cfg.eval r.query p.data).isNaN = false) →
      SortedAnswers ns ∧ ∀ n ∈ ns, n.distance.Legal) ∧
    ∀ n ∈ ns, ∃ p ∈ m.st.idx.points, n = ⟨p.origin, cfg.eval r.query p.data, p.pid⟩ ∧
      (p ∈ c0.idx.points ∨ ∃ j ∈ jobs, p.data = j.data ∧ p.origin = j.id ∧ p.pid.layer = j.level) := by
  obtain ⟨hA, -⟩ := mexec_answers L hml h ext kp hl he hr hn
  obtain ⟨⟨ph, hS⟩, -⟩ := mexec_inv L hml h ext kp hl he
  refine ⟨hA.len, hA.nodup, fun hN => ⟨hA.sorted hN, hA.legal hN⟩, fun n hnn => ?_⟩
  obtain ⟨p, hp, hpn⟩ := hA.stored n hnn
  refine ⟨p, hp, hpn, ?_⟩
  unfold Stored at hp
  rw [hS.perm.mem_iff] at hp
  rcases List.mem_append.1 hp with hp | hp
  · exact Or.inl hp
  · right
    obtain ⟨a, ha, har⟩ := List.mem_filterMap.1 hp
    obtain ⟨k, hk⟩ := List.getElem?_of_mem ha
    have hkl : k < ph.length := (List.getElem?_eq_some_iff.1 hk).1
    have hkj : k < jobs.length := hS.len ▸ hkl
    have hkt : k < m.ins.length := hS.tlen ▸ hkj
    have hT := hS.thr k _ a _ (List.getElem?_eq_getElem hkj) hk (List.getElem?_eq_getElem hkt)
    refine ⟨jobs[k], List.getElem_mem hkj, ?_⟩
    cases a with
    | idle => cases har
    | added x => cases har; exact hT.2.2.1
    | running x rk => cases har; exact hT.2.2

/-- a search overlapping an insertion, that returns old points and the new one -/
example : ∃ m, MExec (listPolicy Nat) ((exCfg 1).withFlags false false) exQuad [⟨[13], 13, 0⟩]
    [⟨[11], 6, 6, none⟩] m ∧ m.srch.map answered = [some [13, 14, 4, 3, 24]] := by
  have h := exOverlap_answer
  cases hm : exOverlapEnd with
  | none => rw [hm] at h; cases h
  | some m =>
    rw [hm] at h
    simp only [Option.map_some, Option.some.injEq, Prod.mk.injEq] at h
    exact ⟨m, exMixed_exec hm, h.1⟩

/-- **C80** (filter) With legal distances and `1 ≤ max ef knbn`, the answers of a filtered search running
with insertions are all accepted by the filter, or there is at most one answer (see `C09_filter_partial`
for what this one is on a quiescent index). -/
theorem C80_filter (L : P.Lawful) (hml : cfg.maxLayer ≤ 256) {c0 : CSt T} (h : ReachC P cfg c0)
    (ext kp : Bool) {jobs : List (Job T)} {reqs : List (Req T)}
    (hl : ∀ j ∈ jobs, j.level < cfg.maxLayer) {m : Mixed T}
    (he : MExec P (cfg.withFlags ext kp) c0 jobs reqs m) {i : Nat} {r : Req T} {ns : List Neighbour}
    (hr : reqs[i]? = some r) (hn : m.srch[i]? = some (.ret ns)) (φ : DataId → Bool)
    (hφ : r.filt = some φ) (h0 : LegalOn cfg.eval c0.idx r.query)
    (hj : ∀ j ∈ jobs, (cfg.eval r.query j.data).Legal) (hk : 1 ≤ max r.ef r.knbn) :
    (∀ n ∈ ns, φ n.dId = true) ∨ ns.length ≤ 1 := by
  refine (mexec_answers L hml h ext kp hl he hr hn).1.acc ⟨?_, Or.inr hk⟩ φ hφ
  rintro d (⟨v, hv, rfl⟩ | ⟨j, hjm, rfl⟩)
  · exact h0 v hv
  · exact hj j hjm

/-- the same with a filter refusing 14 and 3 -/
example : (exMixed exQuad 1 [⟨[13], 13, 0⟩] [⟨[11], 6, 6, some fun d => d != 14 && d != 3⟩]
    exOverlap).map (fun m => m.srch.map answered) = some [some [13, 4, 24]] := by decide +kernel

/-- **C81** A search running with insertions does not panic when the distances from its query to the
stored vectors and to the vectors being inserted are legal (and `ef` or `knbn` is positive if there is a
filter). -/
theorem C81_no_panic (L : P.Lawful) (hml : cfg.maxLayer ≤ 256) {c0 : CSt T} (h : ReachC P cfg c0)
    (ext kp : Bool) {jobs : List (Job T)} {reqs : List (Req T)}
    (hl : ∀ j ∈ jobs, j.level < cfg.maxLayer) {m : Mixed T}
    (he : MExec P (cfg.withFlags ext kp) c0 jobs reqs m) {i : Nat} {r : Req T}
    (hr : reqs[i]? = some r) (h0 : LegalOn cfg.eval c0.idx r.query)
    (hj : ∀ j ∈ jobs, (cfg.eval r.query j.data).Legal) (hf : r.filt = none ∨ 1 ≤ max r.ef r.knbn)
    (e : Panic) : m.srch[i]? ≠ some (.fail e) := by
  intro hn
  obtain ⟨-, -, hU⟩ := mexec_inv L hml h ext kp hl he
  refine (hU i r _ hr hn).2.2 ⟨?_, hf⟩
  rintro d (⟨v, hv, rfl⟩ | ⟨j, hjm, rfl⟩)
  · exact h0 v hv
  · exact hj j hjm

/-- **C81** (termination) For any distance function, a search running with insertions never exhausts the
iteration budget of the model: the number of iterations of its loop is at most the number of points at
the end plus one. -/
theorem C81_terminates (L : P.Lawful) (hml : cfg.maxLayer ≤ 256) {c0 : CSt T} (h : ReachC P cfg c0)
    (ext kp : Bool) {jobs : List (Job T)} {reqs : List (Req T)}
    (hl : ∀ j ∈ jobs, j.level < cfg.maxLayer) {m : Mixed T}
    (he : MExec P (cfg.withFlags ext kp) c0 jobs reqs m) : .fail .fuel ∉ m.srch := by
  intro hm
  obtain ⟨-, hlen, hU⟩ := mexec_inv L hml h ext kp hl he
  obtain ⟨i, hi⟩ := List.getElem?_of_mem hm
  have hlt : i < reqs.length := hlen ▸ (List.getElem?_eq_some_iff.1 hi).1
  exact (hU i _ _ (List.getElem?_eq_getElem hlt) hi).2.1 rfl

/-- **C81** (no empty answer) If the index was not empty before, distances are legal and `knbn ≥ 1`, a
search running with insertions returns something. -/
theorem C81_nonempty (L : P.Lawful) (hml : cfg.maxLayer ≤ 256) {c0 : CSt T} (h : ReachC P cfg c0)
    (ext kp : Bool) {jobs : List (Job T)} {reqs : List (Req T)}
    (hl : ∀ j ∈ jobs, j.level < cfg.maxLayer) {m : Mixed T}
    (he : MExec P (cfg.withFlags ext kp) c0 jobs reqs m) {i : Nat} {r : Req T} {ns : List Neighbour}
    (hr : reqs[i]? = some r) (hn : m.srch[i]? = some (.ret ns)) (hne : c0.idx.points ≠ [])
    (h0 : LegalOn cfg.eval c0.idx r.query) (hj : ∀ j ∈ jobs, (cfg.eval r.query j.data).Legal)
    (hk : 1 ≤ r.knbn) : ns ≠ [] := by
  refine (mexec_answers L hml h ext kp hl he hr hn).2 ((h.goodC L).entry hne) ⟨?_, Or.inr ?_⟩ hk
  · rintro d (⟨v, hv, rfl⟩ | ⟨j, hjm, rfl⟩)
    · exact h0 v hv
    · exact hj j hjm
  · omega

example : LegalOn (exCfg 1).eval exQuad.idx [11] ∧
    ∀ j ∈ [(⟨[13], 13, 0⟩ : Job Nat)], ((exCfg 1).eval [11] j.data).Legal :=
  ⟨absDist_legalOn _ _, fun _ _ => absDist_legal _ _⟩

/-! ## Searches and insertions do not hinder each other -/

/-- **C82** Searches have no influence on insertions: what the insertion threads of a mixed execution do is
an execution of these insertions alone.  (So that C29, C30, C31 hold with searches running.) -/
theorem C82_undisturbed {c0 : CSt T} {jobs : List (Job T)} {reqs : List (Req T)} {m : Mixed T}
    (he : MExec P cfg c0 jobs reqs m) : Exec P cfg c0 jobs m.st m.ins := by
  refine (MSteps.proj he ?_).1
  intro u hu
  obtain ⟨r, -, rfl⟩ := List.mem_map.1 hu
  exact searchP_ro _ _ _ _ _ _ _

/-- **C82** A search is never held up by an insertion, finished, running or blocked: in every state of a
mixed execution each search that has not returned can perform its next action, and this does not change
the index.  (Read locks are granted at once in the model; with `parking_lot` a read may also have to wait
for the writers that are waiting, see `C82_progress_partial` for what remains then.) -/
theorem C82_search_enabled {c0 : CSt T} {jobs : List (Job T)} {reqs : List (Req T)} {m : Mixed T}
    (he : MExec P cfg c0 jobs reqs m) {i : Nat} {u : Prog (CSt T) (List Neighbour)}
    (hu : m.srch[i]? = some u) (hf : ¬ u.Finished) :
    ∃ u', MStep m ⟨m.st, m.ins, m.srch.set i u'⟩ := by
  have hro := (MSteps.proj he (by
    intro u hu
    obtain ⟨r, -, rfl⟩ := List.mem_map.1 hu
    exact searchP_ro _ _ _ _ _ _ _)).2
  obtain ⟨hi, hu⟩ := List.getElem?_eq_some_iff.1 hu
  cases hx : u with
  | ret a => rw [hx] at hf; exact absurd trivial hf
  | fail e => rw [hx] at hf; exact absurd trivial hf
  | act g v k =>
    have h1 := hro _ (List.getElem_mem hi)
    rw [hu, hx] at h1
    have := MStep.srch (ts := m.ins) (Step.mk (s := m.st) (ts := m.srch) i hi g v k (by rw [hu, hx]) (h1.1 _).1)
    rw [(h1.1 _).2] at this
    exact ⟨_, this⟩

/-- **C82** (progress, partial as `C32_progress_partial`: the points inserted concurrently have all drawn
the same level, or there are two of them one of which is of level 0) As long as an insertion is not finished some insertion can make progress, without any
search moving; when they are all finished every search can. This does not depend on reads being granted
while an insertion is running. -/
theorem C82_progress_partial (L : P.Lawful) {c0 : CSt T} (h : ReachC P cfg c0) (ext kp : Bool)
    {jobs : List (Job T)} {reqs : List (Req T)} (hl : ∀ j ∈ jobs, j.level < cfg.maxLayer)
    (hlv : (∀ j ∈ jobs, ∀ j' ∈ jobs, j.level = j'.level) ∨
      (jobs.length ≤ 2 ∧ ∃ j ∈ jobs, j.level = 0)) {m : Mixed T}
    (he : MExec P (cfg.withFlags ext kp) c0 jobs reqs m) :
    ((∃ t ∈ m.ins, ¬ t.Finished) → ∃ s ts, MStep m ⟨s, ts, m.srch⟩) ∧
    ((∀ t ∈ m.ins, t.Finished) → ∀ (i : Nat) u, m.srch[i]? = some u → ¬ u.Finished →
      ∃ u', MStep m ⟨m.st, m.ins, m.srch.set i u'⟩) := by
  refine ⟨fun hu => ?_, fun _ i u hu hf => C82_search_enabled he hu hf⟩
  obtain ⟨⟨s, ts⟩, hs⟩ := C32_progress_partial L h ext kp hl hlv (C82_undisturbed he) hu
  exact ⟨s, ts, .ins hs⟩

/-- a state in the middle of both the search and the insertion -/
example : (exMixed exQuad 1 [⟨[13], 13, 0⟩] [⟨[11], 6, 6, none⟩]
    (List.replicate 5 (false, 0) ++ List.replicate 9 (true, 0))).map (fun m =>
      (m.srch.map answered, m.ins.map isRet)) = some ([none], [false]) := by decide +kernel

/-- **C82** No schedule of insertions and searches is infinite. -/
theorem C82_no_infinite_schedule (f : Nat → Mixed T) : ¬ ∀ n, MStep (f n) (f (n + 1)) := by
  intro h
  have : ∀ x, ∀ n, f n ≠ x := by
    intro x
    induction x using mstep_wf.induction with
    | h x ih =>
      rintro n rfl
      exact ih (f (n + 1)) (h n) (n + 1) rfl
  exact this _ 0 rfl

/-! ## The same with task-fair locks -/

/-- **C85** (partial as `C32_progress_partial`: the points inserted concurrently have all drawn the same
level, or there are two of them one of which is of level 0) With task-fair locks, which refuse a read while a thread waits for writing, insertions and searches
cannot block each other: as long as one is not finished, one of them can make progress. -/
theorem C85_fair_progress_partial (L : P.Lawful) {c0 : CSt T} (h : ReachC P cfg c0) (ext kp : Bool)
    {jobs : List (Job T)} {reqs : List (Req T)} (hl : ∀ j ∈ jobs, j.level < cfg.maxLayer)
    (hlv : (∀ j ∈ jobs, ∀ j' ∈ jobs, j.level = j'.level) ∨
      (jobs.length ≤ 2 ∧ ∃ j ∈ jobs, j.level = 0)) {m : Mixed T}
    (he : MExec P (cfg.withFlags ext kp) c0 jobs reqs m)
    (hu : (∃ t ∈ m.ins, ¬ t.Finished) ∨ ∃ u ∈ m.srch, ¬ u.Finished) : ∃ m', FairStep m m' := by
  have hx := C82_undisturbed he
  have h' : GoodC (cfg.withFlags ext kp) c0 := goodC_flags.2 (h.goodC L)
  by_cases hb : ∀ t ∈ m.ins, ¬ Blocked m.st t
  · rcases hu with ⟨t, ht, hf⟩ | ⟨u, hu, hf⟩
    · obtain ⟨i, hi⟩ := List.getElem?_of_mem ht
      cases t with
      | ret a => exact absurd trivial hf
      | fail e => exact absurd trivial hf
      | act g v k =>
        refine ⟨_, .ins i hi ?_ fun _ => hb⟩
        cases hg : g m.st with
        | true => rfl
        | false => exact absurd hg (hb _ ht)
    · obtain ⟨i, hi⟩ := List.getElem?_of_mem hu
      have hro := (MSteps.proj he (by
        intro u hu
        obtain ⟨r, -, rfl⟩ := List.mem_map.1 hu
        exact searchP_ro _ _ _ _ _ _ _)).2 u hu
      cases u with
      | ret a => exact absurd trivial hf
      | fail e => exact absurd trivial hf
      | act g v k => exact ⟨_, .srch i hi (hro.1 _).1 fun _ => hb⟩
  · have : ∃ t ∈ m.ins, Blocked m.st t := by
      apply Classical.byContradiction
      intro hn
      exact hb fun t ht hbt => hn ⟨t, ht, hbt⟩
    obtain ⟨t, ht, hbt⟩ := this
    obtain ⟨i0, hi0⟩ := List.getElem?_of_mem ht
    cases t with
    | ret a => cases hbt
    | fail e => cases hbt
    | act g v k =>
      obtain ⟨i, g', u', k', hi, hg, hd⟩ := Exec.progress_fair L h' hl hlv hx hi0 hbt
      exact ⟨_, .ins i hi hg fun h => absurd h hd⟩

/-- two insertions in the middle of which the second waits for the first, and a search that has read the
entry point: reads may be refused, the first insertion still goes on -/
example : (exMixed exQuad 1 [⟨[13], 13, 0⟩, ⟨[12], 12, 0⟩] [⟨[11], 6, 6, none⟩]
    ((false, 0) :: List.replicate 11 (true, 0) ++ List.replicate 10 (true, 1))).map (fun m =>
      m.ins.map fun | .act g _ _ => g m.st | _ => true) = some [true, false] := by decide +kernel

/-- **C85** (completion, same restriction) From every state of a mixed execution the insertions and the
searches can be completed with such steps. -/
theorem C85_fair_completes_partial (L : P.Lawful) {c0 : CSt T} (h : ReachC P cfg c0) (ext kp : Bool)
    {jobs : List (Job T)} {reqs : List (Req T)} (hl : ∀ j ∈ jobs, j.level < cfg.maxLayer)
    (hlv : (∀ j ∈ jobs, ∀ j' ∈ jobs, j.level = j'.level) ∨
      (jobs.length ≤ 2 ∧ ∃ j ∈ jobs, j.level = 0)) {m : Mixed T}
    (he : MExec P (cfg.withFlags ext kp) c0 jobs reqs m) :
    ∃ m', FairSteps m m' ∧ (∀ t ∈ m'.ins, t.Finished) ∧ ∀ u ∈ m'.srch, u.Finished := by
  induction m using mstep_wf.induction with
  | h m ih =>
    by_cases hf : (∃ t ∈ m.ins, ¬ t.Finished) ∨ ∃ u ∈ m.srch, ¬ u.Finished
    · obtain ⟨m1, h1⟩ := C85_fair_progress_partial L h ext kp hl hlv he hf
      obtain ⟨m', h2, h3⟩ := ih m1 h1.mstep (.step he h1.mstep)
      exact ⟨m', .step h1 h2, h3⟩
    · refine ⟨m, .refl _, fun t ht => ?_, fun u hu => ?_⟩
      · exact Classical.byContradiction fun hn => hf (Or.inl ⟨t, ht, hn⟩)
      · exact Classical.byContradiction fun hn => hf (Or.inr ⟨u, hu, hn⟩)

/-! ## Searches on a quiescent index -/

/-- **C83** Any number of searches running in parallel on an index nobody modifies, under any schedule:
each one that has finished has given exactly what `search_filter` gives alone. -/
theorem C83_parallel (L : P.Lawful) (hml : cfg.maxLayer ≤ 256) {c0 : CSt T} (h : ReachC P cfg c0)
    {reqs : List (Req T)} {m : Mixed T} (he : MExec P cfg c0 [] reqs m) {i : Nat} {r : Req T}
    (hr : reqs[i]? = some r) :
    m.st = c0 ∧
    (∀ ns, m.srch[i]? = some (.ret ns) →
      searchFilter P cfg c0.idx r.query r.knbn r.ef r.filt = .ok ns) ∧
    (∀ e, m.srch[i]? = some (.fail e) →
      searchFilter P cfg c0.idx r.query r.knbn r.ef r.filt = .error e) := by
  have hro : ∀ u ∈ reqs.map (Req.prog P cfg (c0.idx.points.length + 0 + 2)), ReadOnly u := by
    intro u hu
    obtain ⟨r, -, rfl⟩ := List.mem_map.1 hu
    exact searchP_ro _ _ _ _ _ _ _
  obtain ⟨h1, -, -, h4⟩ := MSteps.quiet he hro (by simp)
  have h5 := congrArg (fun l => l[i]?) h4
  have hrun : (Req.prog P cfg (c0.idx.points.length + 0 + 2) r).run c0 =
      outcome c0 (searchFilter P cfg c0.idx r.query r.knbn r.ef r.filt) :=
    searchP_run c0 (by rw [(h.goodC L).inv.ok.tab.len]; exact hml) _ _ _ _
  simp only [List.getElem?_map, hr, Option.map_some, List.length_nil, hrun] at h5
  refine ⟨h1, fun ns hn => ?_, fun e hn => ?_⟩
  · rw [hn] at h5
    simp only [Option.map_some, Prog.run, Option.some.injEq] at h5
    cases hs : searchFilter P cfg c0.idx r.query r.knbn r.ef r.filt with
    | ok x => rw [hs] at h5; simp only [outcome] at h5; injection h5 with h5; rw [h5]
    | error x => rw [hs] at h5; cases h5
  · rw [hn] at h5
    simp only [Option.map_some, Prog.run, Option.some.injEq] at h5
    cases hs : searchFilter P cfg c0.idx r.query r.knbn r.ef r.filt with
    | ok x => rw [hs] at h5; cases h5
    | error x => rw [hs] at h5; simp only [outcome] at h5; injection h5 with h5; rw [h5]

/-- two searches, interleaved -/
example : (exMixed exQuad 1 [] [⟨[11], 2, 6, none⟩, ⟨[30], 6, 6, some fun d => d != 14⟩]
    ((List.replicate 8 [(false, 0), (false, 1)]).flatten)).map (fun m => m.srch.map answered) =
    some [some [14, 4], some [24, 4, 3]] := by decide +kernel

/-! ## Searches that overlap insertions are not snapshots -/

/-- **C84** (partial: the insertions have finished before the first action of the search; see
`C84_snapshot_refuted` for what happens when they have not) The answer of the search is the one
`search_filter` gives on the index after the insertions. -/
theorem C84_no_overlap_partial (L : P.Lawful) (hml : cfg.maxLayer ≤ 256) {c0 : CSt T}
    (h : ReachC P cfg c0) (ext kp : Bool) {jobs : List (Job T)} {reqs : List (Req T)}
    (hl : ∀ j ∈ jobs, j.level < cfg.maxLayer) {m m' : Mixed T}
    (he : MExec P (cfg.withFlags ext kp) c0 jobs reqs m) (hf : ∀ t ∈ m.ins, t.Finished)
    {i : Nat} {r : Req T}
    (hi : m.srch[i]? = some (r.prog P (cfg.withFlags ext kp) (c0.idx.points.length + jobs.length + 2)))
    (hs : MSteps m m') {ns : List Neighbour} (hn : m'.srch[i]? = some (.ret ns)) :
    m'.st = m.st ∧ searchFilter P cfg m.st.idx r.query r.knbn r.ef r.filt = .ok ns := by
  have hx := C82_undisturbed he
  have h' : GoodC (cfg.withFlags ext kp) c0 := goodC_flags.2 (h.goodC L)
  have hG : GoodC (cfg.withFlags ext kp) m.st := Exec.goodC L h' hl hx hf
  obtain ⟨-, refs, hlen, -, hperm, -⟩ := Exec.finished L h' hl hx hf
  have hpts : m.st.idx.points.length = c0.idx.points.length + jobs.length := by
    have := hperm.length_eq
    simp only [List.length_append] at this
    omega
  have hro := (MSteps.proj he (by
    intro u hu
    obtain ⟨r, -, rfl⟩ := List.mem_map.1 hu
    exact searchP_ro _ _ _ _ _ _ _)).2
  obtain ⟨h1, -, -, h4⟩ := MSteps.quiet hs hro hf
  have h5 := congrArg (fun l => l[i]?) h4
  have hrun : (Req.prog P (cfg.withFlags ext kp) (m.st.idx.points.length + 2) r).run m.st =
      outcome m.st (searchFilter P cfg m.st.idx r.query r.knbn r.ef r.filt) :=
    searchP_run (cfg := cfg.withFlags ext kp) m.st (by rw [hG.inv.ok.tab.len]; exact hml) _ _ _ _
  rw [hpts] at hrun
  simp only [List.getElem?_map, hi, hn, Option.map_some, hrun, Prog.run, Option.some.injEq] at h5
  refine ⟨h1, ?_⟩
  cases hsf : searchFilter P cfg m.st.idx r.query r.knbn r.ef r.filt with
  | ok x => rw [hsf] at h5; simp only [outcome] at h5; injection h5 with h5; rw [h5]
  | error x => rw [hsf] at h5; cases h5

/-- the insertion first, then the search -/
example : (exMixed exQuad 1 [⟨[13], 13, 0⟩] [⟨[11], 6, 6, none⟩]
    (List.replicate 14 (true, 0) ++ List.replicate 8 (false, 0))).map
      (fun m => (m.srch.map answered, m.ins.map isRet)) = some ([some [13, 14, 4, 3]], [true]) := by
  decide +kernel

/-- **C84** (refuted) Searches are not snapshots: a search during which one point is inserted, without any
panic, can give an answer that the same search run alone gives in none of the states the index goes
through, before, during and after the insertion. (Here it finds 24 through a link the insertion removes
and 13, the new point.) -/
theorem C84_snapshot_refuted : ∃ (c0 : CSt Nat) (j : Job Nat) (r : Req Nat) (m : Mixed Nat)
    (ns : List Neighbour),
    ReachC (listPolicy Nat) (exCfg 1) c0 ∧ j.level < (exCfg 1).maxLayer ∧
    MExec (listPolicy Nat) (exCfg 1) c0 [j] [r] m ∧ m.srch = [.ret ns] ∧ m.ins = [.ret ()] ∧
    ∀ c ts, Exec (listPolicy Nat) (exCfg 1) c0 [j] c ts →
      searchFilter (listPolicy Nat) (exCfg 1) c.idx r.query r.knbn r.ef r.filt ≠ .ok ns := by
  have h := exOverlap_answer
  cases hm : exOverlapEnd with
  | none => rw [hm] at h; cases h
  | some m =>
    rw [hm] at h
    simp only [Option.map_some, Option.some.injEq, Prod.mk.injEq] at h
    obtain ⟨h1, h2⟩ := h
    have h1 : ∃ ns, m.srch = [.ret ns] ∧ ns.map (·.dId.toNat) = [13, 14, 4, 3, 24] := by
      match hsr : m.srch with
      | [] => rw [hsr] at h1; cases h1
      | [.ret ns] =>
        rw [hsr] at h1
        simp only [List.map_cons, List.map_nil, answered, List.cons.injEq, Option.some.injEq,
          and_true] at h1
        exact ⟨ns, rfl, h1⟩
      | [.fail e] => rw [hsr] at h1; simp [answered] at h1
      | [.act g u k] => rw [hsr] at h1; simp [answered] at h1
      | a :: b :: l => rw [hsr] at h1; simp at h1
    obtain ⟨ns, hns, hids⟩ := h1
    have h2 : m.ins = [.ret ()] := by
      match hsr : m.ins with
      | [] => rw [hsr] at h2; cases h2
      | [.ret ns] => rfl
      | [.fail e] => rw [hsr] at h2; simp [isRet] at h2
      | [.act g u k] => rw [hsr] at h2; simp [isRet] at h2
      | a :: b :: l => rw [hsr] at h2; simp at h2
    refine ⟨exQuad, ⟨[13], 13, 0⟩, ⟨[11], 6, 6, none⟩, m, ns, exQuad_reach, by decide,
      exMixed_exec hm, hns, h2, ?_⟩
    intro c ts he hs
    obtain ⟨t, -, hmem⟩ := steps_alone (n := 14) he (by decide +kernel)
    have hall : (advances 14 (exQuad, Job.prog (listPolicy Nat) (exCfg 1)
        (exQuad.idx.points.length + [(⟨[13], 13, 0⟩ : Job Nat)].length + 2) ⟨[13], 13, 0⟩)).all
        (fun x => soloIds x.1 != [13, 14, 4, 3, 24]) = true := by decide +kernel
    have := List.all_eq_true.1 hall _ hmem
    simp only [soloIds] at this
    rw [hs] at this
    simp only [hids] at this
    exact absurd this (by decide)

end Verif
