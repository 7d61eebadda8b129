import Verif.ExecLemmas
import Verif.EntryLemmas
import Verif.Access
import Verif.Examples

set_option autoImplicit false

/-!
# Properties of insertion (C16 - C23, C26, C33)

`Hist P cfg jobs c`: `c` is obtained from an empty index by calling `insert` for the successive
`jobs` (vector, id, drawn level), whatever the outcome of each call (return or caught panic), the
flags `extend_candidates` and `keep_pruned` being changed at will between calls.
`SeqReach P cfg jobs c`: the same, all calls having returned.
`Reach P cfg s`: any index obtained by sequential and parallel insertions.
The distance function and the implementation of the containers are arbitrary.
-/

namespace Verif
variable {T : Type} {P : Policy T} {cfg : Cfg T}

/-- **C16** The points of each layer are exactly the inserted items whose drawn level is that layer,
in insertion order: nothing is lost, altered, merged or invented. -/
theorem C16_holds_inserted (L : P.Lawful) {jobs : List (Job T)} {c : CSt T}
    (h : Hist P cfg jobs c) (l : Nat) :
    (c.idx.layer l).map (fun p => (p.data, p.origin)) =
      (jobs.filter (fun j => j.level = l)).map (fun j => (j.data, j.id)) := by
  obtain ⟨refs, h1, h2, -, h4, -⟩ := h.refs L
  rw [h4]
  clear h4 h
  induction refs generalizing jobs with
  | nil =>
    cases jobs with
    | nil => rfl
    | cons j jobs => simp at h1
  | cons r refs ih =>
    cases jobs with
    | nil => simp at h1
    | cons j jobs =>
      have hr : IsRef j r := h2 0 j r rfl rfl
      have := ih (jobs := jobs) (by simpa using h1) (fun i j' r' hj hr' => h2 (i + 1) j' r' hj hr')
      simp only [List.filter_cons, hr.2.2]
      split
      · simp only [List.map_cons, this, hr.1, hr.2.1]
      · exact this

example : ((exHist (exCfg 3) exJobs).idx.layer 0).map (fun p => (p.data, p.origin)) =
    [([10], 10), ([30], 30), ([10], 10)] := by decide +kernel

/-- **C17** The point of rank `r` in layer `l` has id `(l, r)`, no two points share an id, and ids,
client ids and vectors of points never change: the table of each layer only grows at its end. -/
theorem C17_ids (L : P.Lawful) {s : Idx T} (h : Reach P cfg s) :
    (∀ (l r : Nat) (p : Ref T), (s.layer l)[r]? = some p → p.pid = ⟨l, r⟩) ∧
    (s.points.map (·.pid)).Nodup :=
  ⟨(h.good L).ok.tab.ids, pids_points_nodup (h.good L).ok.tab⟩

theorem C17_stable (L : P.Lawful) {c0 : CSt T} (h : ReachC P cfg c0) (ext kp : Bool)
    {jobs : List (Job T)} (hl : ∀ j ∈ jobs, j.level < cfg.maxLayer) {c : CSt T}
    {ts : List (Prog (CSt T) Unit)} (he : Exec P (cfg.withFlags ext kp) c0 jobs c ts) (l : Nat) :
    c0.idx.layer l <+: c.idx.layer l := by
  have hG : GoodC (cfg.withFlags ext kp) c0 := goodC_flags.2 (h.goodC L)
  obtain ⟨ph, hS⟩ := Exec.inv (cfg := cfg.withFlags ext kp) L hG hl he (fun _ => True) (by simp)
    (by simp)
  exact layer_prefix hG.inv.ok.tab hS.env.inv.ok.tab
    (Exec.stored_mono (cfg := cfg.withFlags ext kp) L hG hl he) l

/-- the same for single calls -/
theorem C17_stable_insert (L : P.Lawful) {jobs : List (Job T)} {c0 : CSt T} (h : Hist P cfg jobs c0)
    (ext kp : Bool) (j : Job T) (hl : j.level < cfg.maxLayer) (l : Nat) :
    c0.idx.layer l <+:
      (insert P (cfg.withFlags ext kp) c0 (j.data, j.id) j.level).state.idx.layer l := by
  obtain ⟨r, -, -, -, hlay, -⟩ := insert_spec L ((h.reachC L).goodC L) hl ext kp rfl
  exact ⟨_, (hlay l).symm⟩

example : (exHist (exCfg 3) exJobs).idx.points.map (·.pid) =
    [⟨0, 0⟩, ⟨0, 1⟩, ⟨0, 2⟩, ⟨1, 0⟩, ⟨2, 0⟩] := by decide +kernel

theorem sum_layers (s : Idx T) :
    ((List.range s.layers.length).map (getLayerNbPoint s)).sum = s.points.length := by
  have : (List.range s.layers.length).map (getLayerNbPoint s) = s.layers.map List.length := by
    apply List.ext_getElem
    · simp
    · intro i h1 h2
      simp at h1
      simp [getLayerNbPoint, h1]
  rw [this]
  simp [Idx.points, List.length_flatten]

/-- **C18** `get_nb_point` is the number of insertions and the sum of the sizes of the layers. -/
theorem C18_count (L : P.Lawful) {jobs : List (Job T)} {c : CSt T} (h : Hist P cfg jobs c) :
    getNbPoint c.idx = jobs.length ∧
    getNbPoint c.idx = ((List.range cfg.maxLayer).map (getLayerNbPoint c.idx)).sum := by
  have hG := (h.reachC L).goodC L
  obtain ⟨refs, h1, -, h3, -, -⟩ := h.refs L
  constructor
  · rw [getNbPoint, hG.count, h3.length_eq, h1]
  · rw [getNbPoint, hG.count, ← hG.inv.ok.tab.len, sum_layers]

/-- the second part also after concurrent insertions -/
theorem C18_count_layers (L : P.Lawful) {s : Idx T} (h : Reach P cfg s) :
    getNbPoint s = ((List.range cfg.maxLayer).map (getLayerNbPoint s)).sum := by
  have hG := h.good L
  rw [getNbPoint, hG.count, ← hG.ok.tab.len, sum_layers]

example : getNbPoint (exHist (exCfg 3) exJobs).idx = 5 := by decide +kernel

theorem seqReach_nil (L : P.Lawful) {jobs : List (Job T)} {c : CSt T} (h : SeqReach P cfg jobs c)
    (hj : jobs = []) : c = CSt.new cfg.maxLayer := by
  induction h with
  | new => rfl
  | insert ext kp j => simp at hj
  | reload _ ih =>
    rw [ih hj]
    have h0 : P.sort [] = [] := (L.sort_perm []).eq_nil
    simp [CSt.new, Idx.resort, Idx.new, h0]

theorem seqReach_topEntry (L : P.Lawful) {jobs : List (Job T)} {c : CSt T}
    (h : SeqReach P cfg jobs c) (hne : jobs ≠ []) : TopEntry c.idx := by
  induction h with
  | new => exact absurd rfl hne
  | reload _ ih => exact ih hne
  | @insert jobs c1 ext kp j c h1 hl hi ih =>
    have hG1 : GoodC cfg c1 := (h1.reachC L).goodC L
    obtain ⟨r, hir, hG, -, -, hperm, hrel, hent⟩ := insert_spec L hG1 hl ext kp
      (c := c) (congrArg Outcome.state hi)
    obtain ⟨e, he, hle⟩ := hent hi
    refine ⟨e, he, hG.inv.ok.entry e he, ?_⟩
    intro p hp
    unfold Stored at hp
    rw [hperm.mem_iff] at hp
    rcases List.mem_cons.1 hp with rfl | hp
    · exact hle
    · by_cases hj : jobs = []
      · rw [seqReach_nil L h1 hj] at hp
        simp [CSt.new, Idx.new, Idx.points] at hp
      · obtain ⟨e1, he1, hs1, htop⟩ := ih hj
        obtain ⟨e', he', hle'⟩ := (hrel e1 hs1).entry e1 he1
        have hee : e = e' := by
          have h1 : c.idx.entry = some e := he
          have h2 : c.idx.entry = some e' := he'
          rw [h1] at h2
          exact Option.some.inj h2
        subst hee
        exact Nat.le_trans (htop p hp) hle'

/-- **C19** After any non-empty sequence of completed insertions the entry point is a stored point
and `get_max_level_observed` is the largest level of a stored point. -/
theorem C19_entry_top (L : P.Lawful) {jobs : List (Job T)} {c : CSt T}
    (h : SeqReach P cfg jobs c) (hne : jobs ≠ []) :
    (∃ e, c.idx.entry = some e ∧ e ∈ c.idx.points) ∧
    (∃ j ∈ jobs, j.level = getMaxLevelObserved c.idx) ∧
    ∀ j ∈ jobs, j.level ≤ getMaxLevelObserved c.idx := by
  obtain ⟨e, he, hs, htop⟩ := seqReach_topEntry L h hne
  obtain ⟨refs, h1, h2, h3, -, -⟩ := h.hist.refs L
  have hm : getMaxLevelObserved c.idx = e.pid.layer := by simp [getMaxLevelObserved, he]
  refine ⟨⟨e, he, hs⟩, ?_, ?_⟩
  · have : e ∈ refs := h3.mem_iff.1 hs
    obtain ⟨i, hi⟩ := List.getElem?_of_mem this
    have hlt : i < jobs.length := by rw [← h1]; exact (List.getElem?_eq_some_iff.1 hi).1
    refine ⟨jobs[i], List.getElem_mem hlt, ?_⟩
    rw [hm]
    exact (h2 i _ e (List.getElem?_eq_getElem hlt) hi).2.2.symm
  · intro j hj
    obtain ⟨i, hi⟩ := List.getElem?_of_mem hj
    have hlt : i < refs.length := by rw [h1]; exact (List.getElem?_eq_some_iff.1 hi).1
    have hr := h2 i j _ hi (List.getElem?_eq_getElem hlt)
    rw [hm, ← hr.2.2]
    exact htop _ (h3.mem_iff.2 (List.getElem_mem hlt))

example : getMaxLevelObserved (exHist (exCfg 3) exJobs).idx = 2 := by decide +kernel

theorem insert_newRef (L : P.Lawful) {c0 c : CSt T} (h : ReachC P cfg c0) {ext kp : Bool} {j : Job T}
    (hl : j.level < cfg.maxLayer)
    (hi : insert P (cfg.withFlags ext kp) c0 (j.data, j.id) j.level = .ok () c) :
    c.idx.entry = entryAfter (newRef (j.data, j.id) j.level c0.idx) c0.idx.entry :=
  insert_entry (cfg := cfg.withFlags ext kp) (goodC_flags.2 (h.goodC L)) hl hi

/-- **C72** The entry point is the first inserted of the points of the highest level: a later point
replaces it only if its level is greater. -/
theorem C72_entry_first (L : P.Lawful) {jobs : List (Job T)} {c : CSt T}
    (h : SeqReach P cfg jobs c) (hne : jobs ≠ []) :
    ∃ e pre j post, c.idx.entry = some e ∧ jobs = pre ++ j :: post ∧
      e.data = j.data ∧ e.origin = j.id ∧ e.pid = ⟨j.level, 0⟩ ∧
      (∀ x ∈ pre, x.level < j.level) ∧ ∀ x ∈ post, x.level ≤ j.level := by
  induction h with
  | new => exact absurd rfl hne
  | reload _ ih => exact ih hne
  | @insert jobs c1 ext kp j c h1 hl hi ih =>
    have hent := insert_newRef L (h1.reachC L) hl hi
    by_cases hj : jobs = []
    · subst hj
      have h0 := seqReach_nil L h1 rfl
      refine ⟨newRef (j.data, j.id) j.level c1.idx, [], j, [], ?_, rfl, rfl, rfl, ?_, by simp, by simp⟩
      · rw [hent, h0]; rfl
      · rw [h0]
        simp [newRef, Idx.layer, CSt.new, Idx.new]
        cases hc : (List.replicate cfg.maxLayer ([] : List (Ref T)))[j.level]? with
        | none => rfl
        | some v =>
          rw [List.getElem?_replicate] at hc
          split at hc
          all_goals first | (injection hc with hc; rw [← hc]; rfl) | cases hc
    · obtain ⟨e, pre, j0, post, he, rfl, hd, ho, hpid, hpre, hpost⟩ := ih hj
      obtain ⟨e', he', -, htop⟩ := seqReach_topEntry L h1 hj
      rw [he] at he'
      injection he' with he'
      subst he'
      rw [he] at hent
      simp only [entryAfter] at hent
      have hnl : (newRef (j.data, j.id) j.level c1.idx).pid.layer = j.level := rfl
      rw [hnl, hpid] at hent
      simp only at hent
      by_cases hlt : j0.level < j.level
      · rw [if_pos hlt] at hent
        refine ⟨_, pre ++ j0 :: post, j, [], hent, rfl, rfl, rfl, ?_, ?_, by simp⟩
        · have hemp : c1.idx.layer j.level = [] := by
            apply List.eq_nil_iff_forall_not_mem.2
            intro o ho'
            have hoS : Stored c1.idx o := stored_iff.2 ⟨_, ho'⟩
            have h2 := htop o hoS
            obtain ⟨r, hr⟩ := List.getElem?_of_mem ho'
            have h3 := ((h1.reachC L).goodC L).inv.ok.tab.ids _ _ _ hr
            rw [h3] at h2
            rw [hpid] at h2
            simp only at h2
            omega
          simp only [newRef, hemp]; rfl
        · intro x hx
          rcases List.mem_append.1 hx with hx | hx
          · exact Nat.lt_trans (hpre x hx) hlt
          · rcases List.mem_cons.1 hx with rfl | hx
            · exact hlt
            · exact Nat.lt_of_le_of_lt (hpost x hx) hlt
      · rw [if_neg hlt] at hent
        refine ⟨e, pre, j0, post ++ [j], hent, by simp, hd, ho, hpid, hpre, ?_⟩
        intro x hx
        rcases List.mem_append.1 hx with hx | hx
        · exact hpost x hx
        · rw [List.mem_singleton.1 hx]; omega

/-- two points of the highest level: the first stays -/
example : (exSt (exCfg 3) [(10, 0), (20, 1), (30, 1)]).idx.entry = some ⟨⟨1, 0⟩, 20, [20]⟩ := by
  decide +kernel

theorem neighborhood_get {s : Idx T} {p : Ref T} {l : Nat} {ns : List Neighbour}
    (h : (getNeighborhoodId s p)[l]? = some ns) : ns = (s.nb p.pid l).map neighbourOf := by
  unfold getNeighborhoodId at h
  rw [List.getElem?_map] at h
  by_cases hl : l < nbLayerMax
  · rw [List.getElem?_range hl] at h
    exact (Option.some.inj h).symm
  · rw [List.getElem?_eq_none (by simpa using hl)] at h
    cases h

/-- **C20** Neighbour lists have at most `2 * max_nb_connection` entries in layer 0,
`max_nb_connection` above. -/
theorem C20_degree (L : P.Lawful) {s : Idx T} (h : Reach P cfg s) (p : Ref T) (l : Nat)
    (ns : List Neighbour) (hn : (getNeighborhoodId s p)[l]? = some ns) :
    ns.length ≤ if l = 0 then 2 * cfg.maxNb else cfg.maxNb := by
  rw [neighborhood_get hn, List.length_map]
  exact (h.good L).ok.bound p.pid l

/-- `max_nb_connection = 1` and six points: the bound is reached -/
example : ((getNeighborhoodId (exIdx (exCfg 1) [(10,0),(20,0),(21,0),(22,0),(5,0),(15,0)])
    ⟨⟨0, 0⟩, 10, [10]⟩).map (·.length)).take 2 = [2, 0] := by decide +kernel

/-- **C21** Each neighbour list is in non-decreasing order of distance, mentions a point at most
once, never its owner, and each of its entries denotes a stored point. -/
theorem C21_lists (L : P.Lawful) {s : Idx T} (h : Reach P cfg s) (p : Ref T) (l : Nat)
    (ns : List Neighbour) (hn : (getNeighborhoodId s p)[l]? = some ns) :
    ns.Pairwise (fun a b => a.distance.key ≤ b.distance.key) ∧
    (ns.map (·.pId)).Nodup ∧
    ∀ n ∈ ns, n.pId ≠ p.pid ∧ ∃ q ∈ s.points, q.pid = n.pId ∧ q.origin = n.dId := by
  have hok := (h.good L).ok
  rw [neighborhood_get hn]
  refine ⟨?_, ?_, ?_⟩
  · rw [List.pairwise_map]
    exact hok.sorted p.pid l
  · rw [List.map_map]
    exact hok.nodup p.pid l
  · intro n hn'
    obtain ⟨e, he, rfl⟩ := List.mem_map.1 hn'
    exact ⟨hok.noSelf p.pid l e he, e.pt, hok.stored p.pid l e he, rfl, rfl⟩

example : ((getNeighborhoodId ex4 ⟨⟨0, 2⟩, 25, [25]⟩)[0]?).map (·.map (·.dId)) = some [30, 20, 10] ∨
    ((getNeighborhoodId ex4 ⟨⟨0, 2⟩, 25, [25]⟩)[0]?).map (·.map (·.dId)) = some [20, 30, 10] := by
  decide +kernel

/-- **C22** The distance stored with a link between two points is, bit for bit, the distance
function applied to the vector inserted last then to the one inserted first: `refs` lists the points
in order of insertion. -/
theorem C22_link_distances (L : P.Lawful) {jobs : List (Job T)} {c : CSt T}
    (h : Hist P cfg jobs c) :
    ∃ refs : List (Ref T), refs.length = jobs.length ∧ c.idx.points.Perm refs ∧
      (∀ (i : Nat) j r, jobs[i]? = some j → refs[i]? = some r →
        r.data = j.data ∧ r.origin = j.id ∧ r.pid.layer = j.level) ∧
      ∀ (i k : Nat) a b, i < k → refs[i]? = some a → refs[k]? = some b →
        (∀ l, ∀ e ∈ c.idx.nb a.pid l, e.pt = b → e.dist = cfg.eval b.data a.data) ∧
        (∀ l, ∀ e ∈ c.idx.nb b.pid l, e.pt = a → e.dist = cfg.eval b.data a.data) := by
  obtain ⟨refs, h1, h2, h3, -, h5⟩ := h.refs L
  exact ⟨refs, h1, h3, h2, h5⟩

/-- **C22**, concurrent histories: the order is the order of publication `c.pub` of the points (most
recent first), and the two ends of a link are always published or about to be. -/
theorem C22_link_distances_concurrent (L : P.Lawful) {c : CSt T} (h : ReachC P cfg c) (o : Ref T)
    (ho : o ∈ c.idx.points) (l : Nat) (e : PWO T) (he : e ∈ c.idx.nb o.pid l) :
    e.pt.pid ∈ c.pub ∧
    ((Older c.pub e.pt.pid o.pid ∧ e.dist = cfg.eval o.data e.pt.data) ∨
     (Older c.pub o.pid e.pt.pid ∧ e.dist = cfg.eval e.pt.data o.data)) :=
  ⟨(h.goodC L).inv.pubLink _ _ e he, (h.goodC L).inv.ord o ho l e he⟩

/-- an asymmetric legal distance, to see the order -/
def skewDist (a b : List Nat) : F32 := absDist [2 * a.headD 0] b

/-- 20 is at distance `|2 * 20 - 7| = 33` of 7 in both lists -/
example : ((exIdx { exCfg 3 with eval := skewDist } [(7, 0), (20, 0)]).nb ⟨0, 0⟩ 0).map (·.dist.mag) =
      [33] ∧
    ((exIdx { exCfg 3 with eval := skewDist } [(7, 0), (20, 0)]).nb ⟨0, 1⟩ 0).map (·.dist.mag) =
      [33] := by decide +kernel

/-- **C23 is false**: the point 20, of level 1, has in its layer 1 list the point 10 of level 0. -/
theorem C23_refuted : ¬ ∀ (s : Idx Nat), Reach (listPolicy Nat) (exCfg 3) s →
    ∀ p ∈ s.points, ∀ (l : Nat) ns, (getNeighborhoodId s p)[l]? = some ns →
      ∀ n ∈ ns, l ≤ n.pId.layer := by
  intro h
  have h1 := h ex4 ex4_reach ⟨⟨1, 0⟩, 20, [20]⟩ (by decide +kernel) 1 _ rfl
  revert h1
  decide +kernel

/-- **C26** (insertion) No list ever holds a NaN or negative distance, for any distance function and
also after insertions that panicked. -/
theorem C26_insert_legal (L : P.Lawful) {s : Idx T} (h : Reach P cfg s) (p : Ref T) (l : Nat)
    (ns : List Neighbour) (hn : (getNeighborhoodId s p)[l]? = some ns) :
    ∀ n ∈ ns, n.distance.isNaN = false ∧ 0 ≤ n.distance.key := by
  rw [neighborhood_get hn]
  intro n hn'
  obtain ⟨e, he, rfl⟩ := List.mem_map.1 hn'
  exact (h.good L).ok.legal p.pid l e he

/-- a distance that is NaN on the vector `[666]` and negative on `[667]` -/
def badDist (a b : List Nat) : F32 :=
  if a.headD 0 = 666 ∨ b.headD 0 = 666 then ⟨false, Fin.ofNat _ 0x7fc00000⟩
  else if a.headD 0 = 667 ∨ b.headD 0 = 667 then ⟨true, Fin.ofNat _ 5⟩
  else absDist a b

/-- the insertion panicked, leaving `n` points and an unlinked point of rank `r` in layer 0 -/
def panicsUnlinked (o : Outcome (CSt Nat) Unit) (n r : Nat) : Bool :=
  match o with
  | .panic _ c' => c'.idx.points.length == n && (c'.idx.nb ⟨0, r⟩ 0).isEmpty
  | _ => false

/-- insertion of `[666]` and `[667]` panics, and leaves nothing behind in the lists -/
example :
    let cfg := { exCfg 3 with eval := badDist }
    let c := exSt cfg [(10, 0), (20, 1)]
    panicsUnlinked (insert (listPolicy Nat) cfg c (item 666) 0) 3 1 = true ∧
    panicsUnlinked (insert (listPolicy Nat) cfg c (item 667) 0) 3 1 = true := by
  decide +kernel

/-- **C33** A single insertion always returns or panics: it never waits for a lock it holds, and never
loops for ever (the step budget of the model's search loops is never exhausted). -/
theorem C33_insert_terminates (L : P.Lawful) {c0 : CSt T} (h : ReachC P cfg c0) (ext kp : Bool)
    (j : Job T) (hl : j.level < cfg.maxLayer) :
    (∃ c, insert P (cfg.withFlags ext kp) c0 (j.data, j.id) j.level = .ok () c) ∨
    ∃ e c, e ≠ Panic.fuel ∧ insert P (cfg.withFlags ext kp) c0 (j.data, j.id) j.level = .panic e c := by
  have hG : GoodC (cfg.withFlags ext kp) c0 := goodC_flags.2 (h.goodC L)
  obtain ⟨c, t, he, hf, ho⟩ := insert_exec (cfg := cfg.withFlags ext kp) L hG hl
  rcases ho with ⟨h1, -⟩ | ⟨e, h1, rfl⟩
  · exact Or.inl ⟨c, h1⟩
  · refine Or.inr ⟨e, c, ?_, h1⟩
    rintro rfl
    exact Exec.no_fuel (cfg := cfg.withFlags ext kp) L hG
      (by intro j' hj'; rw [List.mem_singleton.1 hj']; exact hl) he _ (by simp) rfl

/-- **C33**, legal distances: if the distance is legal on the vectors of the index and the new one,
the insertion returns. -/
theorem C33_insert_returns (L : P.Lawful) {c0 : CSt T} (h : ReachC P cfg c0) (ext kp : Bool)
    (j : Job T) (hl : j.level < cfg.maxLayer)
    (hd : ∀ a b, (a = j.data ∨ ∃ p ∈ c0.idx.points, p.data = a) →
      (b = j.data ∨ ∃ p ∈ c0.idx.points, p.data = b) → (cfg.eval a b).Legal) :
    ∃ c, insert P (cfg.withFlags ext kp) c0 (j.data, j.id) j.level = .ok () c := by
  have hG : GoodC (cfg.withFlags ext kp) c0 := goodC_flags.2 (h.goodC L)
  obtain ⟨c, t, he, hf, ho⟩ := insert_exec (cfg := cfg.withFlags ext kp) L hG hl
  rcases ho with ⟨h1, -⟩ | ⟨e, h1, rfl⟩
  · exact ⟨c, h1⟩
  · exact absurd rfl (Exec.no_panic (cfg := cfg.withFlags ext kp) L hG
      (by intro j' hj'; rw [List.mem_singleton.1 hj']; exact hl) he
      (fun a => a = j.data ∨ ∃ p ∈ c0.idx.points, p.data = a)
      (fun v hv => Or.inr ⟨v, hv, rfl⟩)
      (by intro j' hj'; rw [List.mem_singleton.1 hj']; exact Or.inl rfl) hd _ (by simp) e)

example : ∃ c, insert (listPolicy Nat) (exCfg 3) (exHist (exCfg 3) exJobs) ([12], 12) 1 = .ok () c :=
  C33_insert_returns (cfg := exCfg 3) listPolicy_lawful (exHist_ok.reachC listPolicy_lawful) false false
    ⟨[12], 12, 1⟩ (by decide) (fun _ _ _ _ => absDist_legal _ _)

end Verif
