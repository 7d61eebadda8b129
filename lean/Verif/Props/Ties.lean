import Verif.Ties
import Verif.ExecLemmas
import Verif.Props.Small
import Verif.DumpConcLemmas

set_option autoImplicit false

/-!
# C102: without ties nothing depends on the containers
-/

namespace Verif
variable {T : Type} {P P' : Policy T} {cfg : Cfg T}

/-- Around each vector of `V` the other ones are at different distances: equal distances (in whatever
order the two vectors are passed) belong to the same vector, and are the same float. -/
def DistinctDistances (eval : List T → List T → F32) (V : List T → Prop) : Prop :=
  ∀ o a b, V o → V a → V b → ∀ u v, (u = eval o a ∨ u = eval a o) → (v = eval o b ∨ v = eval b o) →
    u.key = v.key → a = b ∧ u = v

/-- different stored points have different vectors -/
theorem stored_data_inj (L : P.Lawful) {jobs : List (Job T)} {c : CSt T} (h : SeqReach P cfg jobs c)
    (hd : (jobs.map (·.data)).Nodup) :
    (∀ a, Stored c.idx a → ∃ j ∈ jobs, j.data = a.data) ∧
    ∀ a b, Stored c.idx a → Stored c.idx b → a.data = b.data → a = b := by
  obtain ⟨refs, h1, h2, h3, -, -⟩ := h.hist.refs L
  have key : ∀ (i : Nat) (r : Ref T), refs[i]? = some r → ∃ j, jobs[i]? = some j ∧ j.data = r.data := by
    intro i r hr
    have hi := (List.getElem?_eq_some_iff.1 hr).1
    have hj : jobs[i]? = some jobs[i] := List.getElem?_eq_getElem (by omega)
    exact ⟨_, hj, (h2 i _ r hj hr).1.symm⟩
  refine ⟨fun a ha => ?_, fun a b ha hb hab => ?_⟩
  · obtain ⟨i, hi⟩ := List.mem_iff_getElem?.1 (h3.mem_iff.1 ha)
    obtain ⟨j, hj, hd⟩ := key i a hi
    exact ⟨j, List.mem_iff_getElem?.2 ⟨i, hj⟩, hd⟩
  · obtain ⟨i, hi⟩ := List.mem_iff_getElem?.1 (h3.mem_iff.1 ha)
    obtain ⟨k, hk⟩ := List.mem_iff_getElem?.1 (h3.mem_iff.1 hb)
    obtain ⟨j, hj, hd1⟩ := key i a hi
    obtain ⟨j', hj', hd2⟩ := key k b hk
    have hik : i = k := by
      have e1 : (jobs.map (·.data))[i]? = some a.data := by rw [List.getElem?_map, hj]; simp [hd1]
      have e2 : (jobs.map (·.data))[k]? = some a.data := by rw [List.getElem?_map, hj']; simp [hd2, hab]
      have hi' := (List.getElem?_eq_some_iff.1 e1).1
      exact (List.getElem?_inj hi' hd).1 (e1.trans e2.symm)
    subst hik
    rw [hi] at hk
    exact Option.some.inj hk

theorem insert_same (L : P.Lawful) (L' : P'.Lawful) {V : List T → Prop} (D : DistinctDistances cfg.eval V)
    (hleg : ∀ a b, V a → V b → (cfg.eval a b).Legal) {jobs : List (Job T)} {c : CSt T}
    (h : SeqReach P cfg jobs c) (j : Job T) (hV : ∀ i ∈ jobs ++ [j], V i.data)
    (hd : ((jobs ++ [j]).map (·.data)).Nodup) (ext kp : Bool) :
    insert P (cfg.withFlags ext kp) c (j.data, j.id) j.level =
      insert P' (cfg.withFlags ext kp) c (j.data, j.id) j.level := by
  have hG := (h.reachC L).goodC L
  have ok := hG.inv.ok
  rw [List.map_append, List.nodup_append] at hd
  obtain ⟨hst, hinj⟩ := stored_data_inj L h hd.1
  have hfresh : ∀ a, Stored c.idx a → a.data ≠ j.data ∧ a.pid ≠ (newRef (j.data, j.id) j.level c.idx).pid := by
    intro a ha
    obtain ⟨i, hi, hia⟩ := hst a ha
    refine ⟨?_, newRef_fresh ok.tab _ _ ha⟩
    rw [← hia]
    exact hd.2.2 _ (List.mem_map.2 ⟨i, hi, rfl⟩) _ (by simp)
  have hVU : ∀ a, Stored c.idx a ∨ a = newRef (j.data, j.id) j.level c.idx → V a.data := by
    rintro a (ha | rfl)
    · obtain ⟨i, hi, hia⟩ := hst a ha
      rw [← hia]
      exact hV i (by simp [hi])
    · exact hV j (by simp)
  refine insert_ties L L' (cfg := cfg.withFlags ext kp)
    (U := fun a => Stored c.idx a ∨ a = newRef (j.data, j.id) j.level c.idx) (j.data, j.id) j.level
    ?_ ?_ ?_ ?_ ?_ (Or.inr rfl)
  · refine ⟨fun a b ha hb => (hleg _ _ (hVU a ha) (hVU b hb)).1, ?_⟩
    intro o a b ho ha hb u v hu hv hk
    obtain ⟨h1, h2⟩ := D o.data a.data b.data (hVU o ho) (hVU a ha) (hVU b hb) u v hu hv hk
    refine ⟨?_, h2⟩
    rcases ha with ha | rfl
    · rcases hb with hb | rfl
      · exact hinj a b ha hb h1
      · exact absurd h1 (hfresh a ha).1
    · rcases hb with hb | rfl
      · exact absurd h1.symm (hfresh b hb).1
      · rfl
  · rintro a b (ha | rfl) (hb | rfl) hab
    · exact points_pid_inj ok ha hb hab
    · exact absurd hab (hfresh a ha).2
    · exact absurd hab.symm (hfresh b hb).2
    · rfl
  · exact fun a b ha hb => hleg _ _ (hVU a ha) (hVU b hb)
  · rintro o (ho | rfl) l e he
    · exact ⟨Or.inl (ok.stored _ _ e he), ok.dist o ho l e he⟩
    · obtain ⟨a, ha, hpid⟩ := ok.owner _ l (List.ne_nil_of_mem he)
      exact absurd hpid (hfresh a ha).2
  · exact fun e he => Or.inl (ok.entry e he)

theorem resort_self (L : P.Lawful) {V : List T → Prop} (D : DistinctDistances cfg.eval V)
    (hleg : ∀ a b, V a → V b → (cfg.eval a b).Legal)
    {Q : Policy T} (LQ : Q.Lawful) {jobs : List (Job T)} {c : CSt T}
    (h : SeqReach P cfg jobs c) (hV : ∀ i ∈ jobs, V i.data) (hd : (jobs.map (·.data)).Nodup) :
    c.idx.resort Q = c.idx := by
  have ok := ((h.reachC L).goodC L).inv.ok
  obtain ⟨hst, hinj⟩ := stored_data_inj L h hd
  have hVU : ∀ a, Stored c.idx a → V a.data := by
    intro a ha
    obtain ⟨i, hi, hia⟩ := hst a ha
    exact hia ▸ hV i hi
  have hN : NoTies cfg.eval (Stored c.idx) := by
    refine ⟨fun a b ha hb => (hleg _ _ (hVU a ha) (hVU b hb)).1, ?_⟩
    intro o a b ho ha hb u v hu hv hk
    obtain ⟨h1, h2⟩ := D o.data a.data b.data (hVU o ho) (hVU a ha) (hVU b hb) u v hu hv hk
    exact ⟨hinj a b ha hb h1, h2⟩
  have key : ∀ p l, Q.sort (c.idx.nb p l) = c.idx.nb p l := by
    intro p l
    cases hn : c.idx.nb p l with
    | nil => exact List.perm_nil.1 (LQ.sort_perm [])
    | cons x xs =>
      obtain ⟨o, ho, rfl⟩ := ok.owner p l (by rw [hn]; simp)
      rw [← hn]
      refine sorted_unique (hN.link ho) (LQ.sort_perm _) (fun e he => ?_) 
        (LQ.sort_sorted _ fun e he => (ok.legal _ _ e he).1) (ok.sorted _ _)
      have he' := (LQ.sort_perm _).mem_iff.1 he
      exact ⟨ok.stored _ _ e he', ok.dist o ho l e he'⟩
  unfold Idx.resort
  simp only [key]

/-- **C102 (searches)** (partial: no distance is NaN) On any index, a query that has no two stored points
at the same distance gets the same answer (value, panic) whatever heap, sort and hash order are used, for
any `knbn`, `ef` and filter. -/
theorem C102_search_partial (L : P.Lawful) (L' : P'.Lawful) {s : Idx T} (h : Reach P cfg s) (q : List T)
    (hn : ∀ a, Stored s a → (cfg.eval q a.data).isNaN = false)
    (hq : ∀ a b, Stored s a → Stored s b → (cfg.eval q a.data).key = (cfg.eval q b.data).key → a = b)
    (knbn ef : Nat) (φ : Option (DataId → Bool)) :
    searchFilter P cfg s q knbn ef φ = searchFilter P' cfg s q knbn ef φ := by
  obtain ⟨c, hc, rfl⟩ := h
  have ok := (hc.goodC L).inv.ok
  exact searchFilter_ties L L' (U := Stored c.idx) ⟨hn, hq⟩ (fun p l e he => ok.stored p l e he)
    (fun e he => ok.entry e he) knbn ef φ

/-- **C102 (histories)** If no vector is inserted twice and the inserted vectors have distinct legal
distances, any state that insertions in sequence (with any levels and flags) and reloads reach with one
choice of heap, sort and hash order is reached, by the same operations, with any other. -/
theorem C102_history (L : P.Lawful) (L' : P'.Lawful) {V : List T → Prop} (D : DistinctDistances cfg.eval V)
    (hleg : ∀ a b, V a → V b → (cfg.eval a b).Legal) {jobs : List (Job T)} {c : CSt T}
    (h : SeqReach P cfg jobs c) (hV : ∀ j ∈ jobs, V j.data) (hd : (jobs.map (·.data)).Nodup) :
    SeqReach P' cfg jobs c := by
  induction h with
  | new => exact .new
  | insert ext kp j h0 hl hi ih =>
    have hd0 := hd
    rw [List.map_append, List.nodup_append] at hd0
    refine .insert ext kp j (ih (fun i hi => hV i (by simp [hi])) hd0.1) hl ?_
    rw [← insert_same L L' D hleg h0 j hV hd]
    exact hi
  | reload h0 ih =>
    have h1 := resort_self L D hleg L h0 hV hd
    have h2 := resort_self L D hleg L' h0 hV hd
    have h3 := SeqReach.reload (ih hV hd)
    rw [h2] at h3
    rw [h1]
    exact h3

/-- **C102 (reloads)** Under the same hypotheses reading a dump back gives exactly the lists dumped, in
the same order. -/
theorem C102_reload (L : P.Lawful) (L' : P'.Lawful) {V : List T → Prop} (D : DistinctDistances cfg.eval V)
    (hleg : ∀ a b, V a → V b → (cfg.eval a b).Legal)
    {jobs : List (Job T)} {c : CSt T} (h : SeqReach P cfg jobs c) (hV : ∀ j ∈ jobs, V j.data)
    (hd : (jobs.map (·.data)).Nodup) : c.idx.resort P' = c.idx :=
  resort_self L D hleg L' h hV hd

theorem insertAll_same (L : P.Lawful) (L' : P'.Lawful) {V : List T → Prop} (D : DistinctDistances cfg.eval V)
    (hleg : ∀ a b, V a → V b → (cfg.eval a b).Legal) : ∀ (jobs : List (Job T)) {jobs0 : List (Job T)}
    {c : CSt T}, SeqReach P cfg jobs0 c → (∀ j ∈ jobs0 ++ jobs, V j.data) →
    ((jobs0 ++ jobs).map (·.data)).Nodup → (∀ j ∈ jobs, j.level < cfg.maxLayer) →
    insertAll P cfg c (jobs.map fun j => ((j.data, j.id), j.level)) =
      insertAll P' cfg c (jobs.map fun j => ((j.data, j.id), j.level)) := by
  intro jobs
  induction jobs with
  | nil => intros; rfl
  | cons j jobs ih =>
    intro jobs0 c h hV hd hl
    have e : jobs0 ++ j :: jobs = (jobs0 ++ [j]) ++ jobs := by simp
    rw [e] at hV hd
    have hd1 := hd
    rw [List.map_append, List.nodup_append] at hd1
    have hi := insert_same L L' D hleg h j (fun i hi => hV i (List.mem_append_left _ hi)) hd1.1
      cfg.extend cfg.keepPruned
    have hcfg : cfg.withFlags cfg.extend cfg.keepPruned = cfg := rfl
    rw [hcfg] at hi
    simp only [List.map_cons, insertAll, ← hi]
    cases hr : insert P cfg c (j.data, j.id) j.level with
    | ok u c' =>
      simp only
      exact ih (.insert cfg.extend cfg.keepPruned j h (hl j (by simp)) hr) hV hd
        (fun i hi => hl i (by simp [hi]))
    | panic => rfl
    | blocked => rfl

/-- **C102 (sequences)** Inserting a list of different vectors with distinct legal distances in an empty
index builds the same index (points, lists and their order, entry point, counters) whatever heap, sort
and hash order are used. -/
theorem C102_sequence (L : P.Lawful) (L' : P'.Lawful) {V : List T → Prop} (D : DistinctDistances cfg.eval V)
    (hleg : ∀ a b, V a → V b → (cfg.eval a b).Legal) (jobs : List (Job T)) (hV : ∀ j ∈ jobs, V j.data)
    (hd : (jobs.map (·.data)).Nodup) (hl : ∀ j ∈ jobs, j.level < cfg.maxLayer) :
    insertAll P cfg (CSt.new cfg.maxLayer) (jobs.map fun j => ((j.data, j.id), j.level)) =
      insertAll P' cfg (CSt.new cfg.maxLayer) (jobs.map fun j => ((j.data, j.id), j.level)) :=
  insertAll_same L L' D hleg jobs .new hV hd hl

/-- Another lawful choice of containers: sorting leaves equal elements in the other order, and the hash
table is read backwards. -/
def listPolicy2 (T : Type) : Policy T where
  H := List (PWO T)
  empty := []
  push h x := x :: h
  pop h := popL h
  items h := h
  intoSorted h := sortAsc h.reverse
  sort l := sortAsc l.reverse
  hashOrder _ _ _ r := r.reverse
  pushPanics _ _ := false
  intoSortedPanics _ := false
  sortPanics _ := false

theorem listPolicy2_lawful {T : Type} : (listPolicy2 T).Lawful where
  items_empty := rfl
  items_push _ _ := List.Perm.refl _
  pop_none h := popL_none h
  pop_perm _ _ _ hp := popL_perm hp
  pop_max _ _ _ _ hp := popL_max hp
  intoSorted_perm h := (sortAsc_perm _).trans (List.reverse_perm h)
  intoSorted_sorted _ _ := sortAsc_sorted _
  sort_perm l := (sortAsc_perm _).trans (List.reverse_perm l)
  sort_sorted _ _ := sortAsc_sorted _
  hash_perm _ _ _ _ := List.reverse_perm _
  push_ok _ _ _ _ := rfl
  intoSorted_ok _ _ := rfl
  sort_ok _ _ := rfl

/-- jobs of the example: `(value, level)` -/
def tieJobs (l : List (Nat × Nat)) : List (Job Nat) := l.map fun x => ⟨[x.1], UInt64.ofNat x.1, x.2⟩

/-- Non vacuous: 0, 1, 3, 7, 12, 20 have distinct differences; with lists of 2 or 4 links, pruned, they
fill three layers, with `extend_candidates`, and the two choices of containers agree. -/
example : DistinctDistances absDist (fun v => v ∈ [[0], [1], [3], [7], [12], [20]]) := by
  have h : ∀ o ∈ [[0], [1], [3], [7], [12], [20]], ∀ a ∈ [[0], [1], [3], [7], [12], [20]],
      ∀ b ∈ [[0], [1], [3], [7], [12], [20]], (absDist o a = absDist a o) ∧
      ((absDist o a).key = (absDist o b).key → a = b) := by decide +kernel
  intro o a b ho ha hb u v hu hv hk
  have h1 := h o ho a ha b hb
  have h2 := h o ho b hb b hb
  rw [← h1.1, or_self] at hu
  rw [← h2.1, or_self] at hv
  subst hu hv
  have := h1.2 hk
  subst this
  exact ⟨rfl, rfl⟩

example : (((tieJobs [(7, 0), (12, 1), (0, 0), (3, 2), (20, 1), (1, 0)]).map (·.data)).Nodup ∧
    ∀ a b, (absDist a b).Legal) ∧
    ∃ c, insertAll (listPolicy Nat) { exCfg 2 with extend := true } (CSt.new 16)
      ((tieJobs [(7, 0), (12, 1), (0, 0), (3, 2), (20, 1), (1, 0)]).map fun j => ((j.data, j.id), j.level)) =
        some c ∧ c.idx.nbPoint = 6 := by
  exact ⟨⟨by decide +kernel, absDist_legal⟩, _, rfl, by decide +kernel⟩

/-- With two points at the same distance of the query, or of an inserted point, the containers decide:
two lawful choices build different indexes from the same insertions, and on one index answer
differently to the same request for the nearest point. -/
theorem C102_ties_refuted :
    (∃ c c', insertAll (listPolicy Nat) (exCfg 2) (CSt.new 16)
        ((tieJobs [(10, 0), (30, 0), (20, 0)]).map fun j => ((j.data, j.id), j.level)) = some c ∧
      insertAll (listPolicy2 Nat) (exCfg 2) (CSt.new 16)
        ((tieJobs [(10, 0), (30, 0), (20, 0)]).map fun j => ((j.data, j.id), j.level)) = some c' ∧
      (c.idx.nb ⟨0, 2⟩ 0).map (·.pt.origin) = [30, 10] ∧
      (c'.idx.nb ⟨0, 2⟩ 0).map (·.pt.origin) = [10, 30]) ∧
    ∃ c, insertAll (listPolicy Nat) (exCfg 2) (CSt.new 16)
        ((tieJobs [(10, 0), (30, 0)]).map fun j => ((j.data, j.id), j.level)) = some c ∧
      ∃ ns ns', searchFilter (listPolicy Nat) (exCfg 2) c.idx [20] 1 2 none = .ok ns ∧
        searchFilter (listPolicy2 Nat) (exCfg 2) c.idx [20] 1 2 none = .ok ns' ∧
        ns.map (·.dId) = [30] ∧ ns'.map (·.dId) = [10] := by
  refine ⟨⟨_, _, rfl, rfl, ?_, ?_⟩, _, rfl, _, _, rfl, rfl, ?_, ?_⟩ <;> decide +kernel

end Verif
