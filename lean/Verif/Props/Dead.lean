import Verif.Dead
import Verif.StdHeap
import Verif.SelectLemmas
import Verif.Props.Search

set_option autoImplicit false

/-!
# Functions that nothing calls (C106)
-/

namespace Verif
variable {T : Type} {P : Policy T} {cfg : Cfg T} {s : Idx T} {q : List T}

/-- a search of one layer without filter, any distances: the answer is stored points with their distances -/
theorem searchLayer_res (L : P.Lawful) (h : Navig s) {ef l : Nat} {a : Ref T} (ha : Stored s a) {r : P.H}
    (hr : searchLayer P cfg.eval q ef none s a l = .ok r) : ResA P cfg.eval q ef (KP s l a) r := by
  unfold searchLayer at hr
  split at hr
  · cases hr
  · cases hr
    exact resA_empty L.items_empty
  · exact slLoop_resA L (kp_step h l a) _ (invA_init L ⟨ha, .refl⟩) hr

/-- the same with legal distances: no panic; nothing is found in an empty layer only -/
theorem searchLayer_legal (L : P.Lawful) (h : Navig s) (hL : LegalOn cfg.eval s q) (ef : Nat) {l : Nat}
    (hl : l < s.layers.length) {a : Ref T} (ha : Stored s a) :
    ∃ r, searchLayer P cfg.eval q ef none s a l = .ok r ∧
      (s.layer l = [] ∧ P.items r = [] ∨ s.layer l ≠ [] ∧ ResN P cfg.eval q ef (links s l) a r) := by
  unfold searchLayer
  rw [List.getElem?_eq_getElem hl]
  have hlay : s.layer l = s.layers[l] := by simp [Idx.layer, List.getElem?_eq_getElem hl]
  cases hx : s.layers[l] with
  | nil => exact ⟨_, rfl, .inl ⟨by rw [hlay, hx], L.items_empty⟩⟩
  | cons b bs =>
    have hI : InvA P cfg.eval q ef (KP s l a) (slInit P cfg.eval q a) := invA_init L ⟨ha, .refl⟩
    have hN : InvN P cfg.eval q ef [] (slInit P cfg.eval q a) := by
      refine ⟨?_, ?_, ?_⟩ <;> simp [slInit, L.items_push_empty]
    rcases slLoop_resN (ep := a) L (kp_step h l a)
      (fun v w hv hw => h.tab.unique hv.1 hw.1) (fun v hv => hL v hv.1)
      (s.points.length + 2) hI hN (by simp [slInit]) (by simp) (by simp) with hf | ⟨r, hr, hR⟩
    · exact absurd hf (loop_no_fuel L h ha _ _)
    · exact ⟨r, hr, .inr ⟨by rw [hlay, hx]; simp, hR⟩⟩

theorem descendGeneral_stored (L : P.Lawful) (h : Navig s) : ∀ (l : Nat) (a : Ref T), Stored s a →
    ∀ x, descendGeneral P cfg.eval q s l (a, cfg.eval q a.data) = .ok x →
      Stored s x.1 ∧ x.2 = cfg.eval q x.1.data := by
  intro l
  induction l with
  | zero => intro a ha x hx; cases hx; exact ⟨ha, rfl⟩
  | succ l ih =>
    intro a ha x hx
    simp only [descendGeneral] at hx
    cases hr : searchLayer P cfg.eval q 1 none s a (l + 1) with
    | error e => rw [hr] at hx; cases hx
    | ok r =>
      rw [hr] at hx
      simp only at hx
      have hA := searchLayer_res L h ha hr
      cases hf : fromPositive P (P.items r) P.empty with
      | error e => rw [hf] at hx; cases hx
      | ok nh =>
        rw [hf] at hx
        simp only at hx
        cases hp : P.pop nh with
        | none => rw [hp] at hx; exact ih a ha x hx
        | some c =>
          obtain ⟨c, nh'⟩ := c
          rw [hp] at hx
          simp only at hx
          have hleg := fromPositive_legal _ _ _ hf
          obtain ⟨h', h1, h2, -⟩ := fromPositive_ok L (P.items r) P.empty hleg L.built_empty
          rw [hf] at h1
          cases h1
          have hc : c ∈ P.items nh := (L.pop_perm nh c nh' hp).mem_iff.2 List.mem_cons_self
          rw [L.items_empty, List.append_nil] at h2
          obtain ⟨y, hy, rfl⟩ := List.mem_map.1 (h2.mem_iff.1 hc)
          split at hx
          · exact ih _ (hA.inK y hy).1 x hx
          · exact ih a ha x hx

theorem descendGeneral_legal (L : P.Lawful) (h : Navig s) (hL : LegalOn cfg.eval s q) :
    ∀ (l : Nat) (a : Ref T), Stored s a → l < s.layers.length →
    ∃ x, descendGeneral P cfg.eval q s l (a, cfg.eval q a.data) = .ok x ∧
      (cfg.eval q x.1.data).key ≤ (cfg.eval q a.data).key := by
  intro l
  induction l with
  | zero => intro a _ _; exact ⟨_, rfl, Int.le_refl _⟩
  | succ l ih =>
    intro a ha hl
    obtain ⟨r, hr, -⟩ := searchLayer_legal L h hL 1 hl ha
    have hA := searchLayer_res L h ha hr
    have hleg := hA.legal (fun v hv => (hL v hv.1).1)
    obtain ⟨nh, h1, h2, -⟩ := fromPositive_ok L (P.items r) P.empty hleg L.built_empty
    rw [L.items_empty, List.append_nil] at h2
    simp only [descendGeneral, hr, h1]
    cases hp : P.pop nh with
    | none => exact ih a ha (by omega)
    | some c =>
      obtain ⟨c, nh'⟩ := c
      simp only
      have hc : c ∈ P.items nh := (L.pop_perm nh c nh' hp).mem_iff.2 List.mem_cons_self
      obtain ⟨y, hy, rfl⟩ := List.mem_map.1 (h2.mem_iff.1 hc)
      have hst := (hA.inK y hy).1
      by_cases hlt : (cfg.eval q y.flip.pt.data).lt (cfg.eval q a.data) = true
      · rw [if_pos hlt]
        obtain ⟨x, hx, hle⟩ := ih y.flip.pt hst (by omega)
        refine ⟨x, hx, Int.le_trans hle ?_⟩
        have := (F32.lt_iff.1 hlt).2.2
        omega
      · rw [if_neg hlt]
        exact ih a ha (by omega)

/-- unfolding of `searchGeneral` when it returns -/
theorem searchGeneral_res (L : P.Lawful) (h : Navig s) {knbn efArg : Nat} {ns : List Neighbour}
    (hs : searchGeneral P cfg s q knbn efArg = .ok ns) :
    ns = [] ∨ ∃ (pivot : Ref T) (r : P.H), Stored s pivot ∧
      ResA P cfg.eval q (max efArg knbn) (KP s 0 pivot) r ∧
      ns = ((P.intoSorted r).take knbn).map PWO.toNeighbour := by
  unfold searchGeneral at hs
  cases he : s.entry with
  | none => rw [he] at hs; cases hs; exact .inl rfl
  | some ep =>
    rw [he] at hs
    simp only at hs
    cases hd : descendGeneral P cfg.eval q s ep.pid.layer (ep, cfg.eval q ep.data) with
    | error e => rw [hd] at hs; cases hs
    | ok x =>
      rw [hd] at hs
      simp only at hs
      have hst := (descendGeneral_stored L h _ ep (h.entry ep he) x hd).1
      cases hr : searchLayer P cfg.eval q (max efArg knbn) none s x.1 0 with
      | error e => rw [hr] at hs; cases hs
      | ok r =>
        rw [hr] at hs
        simp only at hs
        cases hv : P.intoSortedC r with
        | error e => rw [hv] at hs; cases hs
        | ok v =>
          rw [hv] at hs
          cases hs
          refine .inr ⟨x.1, r, hst, searchLayer_res L h hst hr, ?_⟩
          rw [Policy.intoSortedC_ok hv]
          congr 1
          rw [List.take_eq_take_iff]
          omega

/-- **C106** `search_general`, any distances: at most `knbn` answers, all different, each the record of a stored
point; they are sorted if no distance is a NaN. -/
theorem C106_answers (L : P.Lawful) (hr : Reach P cfg s) (q : List T) (knbn efArg : Nat)
    (ns : List Neighbour) (h : searchGeneral P cfg s q knbn efArg = .ok ns) :
    ns.length ≤ knbn ∧ (ns.map (·.pId)).Nodup ∧
    (∀ n ∈ ns, ∃ p ∈ s.points, n = ⟨p.origin, cfg.eval q p.data, p.pid⟩) ∧
    ((∀ p ∈ s.points, (cfg.eval q p.data).isNaN = false) →
      ns.Pairwise fun a b => a.distance.key ≤ b.distance.key) := by
  rcases searchGeneral_res L (hr.good L).nav h with rfl | ⟨pivot, r, -, hA, rfl⟩
  · simp
  · refine ⟨?_, ?_, ?_, ?_⟩
    · rw [List.length_map, List.length_take]; omega
    · rw [List.map_map]
      have h1 : ((P.intoSorted r).map (fun x => x.pt.pid)).Nodup :=
        ((L.intoSorted_perm r).map (fun x : PWO T => x.pt.pid)).nodup_iff.2 hA.nd
      exact h1.sublist ((List.take_sublist knbn (P.intoSorted r)).map (fun x => x.pt.pid))
    · intro n hn
      obtain ⟨x, hx, rfl⟩ := List.mem_map.1 hn
      have hx' := (L.intoSorted_perm r).mem_iff.1 (List.mem_of_mem_take hx)
      exact ⟨x.pt, (hA.inK x hx').1, toNeighbour_answer (hA.dist x hx')⟩
    · intro hN
      rw [List.pairwise_map]
      exact (L.intoSorted_sorted r (hA.built fun v hv => hN v hv.1)).sublist (List.take_sublist _ _)

/-- the outcome of `search_general` with legal distances -/
theorem searchGeneral_legal (L : P.Lawful) (hr : Reach P cfg s) (hne : s.points ≠ [])
    (hL : LegalOn cfg.eval s q) (knbn efArg : Nat) :
    ∃ (ep pivot : Ref T) (r : P.H), s.entry = some ep ∧ Stored s pivot ∧
      (cfg.eval q pivot.data).key ≤ (cfg.eval q ep.data).key ∧
      ResA P cfg.eval q (max efArg knbn) (KP s 0 pivot) r ∧
      (s.layer 0 = [] ∧ P.items r = [] ∨
        s.layer 0 ≠ [] ∧ ResN P cfg.eval q (max efArg knbn) (links s 0) pivot r) ∧
      searchGeneral P cfg s q knbn efArg = .ok (((P.intoSorted r).take knbn).map PWO.toNeighbour) := by
  have h := (hr.good L).nav
  cases he : s.entry with
  | none => exact absurd he (h.start hne)
  | some ep =>
    have hep := h.entry ep he
    have hlt : ep.pid.layer < s.layers.length := h.tab.layer_lt hep
    obtain ⟨x, hx, hle⟩ := descendGeneral_legal L h hL ep.pid.layer ep hep hlt
    have hst := (descendGeneral_stored L h _ ep hep x hx).1
    obtain ⟨r, hr, hcase⟩ := searchLayer_legal L h hL (max efArg knbn) (l := 0) (by omega) hst
    have hA := searchLayer_res L h hst hr
    refine ⟨ep, x.1, r, rfl, hst, hle, hA, hcase, ?_⟩
    unfold searchGeneral
    rw [he]
    simp only [hx, hr]
    rw [L.intoSortedC_built (hA.built fun v hv => (hL v hv.1).1)]
    simp only
    congr 2
    rw [List.take_eq_take_iff]
    omega

/-- **C106** `search_general` does not panic if the distances from the query to the stored points are legal. -/
theorem C106_no_panic (L : P.Lawful) (hr : Reach P cfg s) (q : List T) (hL : LegalOn cfg.eval s q)
    (knbn efArg : Nat) : ∃ ns, searchGeneral P cfg s q knbn efArg = .ok ns := by
  by_cases hne : s.points = []
  · refine ⟨[], ?_⟩
    unfold searchGeneral
    rw [reach_entry_none L hr hne]
  · obtain ⟨_, _, _, _, _, _, _, _, h⟩ := searchGeneral_legal L hr hne hL knbn efArg
    exact ⟨_, h⟩

/-- **C106** (partial: layer 0 is not empty) With `knbn ≥ 1` something is found, and the first answer is at most
as far as the entry point; if moreover `ef` or `knbn` is at least the number of points, the answers are the
`knbn` nearest of the points that can be reached in layer 0 from some stored point that is at most as far as
the entry point.  Missing: layer 0 is empty (`C106_nonempty_refuted`). -/
theorem C106_found_partial (L : P.Lawful) (hr : Reach P cfg s) (q : List T) (hL : LegalOn cfg.eval s q)
    (h0 : s.layer 0 ≠ []) (knbn efArg : Nat) (hk : 1 ≤ knbn) :
    ∃ (ep pivot : Ref T) (n : Neighbour) (ns : List Neighbour), s.entry = some ep ∧ pivot ∈ s.points ∧
      (cfg.eval q pivot.data).key ≤ (cfg.eval q ep.data).key ∧
      searchGeneral P cfg s q knbn efArg = .ok (n :: ns) ∧
      n.distance.key ≤ (cfg.eval q pivot.data).key ∧
      (s.points.length ≤ max efArg knbn →
        IsKNearest cfg.eval q knbn (Reaches (links s 0) pivot) (n :: ns)) := by
  have hne : s.points ≠ [] := by
    intro hp
    apply h0
    have hq : s.layers.flatten = [] := hp
    rw [List.flatten_eq_nil_iff] at hq
    unfold Idx.layer
    cases hx : s.layers[0]? with
    | none => rfl
    | some l => exact hq l (List.mem_of_getElem? hx)
  obtain ⟨ep, pivot, r, hep, hst, hle, hA, hcase, heq⟩ := searchGeneral_legal L hr hne hL knbn efArg
  rcases hcase with ⟨h1, -⟩ | ⟨-, hN⟩
  · exact absurd h1 h0
  have hex : s.points.length ≤ max efArg knbn →
      IsKNearest cfg.eval q knbn (Reaches (links s 0) pivot)
        (((P.intoSorted r).take knbn).map PWO.toNeighbour) := by
    intro hef
    apply takeSorted_nearest L hA (fun v hv => (hL v hv.1).1)
    intro x
    constructor
    · intro hx
      have hxs : Stored s x := hx.stored (hr.good L).nav hst
      by_cases hfull : P.len r < max efArg knbn
      · exact hN.full hfull x hx
      · apply Classical.byContradiction
        intro hno
        have h1 : (x :: (P.items r).map (·.pt)).length ≤ s.points.length := by
          apply (hr.good L).ok.tab.count
          · intro v hv
            rcases List.mem_cons.1 hv with rfl | hv
            · exact hxs
            · obtain ⟨y, hy, rfl⟩ := List.mem_map.1 hv
              exact (hA.inK y hy).1
          · rw [List.map_cons, List.nodup_cons, List.map_map]
            refine ⟨?_, hA.nd⟩
            intro hm
            obtain ⟨y, hy, hyx⟩ := List.mem_map.1 hm
            exact hno ⟨y, hy, (hr.good L).ok.tab.unique (hA.inK y hy).1 hxs hyx⟩
        rw [List.length_cons, List.length_map] at h1
        unfold Policy.len at hfull
        omega
    · rintro ⟨y, hy, rfl⟩
      exact (hA.inK y hy).2
  obtain ⟨x, hx, hxp⟩ := hN.best
  have hx' := (L.intoSorted_perm r).mem_iff.2 hx
  have hso := L.intoSorted_sorted r (hA.built fun v hv => (hL v hv.1).1)
  obtain ⟨k, rfl⟩ : ∃ k, knbn = k + 1 := ⟨knbn - 1, by omega⟩
  cases hv : P.intoSorted r with
  | nil => rw [hv] at hx'; cases hx'
  | cons y ys =>
    rw [hv] at heq hx' hso hex
    refine ⟨ep, pivot, _, _, hep, hst, hle, heq, ?_, hex⟩
    have h2 : y.dist.key ≤ x.dist.key := by
      rcases List.mem_cons.1 hx' with rfl | h
      · exact Int.le_refl _
      · exact (List.pairwise_cons.1 hso).1 x h
    show y.dist.key ≤ _
    omega

example : Reach (listPolicy Nat) (exCfg 3) ex4 ∧ LegalOn (exCfg 3).eval ex4 [26] ∧ ex4.layer 0 ≠ [] ∧
    ∃ ns, searchGeneral (listPolicy Nat) (exCfg 3) ex4 [26] 3 10 = .ok ns ∧ ns.map (·.dId) = [25, 30, 20] :=
  ⟨ex4_reach, absDist_legalOn _ _, by decide +kernel, _, rfl, by decide +kernel⟩

/-- **C106** is false when layer 0 is empty: `search_general` searches layer 0 whatever it contains, and finds
nothing in an index with two points of level 1, where `search` finds both. -/
theorem C106_nonempty_refuted : ∃ (s : Idx Nat) (q : List Nat) (ns : List Neighbour),
    Reach (listPolicy Nat) (exCfg 3) s ∧ LegalOn (exCfg 3).eval s q ∧ s.points.length = 2 ∧
    searchGeneral (listPolicy Nat) (exCfg 3) s q 2 10 = .ok [] ∧
    search (listPolicy Nat) (exCfg 3) s q 2 10 = .ok ns ∧ ns.map (·.dId) = [10, 20] :=
  ⟨exIdx (exCfg 3) [(10, 1), (20, 1)], [12], _, exIdx_reach _ _ (by decide), absDist_legalOn _ _,
    by decide +kernel, rfl, rfl, by decide +kernel⟩

/-- **C106** (vector from a heap of negative distances) The vector has the points of the heap in the order in which
it is iterated, with the opposite distances, all legal; the call panics exactly if some distance is positive or
a NaN. -/
theorem C106_from_negative (l : List (PWO T)) :
    ((∀ p ∈ l, p.dist.isNaN = false ∧ p.dist.key ≤ 0) →
      fromNegative l = .ok (l.map fun p => ⟨p.pt, p.dist.neg⟩)) ∧
    (¬ (∀ p ∈ l, p.dist.isNaN = false ∧ p.dist.key ≤ 0) → fromNegative l = .error .assertion) := by
  induction l with
  | nil => exact ⟨fun _ => rfl, fun h => absurd (fun p hp => by cases hp) h⟩
  | cons p l ih =>
    have hp : p.dist.le F32.zero = true ↔ p.dist.isNaN = false ∧ p.dist.key ≤ 0 := by
      rw [F32.le_iff]; simp
    simp only [fromNegative, List.forall_mem_cons]
    constructor
    · rintro ⟨h1, h2⟩
      rw [hp.2 h1, ih.1 h2]
      rfl
    · intro hn
      by_cases h1 : p.dist.le F32.zero = true
      · rw [h1, ih.2 (fun h => hn ⟨hp.1 h1, h⟩)]
        rfl
      · rw [if_pos (by simpa using h1)]

example : fromNegative [⟨⟨⟨0, 0⟩, 7, [7]⟩, ⟨true, 3⟩⟩, ⟨⟨⟨0, 1⟩, 8, [8]⟩, ⟨true, 5⟩⟩] =
    .ok [⟨⟨⟨0, 0⟩, 7, [7]⟩, ⟨false, 3⟩⟩, ⟨⟨⟨0, 1⟩, 8, [8]⟩, ⟨false, 5⟩⟩] := rfl

/-- **C106** "The vector is sorted by construction" (/repo/src/hnsw.rs 1595) is false: `iter` gives a heap in the
order of its vector.  Here with the heap of the standard library after pushes of -1, -3 and -2. -/
theorem C106_sorted_refuted : ∃ (h : (stdPolicy Nat).H) (v : List (PWO Nat)), (stdPolicy Nat).Built h ∧
    fromNegative ((stdPolicy Nat).items h) = .ok v ∧ v.map (·.dist.key) = [1, 3, 2] := by
  refine ⟨heapPush (heapPush (heapPush [] ⟨⟨⟨0, 0⟩, 0, [0]⟩, ⟨true, 1⟩⟩) ⟨⟨⟨0, 1⟩, 1, [1]⟩, ⟨true, 3⟩⟩)
    ⟨⟨⟨0, 2⟩, 2, [2]⟩, ⟨true, 2⟩⟩, _, ?_, rfl, by decide +kernel⟩
  have h0 : (stdPolicy Nat).Built ([] : List (PWO Nat)) := .nil rfl
  have h1 := h0.push (x := ⟨⟨⟨0, 0⟩, 0, [0]⟩, ⟨true, 1⟩⟩) rfl
  have h2 := h1.push (x := ⟨⟨⟨0, 1⟩, 1, [1]⟩, ⟨true, 3⟩⟩) rfl
  exact h2.push (x := ⟨⟨⟨0, 2⟩, 2, [2]⟩, ⟨true, 2⟩⟩) rfl

end Verif
