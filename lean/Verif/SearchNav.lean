import Verif.SearchTop
import Verif.SearchMono
import Verif.Spec

set_option autoImplicit false

/-!
# Searches in any index that can be searched

What the theorems on searches (C01 - C10, C13, C26, C67, C68, C91, C92, C96) need of the index is `Navig`: points are where
their ids say, links and the entry point are points of the index. Indexes built by insertions have it, and so have all those
that a reload accepts (C73), also after insertions (C111). `navNN_name` is the proof of the theorem `CNN_name`.
-/

namespace Verif
variable {T : Type} {P : Policy T} {cfg : Cfg T} {s : Idx T}

/-- an empty index has no entry point -/
theorem nav_entry_none (hr : Navig s) (h : s.points = []) : s.entry = none := by
  cases he : s.entry with
  | none => rfl
  | some e =>
    have := hr.entry e he
    unfold Stored at this
    rw [h] at this
    cases this

/-- an empty index gives no answer -/
theorem nav_search_empty (hr : Navig s) (h : s.points = []) (q : List T)
    (knbn efArg : Nat) (filt : Option (DataId → Bool)) :
    searchFilter P cfg s q knbn efArg filt = .ok [] := by
  unfold searchFilter
  rw [nav_entry_none hr h]

theorem nav01_bounded (L : P.Lawful) (hr : Navig s) (q : List T) (knbn efArg : Nat)
    (filt : Option (DataId → Bool)) (ns : List Neighbour)
    (h : searchFilter P cfg s q knbn efArg filt = .ok ns) : ns.length ≤ knbn := by
  by_cases hne : s.points = []
  · rw [nav_search_empty hr hne] at h; cases h; simp
  · obtain ⟨pivot, l, r, -, -, hA, rfl⟩ := searchFilter_res L hr hne h
    rw [List.length_map, List.length_take]; omega

theorem nav01_sorted_bounded_partial (L : P.Lawful) (hr : Navig s) (q : List T)
    (hN : ∀ p ∈ s.points, (cfg.eval q p.data).isNaN = false) (knbn efArg : Nat)
    (filt : Option (DataId → Bool)) (ns : List Neighbour)
    (h : searchFilter P cfg s q knbn efArg filt = .ok ns) :
    SortedAnswers ns ∧ ns.length ≤ knbn := by
  refine ⟨?_, nav01_bounded L hr q knbn efArg filt ns h⟩
  by_cases hne : s.points = []
  · rw [nav_search_empty hr hne] at h; cases h; simp [SortedAnswers]
  · obtain ⟨pivot, l, r, -, -, hA, rfl⟩ := searchFilter_res L hr hne h
    unfold SortedAnswers
    rw [List.pairwise_map]
    exact (L.intoSorted_sorted r (hA.built fun v hv => hN v hv.1)).sublist (List.take_sublist _ _)

theorem nav02_true_answers (L : P.Lawful) (hr : Navig s) (q : List T) (knbn efArg : Nat)
    (filt : Option (DataId → Bool)) (ns : List Neighbour)
    (h : searchFilter P cfg s q knbn efArg filt = .ok ns) :
    ∀ n ∈ ns, ∃ p, p ∈ s.points ∧ n = ⟨p.origin, cfg.eval q p.data, p.pid⟩ := by
  by_cases hne : s.points = []
  · rw [nav_search_empty hr hne] at h; cases h; simp
  · obtain ⟨pivot, l, r, -, -, hA, rfl⟩ := searchFilter_res L hr hne h
    intro n hn
    obtain ⟨x, hx, rfl⟩ := List.mem_map.1 hn
    have hx' := (L.intoSorted_perm r).mem_iff.1 (List.mem_of_mem_take hx)
    exact ⟨x.pt, (hA.inK x hx').1, toNeighbour_answer (hA.dist x hx')⟩

theorem nav03_distinct (L : P.Lawful) (hr : Navig s) (q : List T) (knbn efArg : Nat)
    (filt : Option (DataId → Bool)) (ns : List Neighbour)
    (h : searchFilter P cfg s q knbn efArg filt = .ok ns) :
    (ns.map (·.pId)).Nodup := by
  by_cases hne : s.points = []
  · rw [nav_search_empty hr hne] at h; cases h; simp
  · obtain ⟨pivot, l, r, -, -, hA, rfl⟩ := searchFilter_res L hr hne h
    rw [List.map_map]
    have h1 : ((P.intoSorted r).map (fun x => x.pt.pid)).Nodup :=
      ((L.intoSorted_perm r).map (fun x : PWO T => x.pt.pid)).nodup_iff.2 hA.nd
    have h2 := h1.sublist ((List.take_sublist knbn (P.intoSorted r)).map (fun x => x.pt.pid))
    exact h2

theorem nav04_empty_nonempty (L : P.Lawful) (hr : Navig s) (q : List T) (knbn efArg : Nat) :
    (s.points = [] → ∀ filt, searchFilter P cfg s q knbn efArg filt = .ok []) ∧
    (s.points ≠ [] → 1 ≤ knbn → LegalOn cfg.eval s q →
      ∃ n ns, search P cfg s q knbn efArg = .ok (n :: ns)) := by
  refine ⟨fun h filt => nav_search_empty hr h q knbn efArg filt, fun h hk hL => ?_⟩
  obtain ⟨ep, ps, pivot, l, r, -, -, -, -, hA, hN, heq⟩ :=
    searchNone_res L hr h hL knbn efArg
  unfold search
  rw [heq]
  have h1 : (P.intoSorted r).length ≠ 0 := by
    rw [(L.intoSorted_perm r).length_eq]
    intro h0
    exact hN.ne (List.length_eq_zero_iff.1 h0)
  cases hv : P.intoSorted r with
  | nil => rw [hv] at h1; exact absurd rfl h1
  | cons x xs =>
    obtain ⟨k, rfl⟩ : ∃ k, knbn = k + 1 := ⟨knbn - 1, by omega⟩
    exact ⟨_, _, rfl⟩

theorem nav04_returned (L : P.Lawful) (hr : Navig s) (q : List T) (knbn efArg : Nat)
    (hne : s.points ≠ []) (hk : 1 ≤ knbn) (ns : List Neighbour)
    (h : search P cfg s q knbn efArg = .ok ns) : ns ≠ [] := by
  obtain ⟨ep, pivot, l, -, -, hst, -, -, heq⟩ :=
    searchFilter_eq (P := P) (q := q) hr hne knbn efArg none
  unfold search at h
  rw [heq] at h
  cases hl : slLoop P cfg.eval q (max efArg knbn) none (links s l) (s.points.length + 2)
            (slInit P cfg.eval q pivot) with
  | error e => rw [hl] at h; cases h
  | ok r =>
    rw [hl] at h
    simp only at h
    cases hv : P.intoSortedC r with
    | error e => rw [hv] at h; cases h
    | ok v =>
      rw [hv] at h
      cases h
      have h1 : P.items r ≠ [] := slLoop_ne L (by omega) _ (by simp [slInit, L.items_push_empty]) hl
      have h2 : v ≠ [] := by
        rw [Policy.intoSortedC_ok hv]
        intro h0
        have := (L.intoSorted_perm r).length_eq
        rw [h0] at this
        exact h1 (List.length_eq_zero_iff.1 this.symm)
      intro h3
      rw [List.map_eq_nil_iff, List.take_eq_nil_iff] at h3
      rcases h3 with h3 | h3
      · omega
      · exact h2 h3

theorem nav05_no_panic (L : P.Lawful) (hr : Navig s) (q : List T) (hL : LegalOn cfg.eval s q)
    (knbn efArg : Nat) : ∃ ns, search P cfg s q knbn efArg = .ok ns := by
  by_cases hne : s.points = []
  · exact ⟨[], nav_search_empty hr hne q knbn efArg none⟩
  · obtain ⟨ep, ps, pivot, l, r, -, -, -, -, -, -, heq⟩ :=
      searchNone_res L hr hne hL knbn efArg
    exact ⟨_, heq⟩

theorem nav05_no_panic_filter (L : P.Lawful) (hr : Navig s) (q : List T)
    (hL : LegalOn cfg.eval s q) (knbn efArg : Nat) (hk : 1 ≤ max efArg knbn) (φ : DataId → Bool) :
    ∃ ns, searchFilter P cfg s q knbn efArg (some φ) = .ok ns := by
  by_cases hne : s.points = []
  · exact ⟨[], nav_search_empty hr hne q knbn efArg _⟩
  · obtain ⟨ep, ps, pivot, l, r, -, -, -, -, -, -, heq⟩ :=
      searchSome_res L hr hne hL knbn efArg hk φ
    exact ⟨_, heq⟩

theorem nav05_only_negative (L : P.Lawful) (hr : Navig s) (q : List T)
    (hN : ∀ p ∈ s.points, (cfg.eval q p.data).isNaN = false) (knbn efArg : Nat) :
    (∃ ns, search P cfg s q knbn efArg = .ok ns) ∨
    (search P cfg s q knbn efArg = .error .assertion ∧ ∃ p ∈ s.points, ¬ (cfg.eval q p.data).Legal) := by
  by_cases hne : s.points = []
  · exact .inl ⟨[], nav_search_empty hr hne q knbn efArg none⟩
  · rcases searchNone_num L hr hne hN knbn efArg with h | ⟨ep, ps, pivot, l, r, -, -, -, -, -, -, heq⟩
    · exact .inr h
    · exact .inl ⟨_, heq⟩

theorem nav05_terminates (L : P.Lawful) (hr : Navig s) (q : List T) (knbn efArg : Nat)
    (filt : Option (DataId → Bool)) : searchFilter P cfg s q knbn efArg filt ≠ .error .fuel := by
  by_cases hne : s.points = []
  · rw [nav_search_empty hr hne]; simp
  · obtain ⟨ep, pivot, l, -, -, hst, -, -, heq⟩ :=
      searchFilter_eq (P := P) (q := q) hr hne knbn efArg filt
    rw [heq]
    have := loop_no_fuel (cfg := cfg) (q := q) (l := l) L hr hst (max efArg knbn) filt
    split
    · rename_i e he
      rw [he] at this
      simpa using this
    · split
      · rename_i h' e he
        unfold Policy.intoSortedC at he
        split at he <;> cases he
        simp
      · simp

theorem nav06_local_optimum_partial (L : P.Lawful) (hr : Navig s) (q : List T)
    (hNN : ∀ p ∈ s.points, (cfg.eval q p.data).isNaN = false) (knbn efArg : Nat) (ns : List Neighbour)
    (h : search P cfg s q knbn efArg = .ok ns) (l : Nat) (hl : IsLowest s l) :
    ∀ n ∈ ns, ∀ e ∈ s.nb n.pId l,
      answer cfg.eval q e.pt ∈ ns ∨ ∀ m ∈ ns, m.distance.key ≤ (cfg.eval q e.pt.data).key := by
  have hne : s.points ≠ [] := by
    intro h0
    apply hl.1
    unfold Idx.points at h0
    unfold Idx.layer
    cases h1 : s.layers[l]? with
    | none => rfl
    | some x => exact List.flatten_eq_nil_iff.1 h0 x (List.mem_of_getElem? h1)
  unfold search at h
  rcases searchNone_num L hr hne hNN knbn efArg with
    ⟨herr, -⟩ | ⟨ep, ps, pivot, l', r, -, -, hl', -, hA, hN, heq⟩
  · rw [herr] at h; cases h
  have hll : l' = l := by
    rcases Nat.lt_trichotomy l' l with h1 | h1 | h1
    · exact absurd (hl.2 l' h1) hl'.1
    · exact h1
    · exact absurd (hl'.2 l h1) hl.1
  subst hll
  rw [heq] at h
  cases h
  obtain ⟨v, hv, -, -, -, -, hfar⟩ := takeSorted_nearest (knbn := knbn) L hA
    (fun v hv => hNN v hv.1) (fun x => Iff.rfl)
  intro n hn e he
  obtain ⟨x, hx, rfl⟩ := List.mem_map.1 hn
  have hx' := (L.intoSorted_perm r).mem_iff.1 (List.mem_of_mem_take hx)
  rcases hN.localOpt x hx' e he with ⟨y, hy, hye⟩ | hfar'
  · by_cases hev : e.pt ∈ v
    · left; rw [hv]; exact List.mem_map_of_mem hev
    · right
      intro m hm
      rw [hv] at hm
      obtain ⟨z, hz, rfl⟩ := List.mem_map.1 hm
      exact hfar e.pt ⟨y, hy, hye⟩ hev z hz
  · right
    intro m hm
    obtain ⟨z, hz, rfl⟩ := List.mem_map.1 hm
    exact hfar' z ((L.intoSorted_perm r).mem_iff.1 (List.mem_of_mem_take hz))

theorem nav07_exact_partial (L : P.Lawful) (hr : Navig s) (hne : s.points ≠ []) (q : List T)
    (hNN : ∀ p ∈ s.points, (cfg.eval q p.data).isNaN = false) (knbn efArg : Nat)
    (hef : s.points.length ≤ max efArg knbn) (ns : List Neighbour)
    (h : search P cfg s q knbn efArg = .ok ns) :
    ∃ (ep pivot : Ref T) (ps : List (Ref T)) (l : Nat),
      s.entry = some ep ∧ Descent cfg.eval q s ep.pid.layer ep (ps ++ [pivot]) ∧ IsLowest s l ∧
      IsKNearest cfg.eval q knbn (Reaches (links s l) pivot) ns := by
  unfold search at h
  rcases searchNone_num L hr hne hNN knbn efArg with
    ⟨herr, -⟩ | ⟨ep, ps, pivot, l, r, hep, hst, hl, hd, hA, hN, heq⟩
  · rw [herr] at h; cases h
  rw [heq] at h
  cases h
  refine ⟨ep, pivot, ps, l, hep, hd, hl, ?_⟩
  apply takeSorted_nearest L hA (fun v hv => hNN v hv.1)
  intro x
  constructor
  · intro hx
    have hxs : Stored s x := hx.stored hr hst
    by_cases hfull : P.len r < max efArg knbn
    · exact hN.full hfull x hx
    · apply Classical.byContradiction
      intro hno
      have h1 : (x :: (P.items r).map (·.pt)).length ≤ s.points.length := by
        apply hr.tab.count
        · intro v hv
          rcases List.mem_cons.1 hv with rfl | hv
          · exact hxs
          · obtain ⟨y, hy, rfl⟩ := List.mem_map.1 hv
            exact (hA.inK y hy).1
        · rw [List.map_cons, List.nodup_cons, List.map_map]
          refine ⟨?_, hA.nd⟩
          intro hm
          obtain ⟨y, hy, hyx⟩ := List.mem_map.1 hm
          exact hno ⟨y, hy, hr.tab.unique (hA.inK y hy).1 hxs hyx⟩
      rw [List.length_cons, List.length_map] at h1
      unfold Policy.len at hfull
      omega
  · rintro ⟨y, hy, rfl⟩
    exact (hA.inK y hy).2

theorem nav07_exact (L : P.Lawful) (hr : Navig s) (hne : s.points ≠ []) (q : List T)
    (hL : LegalOn cfg.eval s q) (knbn efArg : Nat) (hef : s.points.length ≤ max efArg knbn) :
    ∃ (ep pivot : Ref T) (ps : List (Ref T)) (l : Nat) (ns : List Neighbour),
      s.entry = some ep ∧ Descent cfg.eval q s ep.pid.layer ep (ps ++ [pivot]) ∧ IsLowest s l ∧
      search P cfg s q knbn efArg = .ok ns ∧
      IsKNearest cfg.eval q knbn (Reaches (links s l) pivot) ns := by
  obtain ⟨ns, h⟩ := nav05_no_panic L hr q hL knbn efArg
  obtain ⟨ep, pivot, ps, l, h1, h2, h3, h4⟩ :=
    nav07_exact_partial L hr hne q (fun p hp => (hL p hp).1) knbn efArg hef ns h
  exact ⟨ep, pivot, ps, l, ns, h1, h2, h3, h, h4⟩

theorem nav08_not_worse_partial (L : P.Lawful) (hr : Navig s) (hne : s.points ≠ [])
    (q : List T) (hNN : ∀ p ∈ s.points, (cfg.eval q p.data).isNaN = false) (knbn efArg : Nat)
    (hk : 1 ≤ knbn) (ns : List Neighbour) (h : search P cfg s q knbn efArg = .ok ns) :
    ∃ (ep : Ref T) (ps : List (Ref T)) (n : Neighbour) (ns' : List Neighbour),
      s.entry = some ep ∧ Descent cfg.eval q s ep.pid.layer ep ps ∧ ep ∈ ps ∧
      ns = n :: ns' ∧
      ∀ p ∈ ps, n.distance.key ≤ (cfg.eval q p.data).key := by
  unfold search at h
  rcases searchNone_num L hr hne hNN knbn efArg with
    ⟨herr, -⟩ | ⟨ep, ps, pivot, l, r, hep, hst, hl, hd, hA, hN, heq⟩
  · rw [herr] at h; cases h
  rw [heq] at h
  cases h
  obtain ⟨x, hx, hxp⟩ := hN.best
  have hx' := (L.intoSorted_perm r).mem_iff.2 hx
  have hso := L.intoSorted_sorted r (hA.built fun v hv => hNN v hv.1)
  obtain ⟨k, rfl⟩ : ∃ k, knbn = k + 1 := ⟨knbn - 1, by omega⟩
  cases hv : P.intoSorted r with
  | nil => rw [hv] at hx'; cases hx'
  | cons y ys =>
    rw [hv] at hx' hso
    refine ⟨ep, ps ++ [pivot], _, _, hep, hd, ?_, rfl, ?_⟩
    · exact hd.mem
    · intro p hp
      have h1 := hd.last_le p hp
      have h2 : y.dist.key ≤ x.dist.key := by
        rcases List.mem_cons.1 hx' with rfl | h
        · exact Int.le_refl _
        · exact (List.pairwise_cons.1 hso).1 x h
      show y.dist.key ≤ _
      omega

theorem nav08_not_worse_than_pivots (L : P.Lawful) (hr : Navig s) (hne : s.points ≠ [])
    (q : List T) (hL : LegalOn cfg.eval s q) (knbn efArg : Nat) (hk : 1 ≤ knbn) :
    ∃ (ep : Ref T) (ps : List (Ref T)) (n : Neighbour) (ns : List Neighbour),
      s.entry = some ep ∧ Descent cfg.eval q s ep.pid.layer ep ps ∧ ep ∈ ps ∧
      search P cfg s q knbn efArg = .ok (n :: ns) ∧
      ∀ p ∈ ps, n.distance.key ≤ (cfg.eval q p.data).key := by
  obtain ⟨ns, h⟩ := nav05_no_panic L hr q hL knbn efArg
  obtain ⟨ep, ps, n, ns', h1, h2, h3, rfl, h4⟩ :=
    nav08_not_worse_partial L hr hne q (fun p hp => (hL p hp).1) knbn efArg hk ns h
  exact ⟨ep, ps, n, ns', h1, h2, h3, h, h4⟩

theorem nav09_filter_partial (L : P.Lawful) (hr : Navig s) (q : List T)
    (hNN : ∀ p ∈ s.points, (cfg.eval q p.data).isNaN = false) (knbn efArg : Nat) (hk : 1 ≤ max efArg knbn) (φ : DataId → Bool)
    (ns : List Neighbour) (h : searchFilter P cfg s q knbn efArg (some φ) = .ok ns) :
    (∀ n ∈ ns, φ n.dId = true) ∨
    ∃ (ep pivot : Ref T) (ps : List (Ref T)) (l : Nat),
      s.entry = some ep ∧ Descent cfg.eval q s ep.pid.layer ep (ps ++ [pivot]) ∧ IsLowest s l ∧
      ns = [answer cfg.eval q pivot] ∧ φ pivot.origin = false ∧
      (2 ≤ max efArg knbn → ∀ p, Reaches (links s l) pivot p → φ p.origin = false) := by
  by_cases hne : s.points = []
  · rw [nav_search_empty hr hne] at h; cases h; simp
  · rcases searchSome_num L hr hne hNN knbn efArg hk φ with
      ⟨herr, -⟩ | ⟨ep, ps, pivot, l, r, hep, hst, hl, hd, hA, hF, heq⟩
    · rw [herr] at h; cases h
    rw [heq] at h
    cases h
    rcases hF.acc with hacc | ⟨x, hx, hxp, hφ, hall⟩
    · left
      intro n hn
      obtain ⟨x, hx, rfl⟩ := List.mem_map.1 hn
      exact hacc x ((L.intoSorted_perm r).mem_iff.1 (List.mem_of_mem_take hx))
    · have h1 : P.intoSorted r = [x] := by
        have := L.intoSorted_perm r
        rw [hx] at this
        exact List.perm_singleton.1 this
      cases knbn with
      | zero => left; simp
      | succ k =>
        right
        refine ⟨ep, pivot, ps, l, hep, hd, hl, ?_, hφ, hall⟩
        rw [h1]
        have h2 := hA.dist x (by rw [hx]; simp)
        simp [toNeighbour_answer h2, hxp]

theorem nav10_exact_partial (L : P.Lawful) (hr : Navig s) (hne : s.points ≠ []) (q : List T)
    (hNN : ∀ p ∈ s.points, (cfg.eval q p.data).isNaN = false) (knbn efArg : Nat)
    (hef : s.points.length ≤ max efArg knbn) (hef2 : 2 ≤ max efArg knbn) (φ : DataId → Bool)
    (ns : List Neighbour) (h : searchFilter P cfg s q knbn efArg (some φ) = .ok ns) :
    ∃ (ep pivot : Ref T) (ps : List (Ref T)) (l : Nat),
      s.entry = some ep ∧ Descent cfg.eval q s ep.pid.layer ep (ps ++ [pivot]) ∧ IsLowest s l ∧
      ((∃ p, Reaches (links s l) pivot p ∧ φ p.origin = true) →
        IsKNearest cfg.eval q knbn (fun p => Reaches (links s l) pivot p ∧ φ p.origin = true) ns) := by
  rcases searchSome_num L hr hne hNN knbn efArg (by omega) φ with
    ⟨herr, -⟩ | ⟨ep, ps, pivot, l, r, hep, hst, hl, hd, hA, hF, heq⟩
  · rw [herr] at h; cases h
  rw [heq] at h
  cases h
  refine ⟨ep, pivot, ps, l, hep, hd, hl, ?_⟩
  rintro ⟨p, hp, hpφ⟩
  apply takeSorted_nearest L hA (fun v hv => hNN v hv.1)
  intro x
  constructor
  · rintro ⟨hx, hxφ⟩
    exact hF.big hef x hx hxφ
  · rintro ⟨y, hy, rfl⟩
    refine ⟨(hA.inK y hy).2, ?_⟩
    rcases hF.acc with hacc | ⟨z, -, -, -, hall⟩
    · exact hacc y hy
    · exact absurd hpφ (by simp [hall hef2 p hp])

theorem nav10_filter_exact (L : P.Lawful) (hr : Navig s) (hne : s.points ≠ []) (q : List T)
    (hL : LegalOn cfg.eval s q) (knbn efArg : Nat) (hef : s.points.length ≤ max efArg knbn)
    (hef2 : 2 ≤ max efArg knbn) (φ : DataId → Bool) :
    ∃ (ep pivot : Ref T) (ps : List (Ref T)) (l : Nat) (ns : List Neighbour),
      s.entry = some ep ∧ Descent cfg.eval q s ep.pid.layer ep (ps ++ [pivot]) ∧ IsLowest s l ∧
      searchFilter P cfg s q knbn efArg (some φ) = .ok ns ∧
      ((∃ p, Reaches (links s l) pivot p ∧ φ p.origin = true) →
        IsKNearest cfg.eval q knbn (fun p => Reaches (links s l) pivot p ∧ φ p.origin = true) ns) := by
  obtain ⟨ns, h⟩ := nav05_no_panic_filter L hr q hL knbn efArg (by omega) φ
  obtain ⟨ep, pivot, ps, l, h1, h2, h3, h4⟩ :=
    nav10_exact_partial L hr hne q (fun p hp => (hL p hp).1) knbn efArg hef hef2 φ ns h
  exact ⟨ep, pivot, ps, l, ns, h1, h2, h3, h, h4⟩

theorem nav13_knbn_zero_partial (L : P.Lawful) (hr : Navig s) (q : List T)
    (hL : LegalOn cfg.eval s q) (efArg : Nat) (filt : Option (DataId → Bool))
    (hf : filt = none ∨ 1 ≤ efArg) : searchFilter P cfg s q 0 efArg filt = .ok [] := by
  have h1 : ∃ ns, searchFilter P cfg s q 0 efArg filt = .ok ns := by
    cases filt with
    | none => exact nav05_no_panic L hr q hL 0 efArg
    | some φ =>
      rcases hf with hf | hf
      · cases hf
      · exact nav05_no_panic_filter L hr q hL 0 efArg (by omega) φ
  obtain ⟨ns, hns⟩ := h1
  have := nav01_bounded L hr q 0 efArg filt ns hns
  rw [hns, List.length_eq_zero_iff.1 (by omega : ns.length = 0)]

theorem nav26_search_partial (L : P.Lawful) (hr : Navig s) (q : List T)
    (hN : ∀ p ∈ s.points, (cfg.eval q p.data).isNaN = false) (knbn efArg : Nat)
    (filt : Option (DataId → Bool)) (ns : List Neighbour)
    (h : searchFilter P cfg s q knbn efArg filt = .ok ns) : ∀ n ∈ ns, n.distance.Legal := by
  by_cases hne : s.points = []
  · rw [nav_search_empty hr hne] at h; cases h; simp
  · obtain ⟨pivot, l, r, -, -, hA, rfl⟩ := searchFilter_res L hr hne h
    intro n hn
    obtain ⟨x, hx, rfl⟩ := List.mem_map.1 hn
    exact hA.legal (fun v hv => hN v hv.1) x ((L.intoSorted_perm r).mem_iff.1 (List.mem_of_mem_take hx))

/-- the number of answers, from the content of the result heap -/
theorem takeSorted_count (L : P.Lawful) {q : List T} {ef : Nat} {K S : Ref T → Prop} {r : P.H}
    {knbn : Nat} (hk : knbn ≤ ef) (hA : ResA P cfg.eval q ef K r) (hS : ∀ y ∈ P.items r, S y.pt)
    (hfull : P.len r < ef → ∀ x, S x → ∃ y ∈ P.items r, y.pt = x) (R : List (Ref T))
    (hR : R.Nodup) (hRS : ∀ p, p ∈ R ↔ S p) :
    (((P.intoSorted r).take knbn).map PWO.toNeighbour).length = min knbn R.length := by
  have hnd : ((P.items r).map (·.pt)).Nodup := by
    have h1 : (((P.items r).map (·.pt)).map (·.pid)).Nodup := by
      rw [List.map_map]; exact hA.nd
    exact List.Pairwise.of_map _ (fun a b hab heq => hab (by rw [heq])) h1
  have h1 : P.len r ≤ R.length := by
    have := length_le_of_nodup_subset hnd (l₂ := R) (fun x hx => by
      obtain ⟨y, hy, rfl⟩ := List.mem_map.1 hx
      exact (hRS _).2 (hS y hy))
    simpa [Policy.len] using this
  have h2 : (P.intoSorted r).length = P.len r := (L.intoSorted_perm r).length_eq
  rw [List.length_map, List.length_take, h2]
  by_cases hlt : P.len r < ef
  · have h3 : R.length ≤ P.len r := by
      have := length_le_of_nodup_subset hR (l₂ := (P.items r).map (·.pt)) (fun x hx => by
        obtain ⟨y, hy, hyx⟩ := hfull hlt x ((hRS x).1 hx)
        exact List.mem_map.2 ⟨y, hy, hyx⟩)
      simpa [Policy.len] using this
    omega
  · omega

theorem nav67_count (L : P.Lawful) (hr : Navig s) (hne : s.points ≠ []) (q : List T)
    (hL : LegalOn cfg.eval s q) (knbn efArg : Nat) :
    ∃ (ep pivot : Ref T) (ps : List (Ref T)) (l : Nat) (ns : List Neighbour),
      s.entry = some ep ∧ Descent cfg.eval q s ep.pid.layer ep (ps ++ [pivot]) ∧ IsLowest s l ∧
      search P cfg s q knbn efArg = .ok ns ∧
      ∀ R : List (Ref T), R.Nodup → (∀ p, p ∈ R ↔ Reaches (links s l) pivot p) →
        ns.length = min knbn R.length := by
  obtain ⟨ep, ps, pivot, l, r, hep, hst, hl, hd, hA, hN, heq⟩ :=
    searchNone_res L hr hne hL knbn efArg
  exact ⟨ep, pivot, ps, l, _, hep, hd, hl, heq, fun R hR hRS =>
    takeSorted_count L (Nat.le_max_right _ _) hA (fun y hy => (hA.inK y hy).2) hN.full R hR hRS⟩

theorem nav67_filter_count (L : P.Lawful) (hr : Navig s) (hne : s.points ≠ []) (q : List T)
    (hL : LegalOn cfg.eval s q) (knbn efArg : Nat) (hef2 : 2 ≤ max efArg knbn) (φ : DataId → Bool) :
    ∃ (ep pivot : Ref T) (ps : List (Ref T)) (l : Nat) (ns : List Neighbour),
      s.entry = some ep ∧ Descent cfg.eval q s ep.pid.layer ep (ps ++ [pivot]) ∧ IsLowest s l ∧
      searchFilter P cfg s q knbn efArg (some φ) = .ok ns ∧
      ∀ R : List (Ref T), R.Nodup →
        (∀ p, p ∈ R ↔ Reaches (links s l) pivot p ∧ φ p.origin = true) → R ≠ [] →
        ns.length = min knbn R.length := by
  obtain ⟨ep, ps, pivot, l, r, hep, hst, hl, hd, hA, hF, heq⟩ :=
    searchSome_res L hr hne hL knbn efArg (by omega) φ
  refine ⟨ep, pivot, ps, l, _, hep, hd, hl, heq, fun R hR hRS hne' => ?_⟩
  refine takeSorted_count L (Nat.le_max_right _ _) hA (fun y hy => ⟨(hA.inK y hy).2, ?_⟩)
    (fun hlt x hx => hF.full hef2 hlt x hx.1 hx.2) R hR hRS
  rcases hF.acc with hacc | ⟨z, -, -, -, hall⟩
  · exact hacc y hy
  · obtain ⟨p, hp⟩ := List.exists_mem_of_ne_nil R hne'
    have := (hRS p).1 hp
    exact absurd this.2 (by simp [hall hef2 p this.1])

theorem nav68_filter_local_optimum (L : P.Lawful) (hr : Navig s) (q : List T)
    (hNN : ∀ p ∈ s.points, (cfg.eval q p.data).isNaN = false) (knbn efArg : Nat) (hef2 : 2 ≤ max efArg knbn) (φ : DataId → Bool)
    (ns : List Neighbour) (h : searchFilter P cfg s q knbn efArg (some φ) = .ok ns) (l : Nat)
    (hl : IsLowest s l) :
    ∀ n ∈ ns, ∀ e ∈ s.nb n.pId l, φ e.pt.origin = true →
      answer cfg.eval q e.pt ∈ ns ∨ ∀ m ∈ ns, m.distance.key ≤ (cfg.eval q e.pt.data).key := by
  have hne : s.points ≠ [] := by
    intro h0
    apply hl.1
    unfold Idx.points at h0
    unfold Idx.layer
    cases h1 : s.layers[l]? with
    | none => rfl
    | some x => exact List.flatten_eq_nil_iff.1 h0 x (List.mem_of_getElem? h1)
  rcases searchSome_num L hr hne hNN knbn efArg (by omega) φ with
    ⟨herr, -⟩ | ⟨ep, ps, pivot, l', r, -, -, hl', -, hA, hF, heq⟩
  · rw [herr] at h; cases h
  have hll : l' = l := by
    rcases Nat.lt_trichotomy l' l with h1 | h1 | h1
    · exact absurd (hl.2 l' h1) hl'.1
    · exact h1
    · exact absurd (hl'.2 l h1) hl.1
  subst hll
  rw [heq] at h
  cases h
  obtain ⟨v, hv, -, -, -, -, hfar⟩ := takeSorted_nearest (knbn := knbn) L hA
    (fun v hv => hNN v hv.1) (fun x => Iff.rfl)
  intro n hn e he hφe
  obtain ⟨x, hx, rfl⟩ := List.mem_map.1 hn
  have hx' := (L.intoSorted_perm r).mem_iff.1 (List.mem_of_mem_take hx)
  rcases hF.localOpt hef2 x hx' e he hφe with ⟨y, hy, hye⟩ | hfar'
  · by_cases hev : e.pt ∈ v
    · left; rw [hv]; exact List.mem_map_of_mem hev
    · right
      intro m hm
      rw [hv] at hm
      obtain ⟨z, hz, rfl⟩ := List.mem_map.1 hm
      exact hfar e.pt ⟨y, hy, hye⟩ hev z hz
  · right
    intro m hm
    obtain ⟨z, hz, rfl⟩ := List.mem_map.1 hm
    exact hfar' z ((L.intoSorted_perm r).mem_iff.1 (List.mem_of_mem_take hz))

theorem nav91_larger_ef (L : P.Lawful) (hr : Navig s) (q : List T) (hL : LegalOn cfg.eval s q)
    (hT : ∀ p ∈ s.points, ∀ p' ∈ s.points,
      (cfg.eval q p.data).key = (cfg.eval q p'.data).key → p = p')
    (knbn efArg knbn' efArg' : Nat) (hk : knbn ≤ knbn') (he : efArg ≤ efArg')
    (ns ns' : List Neighbour) (h : search P cfg s q knbn efArg = .ok ns)
    (h' : search P cfg s q knbn' efArg' = .ok ns') :
    ns.length ≤ ns'.length ∧ ∀ (i : Nat) (a b : Neighbour), ns[i]? = some a → ns'[i]? = some b →
      b.distance.key ≤ a.distance.key := by
  have hg := hr
  by_cases hne : s.points = []
  · unfold search searchFilter at h
    cases hen : s.entry with
    | none => rw [hen] at h; cases h; simp
    | some e =>
      have := hg.entry e hen
      unfold Stored at this
      rw [hne] at this
      cases this
  obtain ⟨pivot, l, hst, heq⟩ := searchFilter_eqAll (P := P) (cfg := cfg) hg hne q
  by_cases hz : max efArg knbn = 0
  · have hk0 : knbn = 0 := by omega
    unfold search at h
    rw [heq, hk0] at h
    have : ns = [] := by
      split at h
      · cases h
      · split at h
        · cases h
        · cases h; simp
    rw [this]
    simp
  unfold search at h h'
  rw [heq] at h h'
  have hI1 : InvA P cfg.eval q (max efArg knbn) (KP s l pivot) (slInit P cfg.eval q pivot) :=
    invA_init L ⟨hst, .refl⟩
  have hI2 : InvA P cfg.eval q (max efArg' knbn') (KP s l pivot) (slInit P cfg.eval q pivot) :=
    invA_init L ⟨hst, .refl⟩
  split at h
  · cases h
  rename_i r1 hr1
  split at h
  · cases h
  rename_i v1 hv1
  split at h'
  · cases h'
  rename_i r2 hr2
  split at h'
  · cases h'
  rename_i v2 hv2
  cases h
  cases h'
  have hR1 := slLoop_resA L (kp_step hg l pivot) _ hI1 hr1
  have hR2 := slLoop_resA L (kp_step hg l pivot) _ hI2 hr2
  have hM := slLoop_mono (ef1 := max efArg knbn) (ef2 := max efArg' knbn') L (by omega) (by omega)
    (kp_step hg l pivot) (fun v hv => hL v hv.1)
    (fun v w hv hw => hT v hv.1 w hw.1) _ (sync_init L ⟨hst, .refl⟩) hr1 hr2
  have ev1 := Policy.intoSortedC_ok hv1
  have ev2 := Policy.intoSortedC_ok hv2
  have hp1 := L.intoSorted_perm r1
  have hp2 := L.intoSorted_perm r2
  rw [← ev1] at hp1
  rw [← ev2] at hp2
  have hS := sorted_le (eval := cfg.eval) (q := q) (l1 := v1) (l2 := v2)
    (by rw [ev1]; exact L.intoSorted_sorted r1 (hR1.built fun v hv => (hL v hv.1).1))
    (by rw [ev2]; exact L.intoSorted_sorted r2 (hR2.built fun v hv => (hL v hv.1).1))
    ((hp1.map (fun x : PWO T => x.pt.pid)).nodup_iff.2 hR1.nd)
    (fun x hx => hR1.dist x (hp1.mem_iff.1 hx)) (fun x hx => hR2.dist x (hp2.mem_iff.1 hx))
    (by
      intro x hx
      rcases hM x (hp1.mem_iff.1 hx) with ⟨y, hy, hyx⟩ | ⟨h3, h4⟩
      · exact Or.inl ⟨y, hp2.mem_iff.2 hy, hyx⟩
      · right
        refine ⟨?_, fun y hy => h4 y (hp2.mem_iff.1 hy)⟩
        have := hR1.len
        rw [hp1.length_eq, hp2.length_eq]
        simp only [Policy.len] at this h3
        omega)
  refine ⟨?_, ?_⟩
  · have := hS.1
    simp only [List.length_map, List.length_take]
    omega
  · intro i a b ha hb
    simp only [List.getElem?_map, Option.map_eq_some_iff, List.getElem?_take] at ha hb
    obtain ⟨x, hx, rfl⟩ := ha
    obtain ⟨y, hy, rfl⟩ := hb
    split at hx
    · split at hy
      · exact hS.2 i x y hx hy
      · cases hy
    · cases hx

theorem nav92_extensional (L : P.Lawful) (hr : Navig s) (φ ψ : DataId → Bool)
    (h : ∀ p ∈ s.points, φ p.origin = ψ p.origin) (q : List T) (knbn efArg : Nat) :
    searchFilter P cfg s q knbn efArg (some φ) = searchFilter P cfg s q knbn efArg (some ψ) := by
  have hg := hr
  by_cases hne : s.points = []
  · unfold searchFilter
    cases hen : s.entry with
    | none => rfl
    | some e =>
      have := hg.entry e hen
      unfold Stored at this
      rw [hne] at this
      cases this
  obtain ⟨pivot, l, hst, heq⟩ := searchFilter_eqAll (P := P) (cfg := cfg) hg hne q
  rw [heq, heq]
  have := slLoop_agree (P := P) (eval := cfg.eval) (q := q) (ef := max efArg knbn) (K := KP s l pivot)
    (φ := φ) (ψ := ψ) L (fun v hv => h v hv.1) (kp_step hg l pivot) (s.points.length + 2)
    (invA_init L ⟨hst, .refl⟩)
  rw [this]

theorem nav92_accept_all_partial (L : P.Lawful) (hr : Navig s) (φ : DataId → Bool)
    (h : ∀ p ∈ s.points, φ p.origin = true) (q : List T)
    (hN : ∀ p ∈ s.points, (cfg.eval q p.data).isNaN = false) (knbn efArg : Nat) :
    searchFilter P cfg s q knbn efArg (some φ) = search P cfg s q knbn efArg := by
  have hg := hr
  unfold search
  by_cases hne : s.points = []
  · unfold searchFilter
    cases hen : s.entry with
    | none => rfl
    | some e =>
      have := hg.entry e hen
      unfold Stored at this
      rw [hne] at this
      cases this
  obtain ⟨pivot, l, hst, heq⟩ := searchFilter_eqAll (P := P) (cfg := cfg) hg hne q
  rw [heq, heq]
  have := slLoop_all (P := P) (eval := cfg.eval) (q := q) (ef := max efArg knbn) (K := KP s l pivot)
    (φ := φ) L (fun v hv => h v hv.1) (fun v hv => hN v hv.1) (kp_step hg l pivot)
    (s.points.length + 2) (invA_init L ⟨hst, .refl⟩) (candRet_init L)
  rw [this]

theorem nav96_navigable (L : P.Lawful) (hr : Navig s) (hne : s.points ≠ []) (q : List T)
    (hL : LegalOn cfg.eval s q) (l : Nat) (hl : IsLowest s l)
    (hnav : ∀ p ∈ s.points, (∀ b ∈ s.points, (cfg.eval q p.data).key ≤ (cfg.eval q b.data).key) ∨
      ∃ e ∈ s.nb p.pid l, (cfg.eval q e.pt.data).key < (cfg.eval q p.data).key)
    (knbn efArg : Nat) (hk : 1 ≤ knbn) :
    ∃ n ns, search P cfg s q knbn efArg = .ok (n :: ns) ∧
      ∃ p ∈ s.points, n = answer cfg.eval q p ∧
        ∀ b ∈ s.points, n.distance.key ≤ (cfg.eval q b.data).key := by
  obtain ⟨ep, ps, n, ns, -, -, -, hs, -⟩ := nav08_not_worse_than_pivots L hr hne q hL knbn efArg hk
  refine ⟨n, ns, hs, ?_⟩
  obtain ⟨p, hp, hpn⟩ := nav02_true_answers L hr q knbn efArg none (n :: ns) hs n (by simp)
  refine ⟨p, hp, hpn, ?_⟩
  rw [hpn]
  rcases hnav p hp with h | ⟨e, he, hlt⟩
  · exact h
  · exfalso
    have hso := (nav01_sorted_bounded_partial L hr q (fun p hp => (hL p hp).1) knbn efArg none
      (n :: ns) hs).1
    have hpid : n.pId = p.pid := by rw [hpn]
    have hd : n.distance = cfg.eval q p.data := by rw [hpn]
    have h1 := nav06_local_optimum_partial L hr q (fun p hp => (hL p hp).1) knbn efArg (n :: ns) hs l hl n (by simp) e
      (by rw [hpid]; exact he)
    rcases h1 with h1 | h1
    · rcases List.mem_cons.1 h1 with h2 | h2
      · have : (answer cfg.eval q e.pt).distance = n.distance := by rw [h2]
        have h3 : (cfg.eval q e.pt.data) = cfg.eval q p.data := by rw [← hd]; exact this
        rw [h3] at hlt
        omega
      · have h3 := (List.pairwise_cons.1 hso).1 _ h2
        have h4 : n.distance.key ≤ (cfg.eval q e.pt.data).key := h3
        rw [hd] at h4
        omega
    · have h2 := h1 n (by simp)
      rw [hd] at h2
      omega

theorem nav96_complete (L : P.Lawful) (hr : Navig s) (hne : s.points ≠ []) (q : List T)
    (hL : LegalOn cfg.eval s q) (l : Nat) (hl : IsLowest s l)
    (hC : ∀ a ∈ s.points, ∀ b ∈ s.points, a ≠ b → ∃ e ∈ s.nb a.pid l, e.pt = b) (knbn efArg : Nat) :
    ∃ ns, search P cfg s q knbn efArg = .ok ns ∧ ns.length = min knbn s.points.length ∧
      IsKNearest cfg.eval q knbn (· ∈ s.points) ns := by
  have hg := hr
  obtain ⟨ep, ps, pivot, l', r, hep, hst, hl', hd, hA, hN, heq⟩ :=
    searchNone_res L hg hne hL knbn efArg
  have hll : l' = l := by
    rcases Nat.lt_trichotomy l' l with h1 | h1 | h1
    · exact absurd (hl.2 l' h1) hl'.1
    · exact h1
    · exact absurd (hl'.2 l h1) hl.1
  subst hll
  have hS : ∀ v, v ∈ s.points ↔ Reaches (links s l') pivot v := by
    intro v
    constructor
    · intro hv
      by_cases hvp : pivot = v
      · rw [hvp]; exact .refl
      · obtain ⟨e, he, rfl⟩ := hC pivot hst v hv hvp
        exact .step .refl he
    · intro h
      exact h.stored hg hst
  have hnd : s.points.Nodup := List.Pairwise.of_map _ (fun a b hab heq => hab (by rw [heq]))
    (pids_points_nodup hg.tab)
  have hlen := takeSorted_count (knbn := knbn) L (Nat.le_max_right _ _) hA (fun y hy => (hA.inK y hy).2)
    hN.full s.points hnd hS
  refine ⟨_, heq, hlen, ?_⟩
  have hloc := nav06_local_optimum_partial L hr q (fun p hp => (hL p hp).1) knbn efArg _ heq l' hl'
  obtain ⟨v, hv, h1, h2, h3, -, h5⟩ := takeSorted_nearest (knbn := knbn) L hA
    (fun v hv => (hL v hv.1).1) (fun x => Iff.rfl)
  have hvs : ∀ p ∈ v, p ∈ s.points := by
    intro p hp
    obtain ⟨y, hy, rfl⟩ := h2 p hp
    exact (hA.inK y hy).1
  refine ⟨v, hv, h1, hvs, h3, ?_, ?_⟩
  · intro R hR hRS
    have hRlen : R.length = s.points.length :=
      Nat.le_antisymm (length_le_of_nodup_subset hR (fun x hx => (hRS x).1 hx))
        (length_le_of_nodup_subset hnd (fun x hx => (hRS x).2 hx))
    rw [hv, List.length_map] at hlen
    rw [hlen, hRlen]
  · intro p hp hpv x hx
    have hxp : x ≠ p := fun h => hpv (h ▸ hx)
    obtain ⟨e, he, hep⟩ := hC x (hvs x hx) p hp hxp
    rw [hv] at hloc
    rcases hloc (answer cfg.eval q x) (List.mem_map_of_mem hx) e he with h | h
    · exfalso
      rw [hep] at h
      obtain ⟨z, hz, hze⟩ := List.mem_map.1 h
      have hpid : z.pid = p.pid := congrArg Neighbour.pId hze
      exact hpv (hg.tab.unique (hvs z hz) hp hpid ▸ hz)
    · have := h (answer cfg.eval q x) (List.mem_map_of_mem hx)
      rw [hep] at this
      exact this

end Verif
