import Verif.SearchLegal
import Verif.TableLemmas
import Verif.Reach

set_option autoImplicit false

/-!
# From the search loop to `search_filter`

Lemmas lifting the results on the search loop to the answers of `searchFilter`.
-/

namespace Verif
variable {T : Type} {P : Policy T} {cfg : Cfg T} {s : Idx T} {q : List T}

theorem scanPivot_spec (eval : List T → List T → F32) (q : List T) :
    ∀ (ns : List (PWO T)) (a : Ref T), 
      (scanPivot eval q ns (a, eval q a.data)).2 =
        eval q (scanPivot eval q ns (a, eval q a.data)).1.data ∧
      (scanPivot eval q ns (a, eval q a.data)).1 ∈ a :: ns.map (·.pt) := by
  intro ns
  induction ns with
  | nil => intro a; simp [scanPivot]
  | cons n ns ih =>
    intro a
    simp only [scanPivot]
    split
    · have := ih n.pt
      refine ⟨this.1, ?_⟩
      rcases List.mem_cons.1 this.2 with h | h
      · rw [h]; simp
      · simp only [List.map_cons, List.mem_cons]; exact Or.inr (Or.inr h)
    · have := ih a
      refine ⟨this.1, ?_⟩
      rcases List.mem_cons.1 this.2 with h | h
      · rw [h]; simp
      · simp only [List.map_cons, List.mem_cons]; exact Or.inr (Or.inr h)

theorem scanPivot_nearest (eval : List T → List T → F32) (q : List T) :
    ∀ (ns : List (PWO T)) (a : Ref T), (∀ x ∈ a :: ns.map (·.pt), (eval q x.data).isNaN = false) →
      Nearest eval q (a :: ns.map (·.pt)) (scanPivot eval q ns (a, eval q a.data)).1 := by
  intro ns
  induction ns with
  | nil => intro a _; simp [scanPivot, Nearest]
  | cons n ns ih =>
    intro a hL
    have hla := hL a (by simp)
    have hln := hL n.pt (by simp)
    refine ⟨(scanPivot_spec eval q (n :: ns) a).2, ?_⟩
    simp only [scanPivot, lt_keyN hln hla]
    by_cases hc : decide ((eval q n.pt.data).key < (eval q a.data).key) = true
    · rw [if_pos hc]
      have h1 := ih n.pt (fun x hx => hL x (by
        simp only [List.map_cons, List.mem_cons] at hx ⊢; exact Or.inr hx))
      intro x hx
      rcases List.mem_cons.1 hx with rfl | hx
      · have := h1.2 n.pt (by simp)
        simp only [decide_eq_true_eq] at hc
        omega
      · exact h1.2 x (by simpa using hx)
    · rw [if_neg hc]
      have h1 := ih a (fun x hx => hL x (by
        simp only [List.map_cons, List.mem_cons] at hx ⊢
        rcases hx with h | h
        · exact Or.inl h
        · exact Or.inr (Or.inr h)))
      intro x hx
      simp only [List.map_cons, List.mem_cons] at hx
      rcases hx with rfl | rfl | hx
      · exact h1.2 x (by simp)
      · have := h1.2 a (by simp)
        simp only [decide_eq_true_eq] at hc
        omega
      · exact h1.2 x (by simp only [List.mem_cons]; exact Or.inr hx)

/-- All that searches need of an index: points are where their ids say, links and the entry point lead
to stored points, and there is an entry point if there are points. -/
structure Navig (s : Idx T) : Prop where
  tab : TableOK s.layers.length s
  stored : ∀ p l, ∀ e ∈ s.nb p l, Stored s e.pt
  entry : ∀ e, s.entry = some e → Stored s e
  start : s.points ≠ [] → s.entry ≠ none

theorem Good.nav (h : Good cfg s) : Navig s :=
  ⟨⟨rfl, h.ok.tab.ids⟩, h.ok.stored, h.ok.entry, h.entry⟩

/-- the descent stays on stored points -/
theorem descend_stored (h : Navig s) : ∀ (l : Nat) (a : Ref T), Stored s a →
    Stored s (descend cfg.eval q s l (a, cfg.eval q a.data)).1 := by
  intro l
  induction l with
  | zero => intro a ha; exact ha
  | succ l ih =>
    intro a ha
    simp only [descend]
    have h1 := scanPivot_spec cfg.eval q (s.nb a.pid (l + 1)) a
    have h2 : scanPivot cfg.eval q (s.nb a.pid (l + 1)) (a, cfg.eval q a.data) =
        ((scanPivot cfg.eval q (s.nb a.pid (l + 1)) (a, cfg.eval q a.data)).1,
          cfg.eval q (scanPivot cfg.eval q (s.nb a.pid (l + 1)) (a, cfg.eval q a.data)).1.data) := by
      rw [← h1.1]
    rw [h2]
    apply ih
    rcases List.mem_cons.1 h1.2 with h3 | h3
    · rw [h3]; exact ha
    · obtain ⟨e, he, he'⟩ := List.mem_map.1 h3
      rw [← he']
      exact h.stored _ _ e he

theorem descend_descent (h : Navig s) (hL : ∀ p, Stored s p → (cfg.eval q p.data).isNaN = false) :
    ∀ (l : Nat) (a : Ref T), Stored s a →
    ∃ ps, Descent cfg.eval q s l a (ps ++ [(descend cfg.eval q s l (a, cfg.eval q a.data)).1]) := by
  intro l
  induction l with
  | zero => intro a ha; exact ⟨[], .stop a⟩
  | succ l ih =>
    intro a ha
    simp only [descend]
    have h1 := scanPivot_spec cfg.eval q (s.nb a.pid (l + 1)) a
    have h2 : scanPivot cfg.eval q (s.nb a.pid (l + 1)) (a, cfg.eval q a.data) =
        ((scanPivot cfg.eval q (s.nb a.pid (l + 1)) (a, cfg.eval q a.data)).1,
          cfg.eval q (scanPivot cfg.eval q (s.nb a.pid (l + 1)) (a, cfg.eval q a.data)).1.data) := by
      rw [← h1.1]
    rw [h2]
    have hst : ∀ x ∈ a :: (s.nb a.pid (l + 1)).map (·.pt), Stored s x := by
      intro x hx
      rcases List.mem_cons.1 hx with rfl | h3
      · exact ha
      · obtain ⟨e, he, he'⟩ := List.mem_map.1 h3
        rw [← he']
        exact h.stored _ _ e he
    obtain ⟨ps, hps⟩ := ih _ (hst _ h1.2)
    exact ⟨a :: ps, .step (scanPivot_nearest cfg.eval q _ a (fun x hx => hL x (hst x hx))) hps⟩

theorem Descent.mem {eval : List T → List T → F32} {l : Nat} {a : Ref T} {ps : List (Ref T)}
    (h : Descent eval q s l a ps) : a ∈ ps := by
  cases h <;> simp

/-- pivots get nearer and nearer -/
theorem Descent.last_le {eval : List T → List T → F32} {l : Nat} {a b : Ref T} {ps : List (Ref T)}
    (h : Descent eval q s l a (ps ++ [b])) :
    ∀ x ∈ ps ++ [b], (eval q b.data).key ≤ (eval q x.data).key := by
  generalize hr : ps ++ [b] = r at h
  induction h generalizing ps with
  | stop a =>
    intro x hx
    have h1 : ps = [] := by
      cases ps with
      | nil => rfl
      | cons y ys => simp at hr
    subst h1
    simp at hr hx
    rw [hr, hx]; exact Int.le_refl _
  | @step l a c rs hn hd ih =>
    cases ps with
    | nil =>
      simp at hr
      rw [hr.2] at hd
      cases hd
    | cons y ys =>
      simp only [List.cons_append, List.cons.injEq] at hr
      have h1 := ih hr.2
      intro x hx
      rcases List.mem_cons.1 hx with rfl | hx
      · have h2 : (eval q c.data).key ≤ (eval q x.data).key := hn.2 x (by simp)
        have h3 : c ∈ rs := by cases hd <;> simp
        have h4 := h1 c h3
        omega
      · exact h1 x hx

/-- some layer holds a point when there is one -/
theorem lowestLayer_some (hp : s.points ≠ []) :
    ∃ l, lowestLayer s = some l ∧ IsLowest s l := by
  cases hl : lowestLayer s with
  | none =>
    exfalso
    unfold lowestLayer at hl
    rw [List.findIdx?_eq_none_iff] at hl
    apply hp
    unfold Idx.points
    apply List.flatten_eq_nil_iff.2
    intro x hx
    simpa using hl x hx
  | some l =>
    refine ⟨l, rfl, ?_⟩
    unfold lowestLayer at hl
    rw [List.findIdx?_eq_some_iff_getElem] at hl
    obtain ⟨h1, h2, h3⟩ := hl
    constructor
    · simpa [Idx.layer, List.getElem?_eq_getElem h1] using h2
    · intro l' hl'
      have := h3 l' hl'
      simpa [Idx.layer, List.getElem?_eq_getElem (Nat.lt_trans hl' h1)] using this

theorem layer_of_lowest {l : Nat} (h : IsLowest s l) : ∃ a as, s.layers[l]? = some (a :: as) := by
  have h1 := h.1
  unfold Idx.layer at h1
  cases h2 : s.layers[l]? with
  | none => simp [h2] at h1
  | some x =>
    cases x with
    | nil => simp [h2] at h1
    | cons a as => exact ⟨a, as, rfl⟩

theorem toNeighbour_answer {eval : List T → List T → F32} {x : PWO T}
    (h : x.dist = eval q x.pt.data) : x.toNeighbour = answer eval q x.pt := by
  simp [PWO.toNeighbour, answer, h]

/-- the points reached from a stored one are stored -/
theorem Reaches.stored (h : Navig s) {l : Nat} {a b : Ref T} (ha : Stored s a)
    (hr : Reaches (links s l) a b) : Stored s b := by
  induction hr with
  | refl => exact ha
  | step _ he _ => exact h.stored _ _ _ he

/-- The predicate used for `K`. -/
def KP (s : Idx T) (l : Nat) (a : Ref T) (v : Ref T) : Prop := Stored s v ∧ Reaches (links s l) a v

/-- Unfolding of `searchFilter` on a non empty index. -/
theorem searchFilter_eq (h : Navig s) (hne : s.points ≠ []) (knbn efArg : Nat)
    (filt : Option (DataId → Bool)) :
    ∃ ep pivot l, s.entry = some ep ∧ Stored s ep ∧ Stored s pivot ∧ IsLowest s l ∧
      ((∀ p, Stored s p → (cfg.eval q p.data).isNaN = false) →
        ∃ ps, Descent cfg.eval q s ep.pid.layer ep (ps ++ [pivot])) ∧
      searchFilter P cfg s q knbn efArg filt =
        match slLoop P cfg.eval q (max efArg knbn) filt (links s l) (s.points.length + 2)
            (slInit P cfg.eval q pivot) with
        | .error e => .error e
        | .ok h =>
          match P.intoSortedC h with
          | .error e => .error e
          | .ok v => .ok ((v.take knbn).map PWO.toNeighbour) := by
  cases he : s.entry with
  | none => exact absurd he (h.start hne)
  | some ep =>
    have hst := h.entry ep he
    obtain ⟨l, hl, hl'⟩ := lowestLayer_some hne
    refine ⟨ep, _, l, rfl, hst, descend_stored (q := q) h ep.pid.layer ep hst, hl',
      fun hL => descend_descent h hL ep.pid.layer ep hst, ?_⟩
    unfold searchFilter
    simp only [he, hl]
    obtain ⟨a, as, hla⟩ := layer_of_lowest hl'
    unfold searchLayer
    simp only [hla]
    have : (fun p => s.nb p l) = links s l := rfl
    rw [this]
    cases slLoop P cfg.eval q (max efArg knbn) filt (links s l) (s.points.length + 2)
            (slInit P cfg.eval q (descend cfg.eval q s ep.pid.layer (ep, cfg.eval q ep.data)).1) with
    | error e => rfl
    | ok hh =>
      simp only
      cases P.intoSortedC hh with
      | error e => rfl
      | ok v =>
        simp only
        congr 2
        rw [List.take_eq_take_iff]
        omega

/-- What an answer is, for any distance function and any filter. -/
theorem searchFilter_res (L : P.Lawful) (h : Navig s) (hne : s.points ≠ []) {knbn efArg : Nat}
    {filt : Option (DataId → Bool)} {ns : List Neighbour}
    (hs : searchFilter P cfg s q knbn efArg filt = .ok ns) :
    ∃ (pivot : Ref T) (l : Nat) (r : P.H), Stored s pivot ∧ IsLowest s l ∧
      ResA P cfg.eval q (max efArg knbn) (KP s l pivot) r ∧
      ns = ((P.intoSorted r).take knbn).map PWO.toNeighbour := by
  obtain ⟨ep, pivot, l, -, -, hst, hl, -, heq⟩ := searchFilter_eq (P := P) (q := q) h hne knbn efArg filt
  rw [heq] at hs
  cases hr : slLoop P cfg.eval q (max efArg knbn) filt (links s l) (s.points.length + 2)
            (slInit P cfg.eval q pivot) with
  | error e => rw [hr] at hs; cases hs
  | ok r =>
    rw [hr] at hs
    simp only at hs
    cases hv : P.intoSortedC r with
    | error e => rw [hv] at hs; cases hs
    | ok v =>
      rw [hv] at hs
      cases hs
      refine ⟨pivot, l, r, hst, hl, ?_, by rw [Policy.intoSortedC_ok hv]⟩
      apply slLoop_resA L (K := KP s l pivot) ?_ _ (invA_init L ⟨hst, .refl⟩) hr
      rintro c ⟨hc, hc'⟩ e he
      exact ⟨h.stored _ _ e he, .step hc' he⟩

theorem kp_step (h : Navig s) (l : Nat) (a : Ref T) :
    ∀ c, KP s l a c → ∀ e ∈ links s l c.pid, KP s l a e.pt := by
  rintro c ⟨hc, hc'⟩ e he
  exact ⟨h.stored _ _ e he, .step hc' he⟩

/-- The search loop does not exhaust its budget. -/
theorem loop_no_fuel (L : P.Lawful) (h : Navig s) {l : Nat} {a : Ref T} (ha : Stored s a)
    (ef : Nat) (filt : Option (DataId → Bool)) :
    slLoop P cfg.eval q ef filt (links s l) (s.points.length + 2) (slInit P cfg.eval q a) ≠
      .error .fuel := by
  apply slLoop_no_fuel L (K := KP s l a) (kp_step h l a) s.points.length
  · intro v hv hn
    exact h.tab.count (fun x hx => (hv x hx).1) hn
  · exact invA_init L ⟨ha, .refl⟩
  · simp [slInit, Policy.len, L.items_push_empty]

/-- Unfiltered search without NaN. -/
theorem searchNone_num (L : P.Lawful) (h : Navig s) (hne : s.points ≠ [])
    (hL : ∀ p, Stored s p → (cfg.eval q p.data).isNaN = false) (knbn efArg : Nat) :
    (searchFilter P cfg s q knbn efArg none = .error .assertion ∧ ∃ p, Stored s p ∧ ¬ (cfg.eval q p.data).Legal) ∨
    ∃ (ep : Ref T) (ps : List (Ref T)) (pivot : Ref T) (l : Nat) (r : P.H),
      s.entry = some ep ∧ Stored s pivot ∧ IsLowest s l ∧
      Descent cfg.eval q s ep.pid.layer ep (ps ++ [pivot]) ∧
      ResA P cfg.eval q (max efArg knbn) (KP s l pivot) r ∧
      ResN P cfg.eval q (max efArg knbn) (links s l) pivot r ∧
      searchFilter P cfg s q knbn efArg none =
        .ok (((P.intoSorted r).take knbn).map PWO.toNeighbour) := by
  obtain ⟨ep, pivot, l, he, -, hst, hl, hd, heq⟩ :=
    searchFilter_eq (P := P) (q := q) h hne knbn efArg none
  obtain ⟨ps, hps⟩ := hd hL
  have hI : InvA P cfg.eval q (max efArg knbn) (KP s l pivot) (slInit P cfg.eval q pivot) :=
    invA_init L ⟨hst, .refl⟩
  have hN : InvN P cfg.eval q (max efArg knbn) [] (slInit P cfg.eval q pivot) := by
    refine ⟨?_, ?_, ?_⟩ <;> simp [slInit, L.items_push_empty]
  rcases slLoop_numN (ep := pivot) L (kp_step h l pivot)
      (fun v w hv hw => h.tab.unique hv.1 hw.1) (fun v hv => hL v hv.1)
      (s.points.length + 2) hI hN (by simp [slInit]) (by simp) (by simp) with hf | ⟨hf, v, hv, hv'⟩ | ⟨r, hr, hR⟩
  · exact absurd hf (loop_no_fuel L h hst _ _)
  · left
    exact ⟨by rw [heq, hf], v, hv.1, hv'⟩
  · right
    have hA := slLoop_resA L (kp_step h l pivot) _ hI hr
    refine ⟨ep, ps, pivot, l, r, he, hst, hl, hps, hA, hR, ?_⟩
    rw [heq, hr]
    simp only
    rw [L.intoSortedC_built (hA.built fun v hv => hL v hv.1)]

/-- Unfiltered search with legal distances. -/
theorem searchNone_res (L : P.Lawful) (h : Navig s) (hne : s.points ≠ [])
    (hL : LegalOn cfg.eval s q) (knbn efArg : Nat) :
    ∃ (ep : Ref T) (ps : List (Ref T)) (pivot : Ref T) (l : Nat) (r : P.H),
      s.entry = some ep ∧ Stored s pivot ∧ IsLowest s l ∧
      Descent cfg.eval q s ep.pid.layer ep (ps ++ [pivot]) ∧
      ResA P cfg.eval q (max efArg knbn) (KP s l pivot) r ∧
      ResN P cfg.eval q (max efArg knbn) (links s l) pivot r ∧
      searchFilter P cfg s q knbn efArg none =
        .ok (((P.intoSorted r).take knbn).map PWO.toNeighbour) := by
  rcases searchNone_num L h hne (fun p hp => (hL p hp).1) knbn efArg with ⟨-, p, hp, hp'⟩ | h'
  · exact absurd (hL p hp) hp'
  · exact h'

/-- Filtered search without NaN and `ef ≥ 1`. -/
theorem searchSome_num (L : P.Lawful) (h : Navig s) (hne : s.points ≠ [])
    (hL : ∀ p, Stored s p → (cfg.eval q p.data).isNaN = false) (knbn efArg : Nat) (hef : 1 ≤ max efArg knbn) (φ : DataId → Bool) :
    (searchFilter P cfg s q knbn efArg (some φ) = .error .assertion ∧ ∃ p, Stored s p ∧ ¬ (cfg.eval q p.data).Legal) ∨
    ∃ (ep : Ref T) (ps : List (Ref T)) (pivot : Ref T) (l : Nat) (r : P.H),
      s.entry = some ep ∧ Stored s pivot ∧ IsLowest s l ∧
      Descent cfg.eval q s ep.pid.layer ep (ps ++ [pivot]) ∧
      ResA P cfg.eval q (max efArg knbn) (KP s l pivot) r ∧
      ResF P cfg.eval q φ (max efArg knbn) s.points.length (links s l) pivot r ∧
      searchFilter P cfg s q knbn efArg (some φ) =
        .ok (((P.intoSorted r).take knbn).map PWO.toNeighbour) := by
  obtain ⟨ep, pivot, l, he, -, hst, hl, hd, heq⟩ :=
    searchFilter_eq (P := P) (q := q) h hne knbn efArg (some φ)
  obtain ⟨ps, hps⟩ := hd hL
  have hI : InvA P cfg.eval q (max efArg knbn) (KP s l pivot) (slInit P cfg.eval q pivot) :=
    invA_init L ⟨hst, .refl⟩
  have hc : ∀ v : List (Ref T), (∀ x ∈ v, KP s l pivot x) → (v.map (·.pid)).Nodup →
      v.length ≤ s.points.length := fun v hv hn => h.tab.count (fun x hx => (hv x hx).1) hn
  have hF : InvF P cfg.eval q φ (max efArg knbn) s.points.length pivot [] (slInit P cfg.eval q pivot) := by
    refine ⟨by simp [slInit, L.items_push_empty], ?_, ?_, by simp [slInit, L.items_push_empty],
      by simp [slInit, L.items_push_empty], by simp [slInit, L.items_push_empty]⟩
    · by_cases hφ : φ pivot.origin = true
      · left; simp [slInit, L.items_push_empty, hφ]
      · right
        exact ⟨_, L.items_push_empty, rfl, by simpa using hφ, fun _ => by
          simp [slInit, L.items_push_empty]; simpa using hφ⟩
    · intro _; simp [slInit, L.items_push_empty]
  rcases slLoop_numF (ep := pivot) (φ := φ) L hef (kp_step h l pivot)
      (fun v w hv hw => h.tab.unique hv.1 hw.1) (fun v hv => hL v hv.1) hc ⟨hst, .refl⟩
      (s.points.length + 2) hI hF (by simp [slInit]) (by simp) (by simp) with hf | ⟨hf, v, hv, hv'⟩ | ⟨r, hr, hR⟩
  · exact absurd hf (loop_no_fuel L h hst _ _)
  · left
    exact ⟨by rw [heq, hf], v, hv.1, hv'⟩
  · right
    have hA := slLoop_resA L (kp_step h l pivot) _ hI hr
    refine ⟨ep, ps, pivot, l, r, he, hst, hl, hps, hA, hR, ?_⟩
    rw [heq, hr]
    simp only
    rw [L.intoSortedC_built (hA.built fun v hv => hL v hv.1)]

/-- Filtered search with legal distances and `ef ≥ 1`. -/
theorem searchSome_res (L : P.Lawful) (h : Navig s) (hne : s.points ≠ [])
    (hL : LegalOn cfg.eval s q) (knbn efArg : Nat) (hef : 1 ≤ max efArg knbn) (φ : DataId → Bool) :
    ∃ (ep : Ref T) (ps : List (Ref T)) (pivot : Ref T) (l : Nat) (r : P.H),
      s.entry = some ep ∧ Stored s pivot ∧ IsLowest s l ∧
      Descent cfg.eval q s ep.pid.layer ep (ps ++ [pivot]) ∧
      ResA P cfg.eval q (max efArg knbn) (KP s l pivot) r ∧
      ResF P cfg.eval q φ (max efArg knbn) s.points.length (links s l) pivot r ∧
      searchFilter P cfg s q knbn efArg (some φ) =
        .ok (((P.intoSorted r).take knbn).map PWO.toNeighbour) := by
  rcases searchSome_num L h hne (fun p hp => (hL p hp).1) knbn efArg hef φ with ⟨-, p, hp, hp'⟩ | h'
  · exact absurd (hL p hp) hp'
  · exact h'

/-- truncation of the sorted heap: the nearest of its content -/
theorem takeSorted_nearest (L : P.Lawful) {ef : Nat} {K S : Ref T → Prop} {r : P.H} {knbn : Nat}
    (hA : ResA P cfg.eval q ef K r) (hN : ∀ v, K v → (cfg.eval q v.data).isNaN = false)
    (hS : ∀ x, S x ↔ ∃ y ∈ P.items r, y.pt = x) :
    IsKNearest cfg.eval q knbn S (((P.intoSorted r).take knbn).map PWO.toNeighbour) := by
  have hp := L.intoSorted_perm r
  have hso := L.intoSorted_sorted r (hA.built hN)
  have hmem : ∀ y, y ∈ P.intoSorted r ↔ y ∈ P.items r := fun y => hp.mem_iff
  have hdist : ∀ x ∈ P.intoSorted r, x.dist = cfg.eval q x.pt.data :=
    fun x hx => hA.dist x ((hmem x).1 hx)
  have hnd : ((P.intoSorted r).map (·.pt.pid)).Nodup :=
    (hp.map (fun x : PWO T => x.pt.pid)).nodup_iff.2 hA.nd
  have hnd' : ((P.intoSorted r).map (·.pt)).Nodup := by
    have h1 : (((P.intoSorted r).map (·.pt)).map (·.pid)).Nodup := by
      rw [List.map_map]; exact hnd
    exact List.Pairwise.of_map _ (fun a b hab heq => hab (by rw [heq])) h1
  refine ⟨((P.intoSorted r).take knbn).map (·.pt), ?_, ?_, ?_, ?_, ?_, ?_⟩
  · rw [List.map_map]
    apply List.map_congr_left
    intro x hx
    exact toNeighbour_answer (hdist x (List.mem_of_mem_take hx))
  · rw [List.map_take]
    exact hnd'.sublist (List.take_sublist _ _)
  · intro p hp'
    obtain ⟨x, hx, rfl⟩ := List.mem_map.1 hp'
    exact (hS _).2 ⟨x, (hmem x).1 (List.mem_of_mem_take hx), rfl⟩
  · rw [List.pairwise_map]
    have h1 := hso.sublist (List.take_sublist knbn _)
    apply h1.imp_of_mem
    intro a b ha hb hab
    rw [← hdist a (List.mem_of_mem_take ha), ← hdist b (List.mem_of_mem_take hb)]
    exact hab
  · intro R hR hRS
    have h1 : R.Perm ((P.intoSorted r).map (·.pt)) := by
      rw [List.perm_ext_iff_of_nodup hR hnd']
      intro a
      rw [hRS, hS]
      simp only [List.mem_map, hmem]
    simp [h1.length_eq]
  · intro p hpS hpn x hx
    obtain ⟨y, hy, rfl⟩ := (hS p).1 hpS
    obtain ⟨z, hz, rfl⟩ := List.mem_map.1 hx
    have hy' := (hmem y).2 hy
    rw [← hdist y hy', ← hdist z (List.mem_of_mem_take hz)]
    rw [← List.take_append_drop knbn (P.intoSorted r)] at hy' hso
    rcases List.mem_append.1 hy' with h1 | h1
    · exact absurd (List.mem_map_of_mem h1) hpn
    · exact (List.pairwise_append.1 hso).2.2 z hz y h1

end Verif
