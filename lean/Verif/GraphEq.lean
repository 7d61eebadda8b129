import Verif.Access

set_option autoImplicit false

/-!
# Comparison of two graphs

`check_graph_equality` (/repo/src/hnsw.rs 1636-1706), by which the crate checks its reloads.
-/

namespace Verif
variable {T T' : Type}

/-- `==` on `f32` -/
def F32.eqf (a b : F32) : Bool := !a.isNaN && !b.isNaN && decide (a.key = b.key)

/-- `assert!` -/
def assertP (b : Bool) : Except Panic Unit := if b = true then .ok () else .error .assertion

/-- a `for` loop whose body may panic -/
def checkAll {α : Type} (f : α → Except Panic Unit) : List α → Except Panic Unit
  | [] => .ok ()
  | x :: xs =>
    match f x with
    | .error e => .error e
    | .ok () => checkAll f xs

/-- comparison of two links (/repo/src/hnsw.rs 1691-1697) -/
def checkLink (x : PWO T × PWO T') : Except Panic Unit := do
  assertP (decide (x.1.pt.origin = x.2.pt.origin))
  assertP (decide (x.1.pt.pid = x.2.pt.pid))
  assertP (x.1.dist.eqf x.2.dist)

/-- comparison of two lists of neighbours (/repo/src/hnsw.rs 1689-1699) -/
def checkNeighbours (l1 : List (PWO T)) (l2 : List (PWO T')) : Except Panic Unit := do
  assertP (decide (l1.length = l2.length))
  checkAll checkLink (l1.zip l2)

/-- comparison of two points (/repo/src/hnsw.rs 1675-1700); each has a list per layer, `nbLayerMax` of
them, so that the test on their number (1687) passes -/
def checkPoint (s1 : Idx T) (s2 : Idx T') (x : Ref T × Ref T') : Except Panic Unit := do
  assertP (decide (x.1.origin = x.2.origin))
  assertP (decide (x.1.pid = x.2.pid))
  checkAll (fun k => checkNeighbours (s1.nb x.1.pid k) (s2.nb x.2.pid k)) (List.range nbLayerMax)

/-- comparison of layer `i` (/repo/src/hnsw.rs 1670-1701) -/
def checkLayer (s1 : Idx T) (s2 : Idx T') (i : Nat) : Except Panic Unit :=
  match s1.layers[i]?, s2.layers[i]? with
  | some l1, some l2 => do
    assertP (decide (l1.length = l2.length))
    checkAll (checkPoint s1 s2) (l1.zip l2)
  | _, _ => .error .index

/-- comparison of the entry points (/repo/src/hnsw.rs 1651-1664); the first test looks twice at the
first index, the absence of the second entry point is found by `unwrap` -/
def checkEntries (s1 : Idx T) (s2 : Idx T') : Except Panic Unit :=
  match s1.entry, s2.entry with
  | none, _ => .error .assertion
  | some _, none => .error .unwrapNone
  | some e1, some e2 => do
    assertP (decide (e1.origin = e2.origin))
    assertP (decide (e1.pid = e2.pid))

/-- `check_graph_equality` (/repo/src/hnsw.rs 1640-1706): returns or panics. -/
def checkGraph (s1 : Idx T) (s2 : Idx T') : Except Panic Unit := do
  assertP (decide (getNbPoint s1 = getNbPoint s2))
  checkEntries s1 s2
  checkAll (checkLayer s1 s2) (List.range nbLayerMax)
  assertP (decide (((List.range nbLayerMax).map fun i => (s1.layer i).length).sum = getNbPoint s1))

/-! ## Lemmas -/

theorem assertP_ok {b : Bool} : assertP b = .ok () ↔ b = true := by
  unfold assertP
  split
  · simp_all
  · simp_all

theorem bindU_ok {a b : Except Panic Unit} :
    (a >>= fun _ => b) = .ok () ↔ a = .ok () ∧ b = .ok () := by
  cases a with
  | error e => simp [bind, Except.bind]
  | ok u => simp [bind, Except.bind]

theorem checkAll_ok {α : Type} {f : α → Except Panic Unit} {l : List α} :
    checkAll f l = .ok () ↔ ∀ x ∈ l, f x = .ok () := by
  induction l with
  | nil => simp [checkAll]
  | cons x xs ih =>
    simp only [checkAll, List.mem_cons, forall_eq_or_imp]
    cases h : f x with
    | error e => simp
    | ok u => simp [ih]

theorem zip_map_eq {α β γ : Type} {f : α → γ} {g : β → γ} : ∀ {l1 : List α} {l2 : List β},
    l1.length = l2.length → (∀ x ∈ l1.zip l2, f x.1 = g x.2) → l1.map f = l2.map g := by
  intro l1
  induction l1 with
  | nil => intro l2 h _; cases l2 with
    | nil => rfl
    | cons => cases h
  | cons a l1 ih =>
    intro l2 h hz
    cases l2 with
    | nil => cases h
    | cons b l2 =>
      simp only [List.zip_cons_cons, List.mem_cons, forall_eq_or_imp] at hz
      simp only [List.map_cons, List.cons.injEq]
      exact ⟨hz.1, ih (by simpa using h) hz.2⟩

theorem zip_of_map_eq {α β γ : Type} {f : α → γ} {g : β → γ} : ∀ {l1 : List α} {l2 : List β},
    l1.map f = l2.map g → l1.length = l2.length ∧ ∀ x ∈ l1.zip l2, f x.1 = g x.2 := by
  intro l1
  induction l1 with
  | nil => intro l2 h; cases l2 with
    | nil => simp
    | cons => cases h
  | cons a l1 ih =>
    intro l2 h
    cases l2 with
    | nil => cases h
    | cons b l2 =>
      simp only [List.map_cons, List.cons.injEq] at h
      have := ih h.2
      simp only [List.zip_cons_cons, List.mem_cons, forall_eq_or_imp, List.length_cons]
      exact ⟨by omega, h.1, this.2⟩

/-- what is compared of a link -/
def linkKey (e : PWO T) : DataId × PointId × Int := (e.pt.origin, e.pt.pid, e.dist.key)

theorem checkNeighbours_ok {l1 : List (PWO T)} {l2 : List (PWO T')} :
    checkNeighbours l1 l2 = .ok () ↔ l1.map linkKey = l2.map linkKey ∧
      (∀ e ∈ l1, e.dist.isNaN = false) ∧ ∀ e ∈ l2, e.dist.isNaN = false := by
  unfold checkNeighbours
  rw [bindU_ok, assertP_ok, checkAll_ok]
  have hlink : ∀ x : PWO T × PWO T', checkLink x = .ok () ↔
      linkKey x.1 = linkKey x.2 ∧ x.1.dist.isNaN = false ∧ x.2.dist.isNaN = false := by
    intro x
    unfold checkLink
    rw [bindU_ok, bindU_ok, assertP_ok, assertP_ok, assertP_ok]
    simp only [F32.eqf, linkKey, decide_eq_true_eq, Bool.and_eq_true, Bool.not_eq_true',
      Prod.mk.injEq]
    constructor
    · rintro ⟨h1, h2, ⟨h3, h4⟩, h5⟩; exact ⟨⟨h1, h2, h5⟩, h3, h4⟩
    · rintro ⟨⟨h1, h2, h5⟩, h3, h4⟩; exact ⟨h1, h2, ⟨h3, h4⟩, h5⟩
  constructor
  · rintro ⟨h1, h2⟩
    simp only [decide_eq_true_eq] at h1
    refine ⟨zip_map_eq h1 (fun x hx => ((hlink x).1 (h2 x hx)).1), ?_, ?_⟩
    · intro e he
      obtain ⟨i, hi, rfl⟩ := List.getElem_of_mem he
      have : (l1[i], l2[i]'(by omega)) ∈ l1.zip l2 :=
        List.mem_iff_getElem.2 ⟨i, by simp; omega, by simp⟩
      exact ((hlink _).1 (h2 _ this)).2.1
    · intro e he
      obtain ⟨i, hi, rfl⟩ := List.getElem_of_mem he
      have : (l1[i]'(by omega), l2[i]) ∈ l1.zip l2 :=
        List.mem_iff_getElem.2 ⟨i, by simp; omega, by simp⟩
      exact ((hlink _).1 (h2 _ this)).2.2
  · rintro ⟨h1, h2, h3⟩
    have h4 := zip_of_map_eq h1
    refine ⟨by simpa using h4.1, ?_⟩
    intro x hx
    exact (hlink x).2 ⟨h4.2 x hx, h2 _ (List.of_mem_zip hx).1, h3 _ (List.of_mem_zip hx).2⟩

/-- what is compared of a point -/
def pointKey (p : Ref T) : DataId × PointId := (p.origin, p.pid)

theorem checkPoint_ok {s1 : Idx T} {s2 : Idx T'} {x : Ref T × Ref T'} :
    checkPoint s1 s2 x = .ok () ↔ pointKey x.1 = pointKey x.2 ∧
      ∀ k < nbLayerMax, checkNeighbours (s1.nb x.1.pid k) (s2.nb x.2.pid k) = .ok () := by
  unfold checkPoint
  rw [bindU_ok, bindU_ok, assertP_ok, assertP_ok, checkAll_ok]
  simp only [decide_eq_true_eq, pointKey, Prod.mk.injEq, List.mem_range]
  constructor
  · rintro ⟨h1, h2, h3⟩; exact ⟨⟨h1, h2⟩, h3⟩
  · rintro ⟨⟨h1, h2⟩, h3⟩; exact ⟨h1, h2, h3⟩

theorem checkLayer_ok {s1 : Idx T} {s2 : Idx T'} {i : Nat} :
    checkLayer s1 s2 i = .ok () ↔ i < s1.layers.length ∧ i < s2.layers.length ∧
      (s1.layer i).map pointKey = (s2.layer i).map pointKey ∧
      ∀ p ∈ s1.layer i, ∀ k < nbLayerMax,
        checkNeighbours (s1.nb p.pid k) (s2.nb p.pid k) = .ok () := by
  unfold checkLayer Idx.layer
  cases h1 : s1.layers[i]? with
  | none =>
    rw [List.getElem?_eq_none_iff] at h1
    simp
    omega
  | some l1 =>
    cases h2 : s2.layers[i]? with
    | none =>
      rw [List.getElem?_eq_none_iff] at h2
      simp
      omega
    | some l2 =>
      have h1' := (List.getElem?_eq_some_iff.1 h1).1
      have h2' := (List.getElem?_eq_some_iff.1 h2).1
      simp only [Option.getD_some]
      rw [bindU_ok, assertP_ok, checkAll_ok]
      simp only [decide_eq_true_eq, h1', h2', true_and, checkPoint_ok]
      constructor
      · rintro ⟨h3, h4⟩
        refine ⟨zip_map_eq h3 (fun x hx => (h4 x hx).1), ?_⟩
        intro p hp k hk
        obtain ⟨j, hj, rfl⟩ := List.getElem_of_mem hp
        have hm : (l1[j], l2[j]'(by omega)) ∈ l1.zip l2 :=
          List.mem_iff_getElem.2 ⟨j, by simp; omega, by simp⟩
        have h5 := h4 _ hm
        have h6 := h5.2 k hk
        have h7 : l1[j].pid = (l2[j]'(by omega)).pid := congrArg Prod.snd h5.1
        rw [← h7] at h6
        exact h6
      · rintro ⟨h3, h4⟩
        have h5 := zip_of_map_eq h3
        refine ⟨h5.1, ?_⟩
        intro x hx
        refine ⟨h5.2 x hx, fun k hk => ?_⟩
        have h6 : x.1.pid = x.2.pid := congrArg Prod.snd (h5.2 x hx)
        rw [← h6]
        exact h4 _ (List.of_mem_zip hx).1 k hk

theorem checkEntries_ok {s1 : Idx T} {s2 : Idx T'} :
    checkEntries s1 s2 = .ok () ↔ s1.entry ≠ none ∧ s1.entry.map pointKey = s2.entry.map pointKey := by
  unfold checkEntries
  cases h1 : s1.entry with
  | none => simp
  | some e1 =>
    cases h2 : s2.entry with
    | none => simp
    | some e2 =>
      simp only
      rw [bindU_ok, assertP_ok, assertP_ok]
      simp [pointKey]

/-- the outcome of the comparison, without loops -/
theorem checkGraph_ok {s1 : Idx T} {s2 : Idx T'} :
    checkGraph s1 s2 = .ok () ↔ s1.nbPoint = s2.nbPoint ∧ s1.entry ≠ none ∧
      s1.entry.map pointKey = s2.entry.map pointKey ∧
      nbLayerMax ≤ s1.layers.length ∧ nbLayerMax ≤ s2.layers.length ∧
      (∀ i < nbLayerMax, (s1.layer i).map pointKey = (s2.layer i).map pointKey) ∧
      (∀ i < nbLayerMax, ∀ p ∈ s1.layer i, ∀ k < nbLayerMax,
        (s1.nb p.pid k).map linkKey = (s2.nb p.pid k).map linkKey ∧
        (∀ e ∈ s1.nb p.pid k, e.dist.isNaN = false) ∧ ∀ e ∈ s2.nb p.pid k, e.dist.isNaN = false) ∧
      ((List.range nbLayerMax).map fun i => (s1.layer i).length).sum = s1.nbPoint := by
  unfold checkGraph
  rw [bindU_ok, bindU_ok, bindU_ok, assertP_ok, assertP_ok, checkAll_ok, checkEntries_ok]
  rw [decide_eq_true_iff, decide_eq_true_iff]
  simp only [List.mem_range, checkLayer_ok, checkNeighbours_ok]
  show s1.nbPoint = s2.nbPoint ∧ _ ∧ _ ∧ _ = s1.nbPoint ↔ _
  constructor
  · rintro ⟨h1, ⟨h2, h3⟩, h4, h5⟩
    refine ⟨h1, h2, h3, ?_, ?_, fun i hi => (h4 i hi).2.2.1, fun i hi => (h4 i hi).2.2.2, h5⟩
    · have := (h4 15 (by decide)).1
      simp only [nbLayerMax]; omega
    · have := (h4 15 (by decide)).2.1
      simp only [nbLayerMax]; omega
  · rintro ⟨h1, h2, h3, h4, h5, h6, h7, h8⟩
    exact ⟨h1, ⟨h2, h3⟩, fun i hi => ⟨by omega, by omega, h6 i hi, h7 i hi⟩, h8⟩

end Verif
