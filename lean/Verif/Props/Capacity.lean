import Verif.Capacity
import Verif.Props.Search
import Verif.Props.AnySearch

set_option autoImplicit false

/-!
# C135: the memory reserved by a search

A search reserves its two heaps for `max ef knbn` elements, whatever the number of points (/repo/src/hnsw.rs 929-931, 949-950,
1506).  `searchFilterMem avail …` is the search when the allocator can give `avail` bytes to these heaps; the growth of the
heaps by pushes, and the other allocations, always succeed in the model.
-/

namespace Verif
variable {T : Type} {P : Policy T} {cfg : Cfg T} {s : Idx T}

/-- the outcome of a search in an index that is not empty -/
theorem nav135_outcome (h : Navig s) (hne : s.points ≠ []) (avail : Nat) (q : List T) (knbn efArg : Nat)
    (filt : Option (DataId → Bool)) :
    searchFilterMem avail P cfg s q knbn efArg filt =
      if 2 ^ 60 ≤ max efArg knbn then .error .capacity
      else if avail < 16 * max 2 (max efArg knbn) then .error .alloc
      else .ok (searchFilter P cfg s q knbn efArg filt) := by
  obtain ⟨l, hl, hl'⟩ := lowestLayer_some hne
  obtain ⟨r, rs, hlay⟩ := layer_of_lowest hl'
  cases he : s.entry with
  | none => exact absurd he (h.start hne)
  | some ep =>
    unfold searchFilterMem searchFilter searchLayerMem searchLayer withCapacity
    simp only [he, hl, hlay]
    by_cases h1 : 2 ^ 60 ≤ max efArg knbn
    · have e1 : 2 ^ 63 - 1 < 8 * max (max efArg knbn) 2 := by omega
      simp only [h1, e1, if_true]
    · have e1 : ¬ 2 ^ 63 - 1 < 8 * max (max efArg knbn) 2 := by omega
      simp only [h1, e1, if_false]
      by_cases h2 : avail < 16 * max 2 (max efArg knbn)
      · simp only [h2, if_true]
        by_cases h3 : avail < 8 * max (max efArg knbn) 2
        · simp only [h3, if_true]
        · have h4 : avail - 8 * max (max efArg knbn) 2 < 8 * max (max efArg knbn) 2 := by omega
          simp only [h3, h4, if_true, if_false]
      · have h3 : ¬ avail < 8 * max (max efArg knbn) 2 := by omega
        have h4 : ¬ avail - 8 * max (max efArg knbn) 2 < 8 * max (max efArg knbn) 2 := by omega
        simp only [h2, h3, h4, if_false]
        split <;> simp_all
        split <;> simp_all

/-- the same search, asked for no more than the number of points plus one, in 16 bytes for each point and 16 more -/
theorem nav135_clamp (L : P.Lawful) (h : Navig s) (avail : Nat) (hn : s.points.length + 1 < 2 ^ 60)
    (ha : 16 * (s.points.length + 1) ≤ avail) (q : List T) (knbn efArg : Nat) (filt : Option (DataId → Bool)) :
    searchFilterMem avail P cfg s q (min knbn (s.points.length + 1)) (min efArg (s.points.length + 1)) filt =
      .ok (searchFilter P cfg s q knbn efArg filt) := by
  rw [searchFilter_clamp L h knbn efArg filt]
  by_cases hne : s.points = []
  · have he := nav_entry_none h hne
    unfold searchFilterMem searchFilter
    simp only [he]
  · have hl : 1 ≤ s.points.length := List.length_pos_iff.2 hne
    rw [nav135_outcome h hne, if_neg (by omega), if_neg (by omega)]

/-- **C135** (exact outcome) With `m = max 2 (max ef knbn)`, a search in an index that is not empty panics (capacity
overflow) when `ef` or `knbn` is at least `2^60`, aborts the process when `16 m` bytes cannot be given, and otherwise is the
search of the model: nothing else of the index matters. -/
theorem C135_outcome (L : P.Lawful) (hr : Reach P cfg s) (hne : s.points ≠ []) (avail : Nat) (q : List T) (knbn efArg : Nat)
    (filt : Option (DataId → Bool)) :
    searchFilterMem avail P cfg s q knbn efArg filt =
      if 2 ^ 60 ≤ max efArg knbn then .error .capacity
      else if avail < 16 * max 2 (max efArg knbn) then .error .alloc
      else .ok (searchFilter P cfg s q knbn efArg filt) :=
  nav135_outcome (hr.good L).nav hne avail q knbn efArg filt

/-- **C135** (empty index) A search in an empty index reserves nothing. -/
theorem C135_empty (L : P.Lawful) (hr : Reach P cfg s) (hne : s.points = []) (avail : Nat) (q : List T) (knbn efArg : Nat)
    (filt : Option (DataId → Bool)) : searchFilterMem avail P cfg s q knbn efArg filt = .ok (.ok []) := by
  unfold searchFilterMem
  rw [reach_entry_none L hr hne]

/-- **C135** (requests above the number of points) Replacing `knbn` and `ef` by `n + 1` when they are above, where `n` is the
number of points, changes neither the answers nor the panics, for any distance, filter and heap. -/
theorem C135_clamp (L : P.Lawful) (hr : Reach P cfg s) (q : List T) (knbn efArg : Nat) (filt : Option (DataId → Bool)) :
    searchFilter P cfg s q knbn efArg filt =
      searchFilter P cfg s q (min knbn (s.points.length + 1)) (min efArg (s.points.length + 1)) filt :=
  searchFilter_clamp L (hr.good L).nav knbn efArg filt

/-- **C135** (partial: `knbn` and `ef` are at most the number of points plus one, or replaced by it) The search needs at most
16 bytes for each point, plus 16.  Missing: other requests (`C135_refuted`). -/
theorem C135_fits_partial (L : P.Lawful) (hr : Reach P cfg s) (avail : Nat) (hn : s.points.length + 1 < 2 ^ 60)
    (ha : 16 * (s.points.length + 1) ≤ avail) (q : List T) (knbn efArg : Nat) (filt : Option (DataId → Bool)) :
    searchFilterMem avail P cfg s q (min knbn (s.points.length + 1)) (min efArg (s.points.length + 1)) filt =
      .ok (searchFilter P cfg s q knbn efArg filt) :=
  nav135_clamp L (hr.good L).nav avail hn ha q knbn efArg filt

example : Reach (listPolicy Nat) (exCfg 3) ex4 ∧ ex4.points.length = 4 ∧
    searchFilterMem 80 (listPolicy Nat) (exCfg 3) ex4 [26] 3 5 (some fun i => i != 25) =
      .ok (searchFilter (listPolicy Nat) (exCfg 3) ex4 [26] 3 5 (some fun i => i != 25)) ∧
    (searchFilterMem 79 (listPolicy Nat) (exCfg 3) ex4 [26] 3 5 none).toOption = none ∧
    (searchFilter (listPolicy Nat) (exCfg 3) ex4 [26] 3000 7000 (some fun i => i != 25)).map (·.map (·.dId)) =
      .ok [30, 20, 10] :=
  ⟨ex4_reach, by decide +kernel, C135_fits_partial listPolicy_lawful ex4_reach 80 (by decide +kernel) (by decide +kernel)
    [26] 3 5 _, by decide +kernel, rfl⟩

/-- one point -/
def exLone : Idx Nat := exIdx (exCfg 3) [(10, 0)]

/-- **C135** (refuted) No amount of memory in proportion to the number of points is enough for the searches of all requests: in
an index of one point, a search for `2^60` neighbours panics whatever the memory, and smaller ones abort. -/
theorem C135_refuted : Reach (listPolicy Nat) (exCfg 3) exLone ∧ exLone.points.length = 1 ∧
    (∀ avail q, searchFilterMem avail (listPolicy Nat) (exCfg 3) exLone q (2 ^ 60) 1 none = .error .capacity) ∧
    ∀ (avail : Nat) (q : List Nat), avail < 2 ^ 60 →
      ∃ knbn, knbn < 2 ^ 60 ∧ searchFilterMem avail (listPolicy Nat) (exCfg 3) exLone q knbn 1 none = .error .alloc := by
  have hr : Reach (listPolicy Nat) (exCfg 3) exLone := exIdx_reach _ _ (by decide)
  have hl : exLone.points.length = 1 := by decide +kernel
  have hne : exLone.points ≠ [] := by
    intro h
    rw [h] at hl
    cases hl
  refine ⟨hr, hl, fun avail q => ?_, fun avail q ha => ⟨max 2 avail, by omega, ?_⟩⟩
  · rw [C135_outcome listPolicy_lawful hr hne, if_pos (by omega)]
  · rw [C135_outcome listPolicy_lawful hr hne, if_neg (by omega), if_pos (by omega)]

section
variable {ty : Ty T} {defScale : Nat → F64} {dist : Dist T} {io : HnswIo} {fs : Dir} {x : Loaded T} {c : CSt T}

/-- **C135** (reloaded) The same in an index reloaded from any files, damaged or not, then grown by any insertions. -/
theorem C135_reloaded_outcome (L : P.Lawful) (hx : LoadsOk P ty defScale dist io fs x) (h : Resumed P x.hnsw c) (avail : Nat)
    (q : List T) (knbn efArg : Nat) (filt : Option (DataId → Bool)) :
    searchFilterMem avail P x.hnsw.cfg c.idx q knbn efArg filt =
      if 2 ^ 60 ≤ max efArg knbn then .error .capacity
      else if avail < 16 * max 2 (max efArg knbn) then .error .alloc
      else .ok (searchFilter P x.hnsw.cfg c.idx q knbn efArg filt) :=
  nav135_outcome (h.navig L hx).1 (h.navig L hx).2 avail q knbn efArg filt

/-- **C135** (reloaded, requests above the number of points) -/
theorem C135_reloaded_clamp (L : P.Lawful) (hx : LoadsOk P ty defScale dist io fs x) (h : Resumed P x.hnsw c)
    (q : List T) (knbn efArg : Nat) (filt : Option (DataId → Bool)) :
    searchFilter P x.hnsw.cfg c.idx q knbn efArg filt =
      searchFilter P x.hnsw.cfg c.idx q (min knbn (c.idx.points.length + 1)) (min efArg (c.idx.points.length + 1)) filt :=
  searchFilter_clamp L (h.navig L hx).1 knbn efArg filt

/-- An index reloaded from damaged files (a point linked to itself), then extended: a search for `2^59` neighbours aborts for
lack of memory, one for `2^60` panics, although a search for 6 of them gives all the answers. -/
example : ∃ x, LoadsOk (listPolicy UInt8) u8Ty exScale u8Dist (HnswIo.new "a" .default) (damaged 137 0) x ∧
    Resumed (listPolicy UInt8) x.hnsw (selfNext x) ∧ (selfNext x).idx.points.length = 5 ∧
    searchFilterMem (2 ^ 40) (listPolicy UInt8) x.hnsw.cfg (selfNext x).idx [26, 0] (2 ^ 59) 10 none = .error .alloc ∧
    searchFilterMem (2 ^ 40) (listPolicy UInt8) x.hnsw.cfg (selfNext x).idx [26, 0] (2 ^ 60) 10 none = .error .capacity ∧
    idsOf (searchFilter (listPolicy UInt8) x.hnsw.cfg (selfNext x).idx [26, 0] (2 ^ 59) 10 none) = some [5, 9, 8, 3, 7] := by
  obtain ⟨x, hx, h⟩ := self_loads (f := fun x => x.hnsw.idx.layers.length == 16 &&
    (selfNext x).idx.points.length == 5 &&
    idsOf (searchFilter (listPolicy UInt8) x.hnsw.cfg (selfNext x).idx [26, 0] 6 6 none) == some [5, 9, 8, 3, 7])
    (by decide +kernel)
  simp only [Bool.and_eq_true, beq_iff_eq] at h
  obtain ⟨⟨h1, h2⟩, h3⟩ := h
  have hr : Resumed (listPolicy UInt8) x.hnsw (selfNext x) :=
    (C111_insert_partial (ext := true) (kp := false) listPolicy_lawful hx .start ⟨[11, 1], 3, 0⟩ (by rw [h1]; decide)).2.1
  refine ⟨x, hx, hr, h2, ?_, ?_, ?_⟩
  · rw [C135_reloaded_outcome listPolicy_lawful hx hr, if_neg (by decide), if_pos (by decide)]
  · rw [C135_reloaded_outcome listPolicy_lawful hx hr, if_pos (by decide)]
  · rw [C135_reloaded_clamp listPolicy_lawful hx hr, h2]
    exact h3

end

end Verif
