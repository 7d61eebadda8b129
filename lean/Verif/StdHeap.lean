import Verif.Heap
import Verif.Concrete

set_option autoImplicit false

/-!
# The heap and the sort of the standard library

`BinaryHeap` of `alloc` (not part of /repo), on the vector of its elements: `push`, `pop`, `peek`,
`into_sorted_vec`, written with exchanges instead of a hole.  Elements are compared with `<=`, `>=` and `<`,
that is with `partial_cmp` of `PointWithOrder` (/repo/src/hnsw.rs 283-287): all three are false on NaN.
`sort_unstable` is insertion sort, as the library does up to 20 elements.

`stdPolicy_lawful`: they obey the laws assumed of the containers.
-/

namespace Verif
variable {T : Type}

/-- `self <= other` (/repo/src/hnsw.rs 283-287). -/
def PWO.leP (a b : PWO T) : Bool := a.dist.le b.dist

/-- `self < other` (/repo/src/hnsw.rs 283-287). -/
def PWO.ltP (a b : PWO T) : Bool := a.dist.lt b.dist

/-- exchange of two elements -/
def swapAt (l : List (PWO T)) (i j : Nat) : List (PWO T) :=
  match l[i]?, l[j]? with
  | some a, some b => (l.set i b).set j a
  | _, _ => l

/-- a comparison of two elements -/
def cmpAt (f : PWO T → PWO T → Bool) (l : List (PWO T)) (i j : Nat) : Bool :=
  match l[i]?, l[j]? with
  | some a, some b => f a b
  | _, _ => false

/-- `sift_up(0, pos)`; the first argument bounds the number of steps -/
def siftUp : Nat → List (PWO T) → Nat → List (PWO T)
  | 0, l, _ => l
  | n + 1, l, pos =>
    if pos = 0 then l
    else if cmpAt PWO.leP l pos ((pos - 1) / 2) = true then l
    else siftUp n (swapAt l pos ((pos - 1) / 2)) ((pos - 1) / 2)

/-- the larger of the two children at `c`, `c + 1` -/
def childOf (l : List (PWO T)) (c : Nat) : Nat := if cmpAt PWO.leP l c (c + 1) = true then c + 1 else c

/-- first part of `sift_down_to_bottom(pos)`: the element goes down to a leaf -/
def downToBottom : Nat → List (PWO T) → Nat → List (PWO T) × Nat
  | 0, l, pos => (l, pos)
  | n + 1, l, pos =>
    if 2 * pos + 2 < l.length then
      downToBottom n (swapAt l pos (childOf l (2 * pos + 1))) (childOf l (2 * pos + 1))
    else if 2 * pos + 1 < l.length then (swapAt l pos (2 * pos + 1), 2 * pos + 1)
    else (l, pos)

/-- `sift_down_range(pos, end)` -/
def siftDownRange : Nat → List (PWO T) → Nat → Nat → List (PWO T)
  | 0, l, _, _ => l
  | n + 1, l, pos, e =>
    if 2 * pos + 2 < e then
      if cmpAt (fun a b => b.leP a) l pos (childOf l (2 * pos + 1)) = true then l
      else siftDownRange n (swapAt l pos (childOf l (2 * pos + 1))) (childOf l (2 * pos + 1)) e
    else if 2 * pos + 1 < e then
      if cmpAt PWO.ltP l pos (2 * pos + 1) = true then swapAt l pos (2 * pos + 1) else l
    else l

/-- `BinaryHeap::push` -/
def heapPush (l : List (PWO T)) (x : PWO T) : List (PWO T) := siftUp l.length (l ++ [x]) l.length

/-- `BinaryHeap::pop` -/
def heapPop (l : List (PWO T)) : Option (PWO T × List (PWO T)) :=
  match l with
  | [] => none
  | r :: rest =>
    match rest.getLast? with
    | none => some (r, [])
    | some x =>
      let d := downToBottom l.length (x :: rest.dropLast) 0
      some (r, siftUp l.length d.1 d.2)

/-- the loop of `into_sorted_vec` -/
def heapSortLoop : Nat → List (PWO T) → List (PWO T)
  | 0, l => l
  | e + 1, l => if e = 0 then l else heapSortLoop e (siftDownRange l.length (swapAt l 0 e) 0 e)

/-- insertion of the tail in a sorted prefix, given backwards -/
def insertTail (x : PWO T) : List (PWO T) → List (PWO T)
  | [] => [x]
  | y :: ys => if x.ltP y = true then y :: insertTail x ys else x :: y :: ys

/-- insertion sort -/
def insertionSort (l : List (PWO T)) : List (PWO T) := (l.foldl (fun acc x => insertTail x acc) []).reverse

/-- the containers of the standard library; a hash table read in the order of insertion -/
def stdPolicy (T : Type) : Policy T where
  H := List (PWO T)
  empty := []
  push := heapPush
  pop := heapPop
  items h := h
  intoSorted h := heapSortLoop h.length h
  sort := insertionSort
  hashOrder _ _ _ r := r
  pushPanics _ _ := false
  intoSortedPanics _ := false
  sortPanics _ := false

/-! ## contents -/

theorem swapAt_perm (l : List (PWO T)) (i j : Nat) : (swapAt l i j).Perm l := by
  unfold swapAt
  split
  · rename_i a b ha hb
    obtain ⟨hi, rfl⟩ := List.getElem?_eq_some_iff.1 ha
    obtain ⟨hj, rfl⟩ := List.getElem?_eq_some_iff.1 hb
    exact List.set_set_perm hi hj
  · exact List.Perm.refl _

theorem swapAt_length (l : List (PWO T)) (i j : Nat) : (swapAt l i j).length = l.length :=
  (swapAt_perm l i j).length_eq

theorem siftUp_perm : ∀ (n : Nat) (l : List (PWO T)) (pos : Nat), (siftUp n l pos).Perm l := by
  intro n
  induction n with
  | zero => intro l pos; exact List.Perm.refl _
  | succ n ih =>
    intro l pos
    simp only [siftUp]
    split
    · exact List.Perm.refl _
    · split
      · exact List.Perm.refl _
      · exact (ih _ _).trans (swapAt_perm _ _ _)

theorem downToBottom_perm : ∀ (n : Nat) (l : List (PWO T)) (pos : Nat), (downToBottom n l pos).1.Perm l := by
  intro n
  induction n with
  | zero => intro l pos; exact List.Perm.refl _
  | succ n ih =>
    intro l pos
    simp only [downToBottom]
    split
    · exact (ih _ _).trans (swapAt_perm _ _ _)
    · split
      · exact swapAt_perm _ _ _
      · exact List.Perm.refl _

theorem siftDownRange_perm : ∀ (n : Nat) (l : List (PWO T)) (pos e : Nat),
    (siftDownRange n l pos e).Perm l := by
  intro n
  induction n with
  | zero => intros; exact List.Perm.refl _
  | succ n ih =>
    intro l pos e
    simp only [siftDownRange]
    split
    · split
      · exact List.Perm.refl _
      · exact (ih _ _ _).trans (swapAt_perm _ _ _)
    · split
      · split
        · exact swapAt_perm _ _ _
        · exact List.Perm.refl _
      · exact List.Perm.refl _

theorem heapSortLoop_perm : ∀ (e : Nat) (l : List (PWO T)), (heapSortLoop e l).Perm l := by
  intro e
  induction e with
  | zero => intro l; exact List.Perm.refl _
  | succ e ih =>
    intro l
    simp only [heapSortLoop]
    split
    · exact List.Perm.refl _
    · exact (ih _).trans ((siftDownRange_perm _ _ _ _).trans (swapAt_perm _ _ _))

theorem heapPush_perm (l : List (PWO T)) (x : PWO T) : (heapPush l x).Perm (x :: l) :=
  (siftUp_perm _ _ _).trans (List.perm_append_singleton x l)

/-- shape of the list of a heap of two elements or more after its last element was taken -/
theorem last_split {rest : List (PWO T)} {x : PWO T} (h : rest.getLast? = some x) :
    rest = rest.dropLast ++ [x] := by
  cases rest with
  | nil => cases h
  | cons a l =>
    rw [List.getLast?_eq_some_getLast (by simp)] at h
    injection h with h
    rw [← h]
    exact (List.dropLast_concat_getLast (by simp)).symm

theorem heapPop_perm {l : List (PWO T)} {x : PWO T} {l' : List (PWO T)} (h : heapPop l = some (x, l')) :
    l.Perm (x :: l') := by
  unfold heapPop at h
  cases l with
  | nil => cases h
  | cons r rest =>
    simp only at h
    split at h
    · rename_i hn
      rw [List.getLast?_eq_none_iff] at hn
      subst hn
      cases h
      exact List.Perm.refl _
    · rename_i y hy
      injection h with h
      rw [Prod.mk.injEq] at h
      obtain ⟨rfl, rfl⟩ := h
      refine List.Perm.cons _ (List.Perm.symm ?_)
      refine (siftUp_perm _ _ _).trans ((downToBottom_perm _ _ _).trans ?_)
      conv => rhs; rw [last_split hy]
      exact (List.perm_append_singleton _ _).symm

theorem insertTail_perm (x : PWO T) (l : List (PWO T)) : (insertTail x l).Perm (x :: l) := by
  induction l with
  | nil => exact List.Perm.refl _
  | cons y l ih =>
    simp only [insertTail]
    split
    · exact (ih.cons y).trans (List.Perm.swap x y l)
    · exact List.Perm.refl _

theorem insertFold_perm : ∀ (l acc : List (PWO T)),
    (l.foldl (fun acc x => insertTail x acc) acc).Perm (l ++ acc) := by
  intro l
  induction l with
  | nil => intro acc; exact List.Perm.refl _
  | cons x l ih =>
    intro acc
    simp only [List.foldl_cons]
    refine (ih _).trans (((insertTail_perm x acc).append_left l).trans ?_)
    exact List.perm_middle

theorem insertionSort_perm (l : List (PWO T)) : (insertionSort l).Perm l := by
  unfold insertionSort
  refine (List.reverse_perm _).trans ?_
  simpa using insertFold_perm l []

/-! ## order -/

/-- key at a position -/
def kf (l : List (PWO T)) (i : Nat) : Int := match l[i]? with | some x => x.dist.key | none => 0

theorem kf_swapAt {l : List (PWO T)} {i j : Nat} (hi : i < l.length) (hj : j < l.length) (k : Nat) :
    kf (swapAt l i j) k = if k = j then kf l i else if k = i then kf l j else kf l k := by
  unfold swapAt
  rw [List.getElem?_eq_getElem hi, List.getElem?_eq_getElem hj]
  simp only [kf, List.getElem?_set, List.length_set]
  by_cases h1 : k = j
  · subst h1
    rw [if_pos rfl, if_pos rfl, if_pos hj, List.getElem?_eq_getElem hi]
  · rw [if_neg (fun h => h1 h.symm), if_neg h1]
    by_cases h2 : k = i
    · subst h2
      rw [if_pos rfl, if_pos rfl, if_pos hi, List.getElem?_eq_getElem hj]
    · rw [if_neg (fun h => h2 h.symm), if_neg h2]

theorem noNaN_at {l : List (PWO T)} (hN : NoNaN l) {i : Nat} (hi : i < l.length) :
    l[i].dist.isNaN = false := hN _ (List.getElem_mem hi)

theorem cmpAt_le {l : List (PWO T)} (hN : NoNaN l) {i j : Nat} (hi : i < l.length) (hj : j < l.length) :
    cmpAt PWO.leP l i j = true ↔ kf l i ≤ kf l j := by
  unfold cmpAt kf
  rw [List.getElem?_eq_getElem hi, List.getElem?_eq_getElem hj]
  simp only [PWO.leP, F32.le_iff, noNaN_at hN hi, noNaN_at hN hj, true_and]

theorem cmpAt_ge {l : List (PWO T)} (hN : NoNaN l) {i j : Nat} (hi : i < l.length) (hj : j < l.length) :
    cmpAt (fun a b => b.leP a) l i j = true ↔ kf l j ≤ kf l i := by
  unfold cmpAt kf
  rw [List.getElem?_eq_getElem hi, List.getElem?_eq_getElem hj]
  simp only [PWO.leP, F32.le_iff, noNaN_at hN hi, noNaN_at hN hj, true_and]

theorem cmpAt_lt {l : List (PWO T)} (hN : NoNaN l) {i j : Nat} (hi : i < l.length) (hj : j < l.length) :
    cmpAt PWO.ltP l i j = true ↔ kf l i < kf l j := by
  unfold cmpAt kf
  rw [List.getElem?_eq_getElem hi, List.getElem?_eq_getElem hj]
  simp only [PWO.ltP, F32.lt_iff, noNaN_at hN hi, noNaN_at hN hj, true_and]

theorem NoNaN.perm {l l' : List (PWO T)} (h : NoNaN l) (hp : l'.Perm l) : NoNaN l' :=
  fun x hx => h x (hp.mem_iff.1 hx)

/-- each element is at most its parent -/
def HeapTo (l : List (PWO T)) (e : Nat) : Prop := ∀ i, 0 < i → i < e → kf l i ≤ kf l ((i - 1) / 2)

theorem siftUp_heap : ∀ (n : Nat) (l : List (PWO T)) (pos : Nat), NoNaN l → pos ≤ n → pos < l.length →
    (∀ i, 0 < i → i < l.length → i ≠ pos → kf l i ≤ kf l ((i - 1) / 2)) →
    (∀ i, 0 < i → i < l.length → (i - 1) / 2 = pos → 0 < pos → kf l i ≤ kf l ((pos - 1) / 2)) →
    HeapTo (siftUp n l pos) l.length := by
  intro n
  induction n with
  | zero =>
    intro l pos _ hn _ h1 _ i hi hl
    exact h1 i hi hl (by omega)
  | succ n ih =>
    intro l pos hN hn hpl h1 h2
    simp only [siftUp]
    by_cases hp : pos = 0
    · rw [if_pos hp]
      exact fun i hi hl => h1 i hi hl (by omega)
    rw [if_neg hp]
    have hpar : (pos - 1) / 2 < l.length := by omega
    by_cases hc : cmpAt PWO.leP l pos ((pos - 1) / 2) = true
    · rw [if_pos hc]
      rw [cmpAt_le hN hpl hpar] at hc
      intro i hi hl
      by_cases hip : i = pos
      · rw [hip]; exact hc
      · exact h1 i hi hl hip
    · rw [if_neg hc]
      rw [cmpAt_le hN hpl hpar] at hc
      have hk := kf_swapAt hpl hpar
      have := ih (swapAt l pos ((pos - 1) / 2)) ((pos - 1) / 2) (hN.perm (swapAt_perm _ _ _)) (by omega)
        (by rw [swapAt_length]; exact hpar) ?_ ?_
      · rwa [swapAt_length] at this
      · intro i hi hl hne
        rw [swapAt_length] at hl
        rw [hk, hk]
        have b1 := h1 i hi hl
        have b2 := h2 i hi hl
        by_cases e1 : i = pos
        · subst e1
          rw [if_neg (by omega), if_pos rfl, if_pos rfl]
          omega
        · have b1 := b1 e1
          rw [if_neg hne, if_neg e1]
          by_cases e2 : (i - 1) / 2 = (pos - 1) / 2
          · rw [if_pos e2]
            rw [e2] at b1
            omega
          · rw [if_neg e2]
            by_cases e3 : (i - 1) / 2 = pos
            · rw [if_pos e3]
              exact b2 e3 (by omega)
            · rw [if_neg e3]
              exact b1
      · intro i hi hl hpi hpos
        rw [swapAt_length] at hl
        rw [hk, hk]
        have b0 := h1 ((pos - 1) / 2) hpos (by omega) (by omega)
        rw [if_neg (c := ((pos - 1) / 2 - 1) / 2 = (pos - 1) / 2) (by omega),
          if_neg (c := ((pos - 1) / 2 - 1) / 2 = pos) (by omega), if_neg (c := i = (pos - 1) / 2) (by omega)]
        by_cases e1 : i = pos
        · rw [if_pos e1]; exact b0
        · rw [if_neg e1]
          have := h1 i hi hl e1
          rw [hpi] at this
          omega

theorem childOf_or (l : List (PWO T)) (c : Nat) : childOf l c = c ∨ childOf l c = c + 1 := by
  unfold childOf
  split
  · exact Or.inr rfl
  · exact Or.inl rfl

theorem childOf_max {l : List (PWO T)} (hN : NoNaN l) {c : Nat} (hc : c + 1 < l.length) :
    kf l c ≤ kf l (childOf l c) ∧ kf l (c + 1) ≤ kf l (childOf l c) := by
  unfold childOf
  have := cmpAt_le hN (i := c) (j := c + 1) (by omega) hc
  split
  · rename_i h
    exact ⟨this.1 h, Int.le_refl _⟩
  · rename_i h
    rw [this] at h
    exact ⟨Int.le_refl _, by omega⟩

/-- the element that goes down -/
theorem down_heap : ∀ (n : Nat) (l : List (PWO T)) (pos : Nat), NoNaN l → l.length < n + pos →
    pos < l.length →
    (∀ i, 0 < i → i < l.length → i ≠ pos → (i - 1) / 2 ≠ pos → kf l i ≤ kf l ((i - 1) / 2)) →
    (∀ i, 0 < i → i < l.length → (i - 1) / 2 = pos → 0 < pos → kf l i ≤ kf l ((pos - 1) / 2)) →
    (downToBottom n l pos).2 < l.length ∧
    ∀ i, 0 < i → i < l.length → i ≠ (downToBottom n l pos).2 → (i - 1) / 2 ≠ (downToBottom n l pos).2 ∧
      kf (downToBottom n l pos).1 i ≤ kf (downToBottom n l pos).1 ((i - 1) / 2) := by
  intro n
  induction n with
  | zero => intro l pos _ hn hpl; omega
  | succ n ih =>
    intro l pos hN hn hpl h1 h2
    simp only [downToBottom]
    by_cases hc : 2 * pos + 2 < l.length
    · rw [if_pos hc]
      have hmx := childOf_max hN (c := 2 * pos + 1) (by omega)
      have hor := childOf_or l (2 * pos + 1)
      generalize hcd : childOf l (2 * pos + 1) = c at hmx hor ⊢
      have hcl : c < l.length := by omega
      have hk := kf_swapAt hpl hcl
      have := ih (swapAt l pos c) c (hN.perm (swapAt_perm _ _ _)) (by rw [swapAt_length]; omega)
        (by rw [swapAt_length]; exact hcl) ?_ ?_
      · rwa [swapAt_length] at this
      · intro i hi hl hne hpne
        rw [swapAt_length] at hl
        rw [hk, hk, if_neg hne, if_neg hpne]
        by_cases e1 : i = pos
        · rw [if_pos e1, if_neg (by omega)]
          have := h2 c (by omega) hcl (by omega) (by omega)
          rw [e1]
          exact this
        · rw [if_neg e1]
          by_cases e2 : (i - 1) / 2 = pos
          · rw [if_pos e2]
            have : i = 2 * pos + 1 ∨ i = 2 * pos + 2 := by omega
            rcases this with rfl | rfl
            · exact hmx.1
            · exact hmx.2
          · rw [if_neg e2]
            exact h1 i hi hl e1 e2
      · intro i hi hl hpi _
        rw [swapAt_length] at hl
        rw [hk, hk, if_neg (c := i = c) (by omega), if_neg (c := i = pos) (by omega),
          if_neg (c := (c - 1) / 2 = c) (by omega), if_pos (c := (c - 1) / 2 = pos) (by omega)]
        have := h1 i hi hl (by omega) (by omega)
        rw [hpi] at this
        exact this
    · rw [if_neg hc]
      by_cases hc1 : 2 * pos + 1 < l.length
      · rw [if_pos hc1]
        have hk := kf_swapAt hpl hc1
        refine ⟨hc1, ?_⟩
        intro i hi hl hne
        simp only at hne ⊢
        refine ⟨by omega, ?_⟩
        rw [hk, hk, if_neg hne, if_neg (c := (i - 1) / 2 = 2 * pos + 1) (by omega)]
        by_cases e1 : i = pos
        · rw [if_pos e1, if_neg (by omega)]
          have := h2 (2 * pos + 1) (by omega) hc1 (by omega) (by omega)
          rw [e1]
          exact this
        · rw [if_neg e1]
          by_cases e2 : (i - 1) / 2 = pos
          · omega
          · rw [if_neg e2]
            exact h1 i hi hl e1 e2
      · rw [if_neg hc1]
        refine ⟨hpl, ?_⟩
        intro i hi hl hne
        simp only at hne ⊢
        exact ⟨by omega, h1 i hi hl hne (by omega)⟩

theorem heapPush_heap {l : List (PWO T)} {x : PWO T} (hN : NoNaN l) (hx : x.dist.isNaN = false)
    (h : HeapTo l l.length) : HeapTo (heapPush l x) (heapPush l x).length := by
  have hlen : (heapPush l x).length = l.length + 1 := by rw [(heapPush_perm l x).length_eq]; simp
  have hkf : ∀ i, i < l.length → kf (l ++ [x]) i = kf l i := by
    intro i hi
    unfold kf
    rw [List.getElem?_append_left hi]
  rw [hlen]
  have := siftUp_heap l.length (l ++ [x]) l.length ?_ (Nat.le_refl _) (by simp) ?_ ?_
  · simpa [heapPush] using this
  · intro y hy
    rcases List.mem_append.1 hy with hy | hy
    · exact hN y hy
    · rw [List.mem_singleton.1 hy]; exact hx
  · intro i hi hl hne
    simp only [List.length_append, List.length_singleton] at hl
    rw [hkf i (by omega), hkf _ (by omega)]
    exact h i hi (by omega)
  · intro i hi hl hp
    simp only [List.length_append, List.length_singleton] at hl
    omega

theorem heapPop_heap {l l' : List (PWO T)} {x : PWO T} (hN : NoNaN l) (h : HeapTo l l.length)
    (hp : heapPop l = some (x, l')) : HeapTo l' l'.length := by
  unfold heapPop at hp
  cases l with
  | nil => cases hp
  | cons r rest =>
    simp only at hp
    split at hp
    · cases hp
      intro i hi hl
      simp at hl
    · rename_i y hy
      injection hp with hp
      rw [Prod.mk.injEq] at hp
      obtain ⟨rfl, rfl⟩ := hp
      have hsp := last_split hy
      have hrest : rest.length = rest.dropLast.length + 1 := by
        conv => lhs; rw [hsp]
        simp
      have hl : (y :: rest.dropLast).length = rest.length := by simp only [List.length_cons]; omega
      have hNy : NoNaN (y :: rest.dropLast) := by
        intro z hz
        apply hN
        rw [List.mem_cons, hsp]
        rcases List.mem_cons.1 hz with rfl | hz
        · simp
        · right; simp [hz]
      have hkf : ∀ i, 0 < i → i < rest.length → kf (y :: rest.dropLast) i = kf (r :: rest) i := by
        intro i hi hl
        unfold kf
        cases i with
        | zero => omega
        | succ i =>
          rw [List.getElem?_cons_succ, List.getElem?_cons_succ]
          conv => rhs; rw [hsp]
          rw [List.getElem?_append_left (by omega)]
      have hroot : ∀ i, 0 < i → i < rest.length → i ≠ 0 → (i - 1) / 2 ≠ 0 →
          kf (y :: rest.dropLast) i ≤ kf (y :: rest.dropLast) ((i - 1) / 2) := by
        intro i hi hl _ hp0
        rw [hkf i hi hl, hkf _ (by omega) (by omega)]
        exact h i hi (by simp; omega)
      have hd := down_heap (r :: rest).length (y :: rest.dropLast) 0 hNy
        (by rw [hl]; simp) (by simp) (by rw [hl]; exact hroot) (by intro i _ _ _ h0; omega)
      generalize hdd : downToBottom (r :: rest).length (y :: rest.dropLast) 0 = d at hd
      have hdp : d.1.Perm (y :: rest.dropLast) := by rw [← hdd]; exact downToBottom_perm _ _ _
      have hdl : d.1.length = rest.length := by rw [hdp.length_eq, hl]
      rw [hl] at hd
      have := siftUp_heap (r :: rest).length d.1 d.2 (hNy.perm hdp)
        (by have := hd.1; simp only [List.length_cons]; omega)
        (by rw [hdl]; exact hd.1) (fun i hi hl hne => (hd.2 i hi (by rw [← hdl]; exact hl) hne).2)
        (fun i hi hl hpi hpos => by
          rw [hdl] at hl
          exact absurd hpi (hd.2 i hi hl (by omega)).1)
      rw [(siftUp_perm _ _ _).length_eq]
      exact this

theorem heap_root {l : List (PWO T)} {e : Nat} (h : HeapTo l e) : ∀ (n i : Nat), i ≤ n → i < e → kf l i ≤ kf l 0 := by
  intro n
  induction n with
  | zero => intro i hi _; rw [Nat.le_zero.1 hi]; exact Int.le_refl _
  | succ n ih =>
    intro i hi hie
    by_cases h0 : i = 0
    · rw [h0]; exact Int.le_refl _
    · exact Int.le_trans (h i (by omega) hie) (ih _ (by omega) (by omega))

theorem heapPop_root {l l' : List (PWO T)} {x : PWO T} (hp : heapPop l = some (x, l')) : l[0]? = some x := by
  unfold heapPop at hp
  cases l with
  | nil => cases hp
  | cons r rest =>
    simp only at hp
    split at hp
    · cases hp; rfl
    · injection hp with hp
      rw [Prod.mk.injEq] at hp
      rw [hp.1]
      rfl

theorem std_built {h : (stdPolicy T).H} (hB : (stdPolicy T).Built h) :
    NoNaN ((stdPolicy T).items h) ∧ HeapTo ((stdPolicy T).items h) ((stdPolicy T).items h).length := by
  induction hB with
  | @nil h hn =>
    rw [hn]
    exact ⟨(fun x hx => by cases hx), (fun i hi hl => absurd hl (Nat.not_lt_zero i))⟩
  | @push h x _ hx ih =>
    refine ⟨?_, heapPush_heap ih.1 hx ih.2⟩
    intro y hy
    rcases List.mem_cons.1 ((heapPush_perm h x).mem_iff.1 hy) with rfl | hy
    · exact hx
    · exact ih.1 y hy
  | @pop h h' x _ hp ih =>
    refine ⟨?_, heapPop_heap ih.1 ih.2 hp⟩
    exact fun y hy => ih.1 y ((heapPop_perm hp).mem_iff.2 (List.mem_cons_of_mem _ hy))

/-! ### `into_sorted_vec` -/

/-- `sift_down_range` makes a heap of the first `e` elements and leaves the others -/
theorem siftDownRange_heap : ∀ (n : Nat) (l : List (PWO T)) (pos e : Nat), NoNaN l → e < n + pos →
    e ≤ l.length → pos < e →
    (∀ i, 0 < i → i < e → (i - 1) / 2 ≠ pos → kf l i ≤ kf l ((i - 1) / 2)) →
    (∀ i, 0 < i → i < e → (i - 1) / 2 = pos → 0 < pos → kf l i ≤ kf l ((pos - 1) / 2)) →
    HeapTo (siftDownRange n l pos e) e ∧
    (∀ i, e ≤ i → kf (siftDownRange n l pos e) i = kf l i) := by
  intro n
  induction n with
  | zero => intro l pos e _ hn _ hpe; omega
  | succ n ih =>
    intro l pos e hN hn hel hpe h1 h2
    simp only [siftDownRange]
    have hpl : pos < l.length := by omega
    by_cases hc : 2 * pos + 2 < e
    · rw [if_pos hc]
      have hmx := childOf_max hN (c := 2 * pos + 1) (by omega)
      have hor := childOf_or l (2 * pos + 1)
      generalize hcd : childOf l (2 * pos + 1) = c at hmx hor ⊢
      have hcl : c < l.length := by omega
      by_cases hg : cmpAt (fun a b => b.leP a) l pos c = true
      · rw [if_pos hg]
        rw [cmpAt_ge hN hpl hcl] at hg
        refine ⟨?_, fun _ _ => rfl⟩
        intro i hi hie
        by_cases e2 : (i - 1) / 2 = pos
        · rw [e2]
          have : i = 2 * pos + 1 ∨ i = 2 * pos + 2 := by omega
          rcases this with rfl | rfl
          · exact Int.le_trans hmx.1 hg
          · exact Int.le_trans hmx.2 hg
        · exact h1 i hi hie e2
      · rw [if_neg hg]
        rw [cmpAt_ge hN hpl hcl] at hg
        have hk := kf_swapAt hpl hcl
        have := ih (swapAt l pos c) c e (hN.perm (swapAt_perm _ _ _)) (by omega)
          (by rw [swapAt_length]; exact hel) (by omega) ?_ ?_
        · refine ⟨this.1, fun i hi => ?_⟩
          rw [this.2 i hi, hk, if_neg (by omega), if_neg (by omega)]
        · intro i hi hl hpne
          rw [hk, hk, if_neg hpne]
          by_cases e1 : i = c
          · rw [if_pos e1, e1, if_pos (by omega)]
            omega
          · rw [if_neg e1]
            by_cases e2 : i = pos
            · rw [if_pos e2, if_neg (by omega)]
              have := h2 c (by omega) (by omega) (by omega) (by omega)
              rw [e2]
              exact this
            · rw [if_neg e2]
              by_cases e3 : (i - 1) / 2 = pos
              · rw [if_pos e3]
                have : i = 2 * pos + 1 ∨ i = 2 * pos + 2 := by omega
                rcases this with rfl | rfl
                · exact hmx.1
                · exact hmx.2
              · rw [if_neg e3]
                exact h1 i hi hl e3
        · intro i hi hl hpi _
          rw [hk, hk, if_neg (c := i = c) (by omega), if_neg (c := i = pos) (by omega),
            if_neg (c := (c - 1) / 2 = c) (by omega), if_pos (c := (c - 1) / 2 = pos) (by omega)]
          have := h1 i hi hl (by omega)
          rw [hpi] at this
          exact this
    · rw [if_neg hc]
      by_cases hc1 : 2 * pos + 1 < e
      · rw [if_pos hc1]
        have hcl : 2 * pos + 1 < l.length := by omega
        by_cases hg : cmpAt PWO.ltP l pos (2 * pos + 1) = true
        · rw [if_pos hg]
          rw [cmpAt_lt hN hpl hcl] at hg
          have hk := kf_swapAt hpl hcl
          constructor
          · intro i hi hie
            rw [hk, hk, if_neg (c := (i - 1) / 2 = 2 * pos + 1) (by omega)]
            by_cases e1 : i = 2 * pos + 1
            · rw [if_pos e1, if_pos (by omega)]
              omega
            · rw [if_neg e1]
              by_cases e2 : i = pos
              · rw [if_pos e2, if_neg (by omega), e2]
                exact h2 (2 * pos + 1) (by omega) hc1 (by omega) (by omega)
              · rw [if_neg e2]
                by_cases e3 : (i - 1) / 2 = pos
                · omega
                · rw [if_neg e3]
                  exact h1 i hi hie e3
          · intro i hi
            rw [hk, if_neg (by omega), if_neg (by omega)]
        · rw [if_neg hg]
          rw [cmpAt_lt hN hpl hcl] at hg
          refine ⟨?_, fun _ _ => rfl⟩
          intro i hi hie
          by_cases e3 : (i - 1) / 2 = pos
          · have : i = 2 * pos + 1 := by omega
            rw [e3, this]
            omega
          · exact h1 i hi hie e3
      · rw [if_neg hc1]
        exact ⟨fun i hi hie => h1 i hi hie (by omega), fun _ _ => rfl⟩

theorem siftDownRange_bound : ∀ (n : Nat) (l : List (PWO T)) (pos e : Nat) (M : Int), e ≤ l.length → pos < e →
    (∀ i, i < e → kf l i ≤ M) → ∀ i, i < e → kf (siftDownRange n l pos e) i ≤ M := by
  intro n
  induction n with
  | zero => intro l pos e M _ _ h; exact h
  | succ n ih =>
    intro l pos e M hel hpe h
    have hsw : ∀ c, c < e → ∀ i, i < e → kf (swapAt l pos c) i ≤ M := by
      intro c hc i hi
      rw [kf_swapAt (by omega) (by omega)]
      split
      · exact h pos hpe
      · split
        · exact h c hc
        · exact h i hi
    simp only [siftDownRange]
    have hor := childOf_or l (2 * pos + 1)
    split
    · split
      · exact h
      · exact ih _ _ _ _ (by rw [swapAt_length]; exact hel) (by omega) (hsw _ (by omega))
    · split
      · split
        · exact hsw _ (by omega)
        · exact h
      · exact h

theorem heapSortLoop_sorted : ∀ (e : Nat) (l : List (PWO T)), NoNaN l → e ≤ l.length → HeapTo l e →
    (∀ i j, i < j → e ≤ j → j < l.length → kf l i ≤ kf l j) →
    ∀ i j, i < j → j < l.length → kf (heapSortLoop e l) i ≤ kf (heapSortLoop e l) j := by
  intro e
  induction e with
  | zero => intro l _ _ _ h i j hij hj; exact h i j hij (by omega) hj
  | succ e ih =>
    intro l hN hel hH hS
    simp only [heapSortLoop]
    by_cases he : e = 0
    · rw [if_pos he]
      intro i j hij hj
      exact hS i j hij (by omega) hj
    · rw [if_neg he]
      have h0 : 0 < l.length := by omega
      have hk := kf_swapAt h0 (show e < l.length by omega)
      have hNs := hN.perm (swapAt_perm l 0 e)
      have hr : ∀ i, i < e + 1 → kf l i ≤ kf l 0 := fun i hi => heap_root hH i i (Nat.le_refl _) hi
      have hlen := swapAt_length l 0 e
      obtain ⟨g1, g2⟩ := siftDownRange_heap l.length (swapAt l 0 e) 0 e hNs (by omega)
        (by omega) (by omega)
        (by
          intro i hi hie hpi
          rw [hk, hk, if_neg (by omega), if_neg (by omega), if_neg (by omega), if_neg (by omega)]
          exact hH i hi (by omega))
        (by intro i _ _ _ h; omega)
      have g3 := fun M => siftDownRange_bound l.length (swapAt l 0 e) 0 e M (by omega) (by omega)
      have hp2 := siftDownRange_perm l.length (swapAt l 0 e) 0 e
      generalize hl2 : siftDownRange l.length (swapAt l 0 e) 0 e = l2 at g1 g2 g3 hp2 ⊢
      have hlen2 : l2.length = l.length := by rw [hp2.length_eq, hlen]
      have := ih l2 (hNs.perm hp2) (by omega) g1 ?_
      · rw [hlen2] at this; exact this
      · intro i j hij hej hj
        rw [hlen2] at hj
        have hkj : kf l2 j = if j = e then kf l 0 else kf l j := by
          rw [g2 j hej, hk, if_neg (c := j = 0) (by omega)]
        have h0j : kf l 0 ≤ kf l2 j := by
          rw [hkj]
          split
          · exact Int.le_refl _
          · exact hS 0 j (by omega) (by omega) hj
        by_cases hie : e < i
        · rw [hkj, if_neg (by omega), g2 i (by omega), hk, if_neg (by omega), if_neg (by omega)]
          exact hS i j hij (by omega) hj
        · by_cases hie' : i = e
          · have hki : kf l2 i = kf l 0 := by rw [g2 i (by omega), hk, if_pos hie']
            rw [hki]
            exact h0j
          · refine Int.le_trans (g3 (kf l 0) ?_ i (by omega)) h0j
            intro k hke
            rw [hk]
            split
            · exact Int.le_refl _
            · split
              · exact hr e (by omega)
              · exact hr k (by omega)

theorem pairwise_of_kf {l : List (PWO T)} (h : ∀ i j, i < j → j < l.length → kf l i ≤ kf l j) :
    l.Pairwise (fun a b => a.dist.key ≤ b.dist.key) := by
  rw [List.pairwise_iff_getElem]
  intro i j hi hj hij
  have := h i j hij hj
  unfold kf at this
  rw [List.getElem?_eq_getElem hi, List.getElem?_eq_getElem hj] at this
  exact this

/-! ### insertion sort -/

theorem insertTail_sorted {x : PWO T} (hx : x.dist.isNaN = false) : ∀ (l : List (PWO T)), NoNaN l →
    l.Pairwise (fun a b => b.dist.key ≤ a.dist.key) →
    (insertTail x l).Pairwise (fun a b => b.dist.key ≤ a.dist.key) := by
  intro l
  induction l with
  | nil => intro _ _; simp [insertTail]
  | cons y l ih =>
    intro hN hS
    rw [List.pairwise_cons] at hS
    simp only [insertTail]
    have hy := hN y List.mem_cons_self
    have hlt : x.ltP y = true ↔ x.dist.key < y.dist.key := by simp [PWO.ltP, F32.lt_iff, hx, hy]
    split
    · rename_i h
      rw [List.pairwise_cons]
      refine ⟨?_, ih (fun z hz => hN z (List.mem_cons_of_mem _ hz)) hS.2⟩
      intro z hz
      rcases List.mem_cons.1 ((insertTail_perm x l).mem_iff.1 hz) with rfl | hz
      · have := hlt.1 h; omega
      · exact hS.1 z hz
    · rename_i h
      rw [hlt] at h
      rw [List.pairwise_cons]
      refine ⟨?_, List.pairwise_cons.2 hS⟩
      intro z hz
      rcases List.mem_cons.1 hz with rfl | hz
      · omega
      · have := hS.1 z hz; omega

theorem insertFold_sorted : ∀ (l acc : List (PWO T)), NoNaN l → NoNaN acc →
    acc.Pairwise (fun a b => b.dist.key ≤ a.dist.key) →
    (l.foldl (fun acc x => insertTail x acc) acc).Pairwise (fun a b => b.dist.key ≤ a.dist.key) := by
  intro l
  induction l with
  | nil => intro acc _ _ h; exact h
  | cons x l ih =>
    intro acc hN hA h
    simp only [List.foldl_cons]
    have hx := hN x List.mem_cons_self
    refine ih _ (fun z hz => hN z (List.mem_cons_of_mem _ hz)) ?_ (insertTail_sorted hx acc hA h)
    intro z hz
    rcases List.mem_cons.1 ((insertTail_perm x acc).mem_iff.1 hz) with rfl | hz
    · exact hx
    · exact hA z hz

theorem stdPolicy_lawful : (stdPolicy T).Lawful where
  items_empty := rfl
  items_push := heapPush_perm
  pop_none h := by
    show heapPop h = none ↔ h = []
    cases h with
    | nil => exact ⟨fun _ => rfl, fun _ => rfl⟩
    | cons r rest =>
      simp only [heapPop]
      split <;> simp
  pop_perm h x h' hp := heapPop_perm hp
  pop_max h hB x h' hp y hy := by
    have hH := (std_built hB).2
    obtain ⟨i, hi, rfl⟩ := List.mem_iff_getElem.1 hy
    have := heap_root hH i i (Nat.le_refl _) hi
    unfold kf at this
    have hr : ((stdPolicy T).items h)[0]? = some x := heapPop_root hp
    rw [List.getElem?_eq_getElem hi, hr] at this
    exact this
  intoSorted_perm h := heapSortLoop_perm _ _
  intoSorted_sorted h hB := by
    have hb := std_built hB
    apply pairwise_of_kf
    have hl : ((stdPolicy T).intoSorted h).length = ((stdPolicy T).items h).length :=
      (heapSortLoop_perm _ _).length_eq
    rw [hl]
    exact heapSortLoop_sorted _ _ hb.1 (Nat.le_refl _) hb.2 (by intro i j _ h1 h2; exact absurd h1 (Nat.not_le.2 h2))
  sort_perm := insertionSort_perm
  sort_sorted l hN := by
    show (insertionSort l).Pairwise _
    unfold insertionSort
    rw [List.pairwise_reverse]
    exact insertFold_sorted l [] hN (fun x hx => by cases hx) List.Pairwise.nil
  hash_perm _ _ _ _ := List.Perm.refl _
  push_ok _ _ _ _ := rfl
  intoSorted_ok _ _ := rfl
  sort_ok _ _ := rfl

end Verif
