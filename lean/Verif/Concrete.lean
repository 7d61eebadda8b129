import Verif.Insert
import Verif.Heap

set_option autoImplicit false

/-!
# A concrete lawful policy and a concrete distance

Used to exhibit concrete histories: witnesses of the hypotheses of the theorems, and
counterexamples.
-/

namespace Verif
variable {T : Type}

/-- insertion in a list sorted by increasing distance -/
def insAsc (x : PWO T) : List (PWO T) → List (PWO T)
  | [] => [x]
  | y :: ys => if x.dist.key ≤ y.dist.key then x :: y :: ys else y :: insAsc x ys

/-- insertion sort by increasing distance -/
def sortAsc : List (PWO T) → List (PWO T)
  | [] => []
  | x :: xs => insAsc x (sortAsc xs)

theorem insAsc_perm (x : PWO T) (l : List (PWO T)) : (insAsc x l).Perm (x :: l) := by
  induction l with
  | nil => exact List.Perm.refl _
  | cons y ys ih =>
    simp only [insAsc]
    split
    · exact List.Perm.refl _
    · exact (ih.cons y).trans (List.Perm.swap x y ys)

theorem insAsc_sorted (x : PWO T) (l : List (PWO T))
    (h : l.Pairwise (fun a b => a.dist.key ≤ b.dist.key)) :
    (insAsc x l).Pairwise (fun a b => a.dist.key ≤ b.dist.key) := by
  induction l with
  | nil => simp [insAsc]
  | cons y ys ih =>
    simp only [insAsc]
    rw [List.pairwise_cons] at h
    split
    · rename_i hxy
      rw [List.pairwise_cons]
      refine ⟨?_, List.pairwise_cons.2 h⟩
      intro z hz
      rcases List.mem_cons.1 hz with rfl | hz
      · exact hxy
      · exact Int.le_trans hxy (h.1 z hz)
    · rename_i hxy
      rw [List.pairwise_cons]
      refine ⟨?_, ih h.2⟩
      intro z hz
      rcases List.mem_cons.1 ((insAsc_perm x ys).mem_iff.1 hz) with rfl | hz
      · omega
      · exact h.1 z hz

theorem sortAsc_perm (l : List (PWO T)) : (sortAsc l).Perm l := by
  induction l with
  | nil => exact List.Perm.refl _
  | cons x xs ih => exact (insAsc_perm x _).trans (ih.cons x)

theorem sortAsc_sorted (l : List (PWO T)) :
    (sortAsc l).Pairwise (fun a b => a.dist.key ≤ b.dist.key) := by
  induction l with
  | nil => exact List.Pairwise.nil
  | cons x xs ih => exact insAsc_sorted x _ ih

/-- removal of a maximum -/
def popL (h : List (PWO T)) : Option (PWO T × List (PWO T)) :=
  match (sortAsc h).reverse with
  | [] => none
  | x :: xs => some (x, xs)

theorem popL_none (h : List (PWO T)) : popL h = none ↔ h = [] := by
  constructor
  · intro hp
    unfold popL at hp
    split at hp
    · rename_i hr
      have h1 : (sortAsc h).length = 0 := by
        have := congrArg List.length hr
        simpa using this
      rw [(sortAsc_perm h).length_eq] at h1
      exact List.length_eq_zero_iff.1 h1
    · cases hp
  · intro hh
    subst hh
    rfl

theorem popL_perm {h h' : List (PWO T)} {x : PWO T} (hp : popL h = some (x, h')) :
    h.Perm (x :: h') := by
  unfold popL at hp
  split at hp
  · cases hp
  · rename_i y ys hr
    cases hp
    rw [← hr]
    exact ((List.reverse_perm _).trans (sortAsc_perm h)).symm

theorem popL_max {h h' : List (PWO T)} {x : PWO T} (hp : popL h = some (x, h')) :
    ∀ y ∈ h, y.dist.key ≤ x.dist.key := by
  intro y hy
  unfold popL at hp
  split at hp
  · cases hp
  · rename_i z zs hr
    cases hp
    have hs : (sortAsc h).reverse.Pairwise (fun a b => b.dist.key ≤ a.dist.key) := by
      rw [List.pairwise_reverse]; exact sortAsc_sorted h
    have hy' : y ∈ (sortAsc h).reverse := by
      rw [List.mem_reverse]
      exact (sortAsc_perm h).mem_iff.2 hy
    rw [hr] at hs hy'
    rw [List.pairwise_cons] at hs
    rcases List.mem_cons.1 hy' with rfl | hy'
    · exact Int.le_refl _
    · exact hs.1 y hy'

/-- Containers implemented with lists. -/
def listPolicy (T : Type) : Policy T where
  H := List (PWO T)
  empty := []
  push h x := x :: h
  pop h := popL h
  items h := h
  intoSorted h := sortAsc h
  sort := sortAsc
  hashOrder _ _ _ r := r
  pushPanics _ _ := false
  intoSortedPanics _ := false
  sortPanics _ := false

theorem listPolicy_lawful : (listPolicy T).Lawful where
  items_empty := rfl
  items_push _ _ := List.Perm.refl _
  pop_none h := popL_none h
  pop_perm _ _ _ hp := popL_perm hp
  pop_max _ _ _ _ hp := popL_max hp
  intoSorted_perm h := sortAsc_perm h
  intoSorted_sorted h _ := sortAsc_sorted h
  sort_perm := sortAsc_perm
  sort_sorted l _ := sortAsc_sorted l
  hash_perm _ _ _ _ := List.Perm.refl _
  push_ok _ _ _ _ := rfl
  intoSorted_ok _ _ := rfl
  sort_ok _ _ := rfl

/-- A legal distance on one dimensional integer vectors: `f32::from_bits(|a - b|)`, whose order is
the order of `|a - b|`. -/
def absDist (a b : List Nat) : F32 :=
  ⟨false, Fin.ofNat (2 ^ 31) (((a.headD 0 - b.headD 0) + (b.headD 0 - a.headD 0)) % 1000000)⟩

theorem absDist_legal (a b : List Nat) : (absDist a b).Legal := by
  constructor
  · simp [absDist, F32.isNaN, Fin.ofNat]
    omega
  · unfold F32.key absDist
    simp only [Bool.false_eq_true, if_false]
    exact Int.natCast_nonneg _

/-- default configuration of the examples -/
def exCfg (m : Nat) (efC : Nat := 10) : Cfg Nat :=
  { maxNb := m, efC := efC, extend := false, keepPruned := false, maxLayer := 16, eval := absDist }

/-- sequential insertion of `(value, level)` pairs, the id being the value; stops on a panic -/
def insertAll {T : Type} (P : Policy T) (cfg : Cfg T) :
    CSt T → List ((List T × DataId) × Nat) → Option (CSt T)
  | s, [] => some s
  | s, (x, l) :: xs =>
    match insert P cfg s x l with
    | .ok _ s' => insertAll P cfg s' xs
    | _ => none

/-- one dimensional item -/
def item (n : Nat) : List Nat × DataId := ([n], UInt64.ofNat n)

end Verif
