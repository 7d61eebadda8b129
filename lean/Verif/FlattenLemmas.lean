import Verif.Flatten
import Verif.AccessLemmas
import Verif.Concrete

set_option autoImplicit false

namespace Verif
variable {T : Type}

/-- no NaN in the lists -/
def NoNaNIdx (s : Idx T) : Prop :=
  ∀ p ∈ s.points, ∀ n ∈ (getNeighborhoodId s p).flatten, n.distance.isNaN = false

/-- what `flatten_point` computes for a point -/
def flatOf (nsort : NSort) (s : Idx T) (p : Ref T) : FlatPoint :=
  ⟨p.origin, p.pid, nsort.sort (getNeighborhoodId s p).flatten⟩

theorem flattenPoint_ok {nsort : NSort} (N : NSortLawful nsort) {s : Idx T} (hn : NoNaNIdx s)
    {p : Ref T} (hp : p ∈ s.points) : flattenPoint nsort s p = .ok (flatOf nsort s p) := by
  unfold flattenPoint nsortC
  rw [if_neg]
  · rfl
  · rw [N.ok _ (hn p hp)]
    simp

/-- successive insertions -/
def insAllFlat (nsort : NSort) (s : Idx T) :
    List (Ref T) → FlatNeighborhood → FlatNeighborhood
  | [], m => m
  | p :: ps, m => insAllFlat nsort s ps (m.insert p.origin (flatOf nsort s p))

theorem flatLoop_spec {nsort : NSort} (N : NSortLawful nsort) {s : Idx T} (hn : NoNaNIdx s) :
    ∀ (n : Nat) (ps : List (Ref T)) (pos : IterPos) (m : FlatNeighborhood), (∀ p ∈ ps, p ∈ s.points) →
      n = ps.length + 1 → iterCalls s n pos = .ok (ps.map some ++ [none]) →
      flatLoop nsort s n pos m = .ok (insAllFlat nsort s ps m) := by
  intro n
  induction n with
  | zero => intro ps pos m _ h; simp at h
  | succ n ih =>
    intro ps pos m hs hl h
    rw [iterCalls] at h
    rw [flatLoop]
    cases hx : iterNext s pos with
    | error x => rw [hx] at h; cases h
    | ok y =>
      obtain ⟨o, pos'⟩ := y
      rw [hx] at h
      simp only at h ⊢
      cases hy : iterCalls s n pos' with
      | error x => rw [hy] at h; cases h
      | ok os' =>
        rw [hy] at h
        injection h with h
        cases ps with
        | nil =>
          injection h with h1 h2
          subst h1
          rfl
        | cons p ps =>
          injection h with h1 h2
          subst h1
          simp only
          rw [flattenPoint_ok N hn (hs p (by simp))]
          exact ih ps pos' _ (fun q hq => hs q (List.mem_cons_of_mem _ hq)) (by simpa using hl)
            (by rw [hy, h2]; rfl)

theorem insAllFlat_none {nsort : NSort} {s : Idx T} {id : DataId} :
    ∀ (ps : List (Ref T)) (m : FlatNeighborhood), (∀ p ∈ ps, p.origin ≠ id) →
      insAllFlat nsort s ps m id = m id := by
  intro ps
  induction ps with
  | nil => intro m _; rfl
  | cons p ps ih =>
    intro m h
    rw [insAllFlat, ih _ fun q hq => h q (List.mem_cons_of_mem _ hq)]
    unfold FlatNeighborhood.insert
    rw [if_neg (Ne.symm (h p (by simp)))]

/-- the last point with an id wins -/
theorem insAllFlat_last {nsort : NSort} {s : Idx T} {a b : List (Ref T)}
    {p : Ref T} (hb : ∀ q ∈ b, q.origin ≠ p.origin) : ∀ (m : FlatNeighborhood),
      insAllFlat nsort s (a ++ p :: b) m p.origin = some (flatOf nsort s p) := by
  induction a with
  | nil =>
    intro m
    rw [List.nil_append, insAllFlat, insAllFlat_none _ _ hb]
    unfold FlatNeighborhood.insert
    rw [if_pos rfl]
  | cons x xs ih =>
    intro m
    rw [List.cons_append, insAllFlat]
    exact ih _

theorem flatFrom_ok {nsort : NSort} (N : NSortLawful nsort) {s : Idx T} {m : Nat} (ht : TableOK m s)
    (h : TopEntry s) (hn : NoNaNIdx s) :
    flatFrom nsort s = .ok (insAllFlat nsort s s.points fun _ => none) := by
  have h0 : 0 < s.layers.length := by
    obtain ⟨e, he, hs, -⟩ := h
    rw [ht.len]
    exact Nat.lt_of_le_of_lt (Nat.zero_le _) (ht.layer_lt hs)
  refine flatLoop_spec N hn _ _ _ _ (fun _ h => h) rfl (iterCalls_spec ht h s.points none 0 0 rfl h0 ?_)
  unfold remaining Idx.points Idx.layer
  revert h0
  cases s.layers with
  | nil => intro h0; simp at h0
  | cons a as => intro _; simp

theorem noNaN_of_ok {cfg : Cfg T} {s : Idx T} (h : IdxOK cfg s) : NoNaNIdx s := by
  intro p _ n hn
  obtain ⟨l, hl, hn⟩ := List.mem_flatten.1 hn
  obtain ⟨i, -, rfl⟩ := List.mem_map.1 hl
  obtain ⟨e, he, rfl⟩ := List.mem_map.1 hn
  exact (h.legal _ _ e he).1

/-- insertion sort of neighbours -/
def nsAsc : List Neighbour → List Neighbour
  | [] => []
  | x :: xs => ins x (nsAsc xs)
where
  /-- insertion in a sorted list -/
  ins (x : Neighbour) : List Neighbour → List Neighbour
    | [] => [x]
    | y :: ys => if x.distance.key ≤ y.distance.key then x :: y :: ys else y :: ins x ys

theorem nsAsc_ins_perm (x : Neighbour) (l : List Neighbour) : (nsAsc.ins x l).Perm (x :: l) := by
  induction l with
  | nil => exact List.Perm.refl _
  | cons y ys ih =>
    simp only [nsAsc.ins]
    split
    · exact List.Perm.refl _
    · exact (ih.cons y).trans (List.Perm.swap x y ys)

/-- a lawful sort, that never panics -/
def nsortAsc : NSort := ⟨nsAsc, fun _ => false⟩

theorem nsAsc_lawful : NSortLawful nsortAsc where
  perm l := by
    show (nsAsc l).Perm l
    induction l with
    | nil => exact List.Perm.refl _
    | cons x xs ih => exact (nsAsc_ins_perm x _).trans (ih.cons x)
  ok _ _ := rfl
  sorted l hnn := by
    clear hnn
    show (nsAsc l).Pairwise _
    induction l with
    | nil => exact List.Pairwise.nil
    | cons x xs ih =>
      show (nsAsc.ins x (nsAsc xs)).Pairwise _
      generalize nsAsc xs = l at ih
      induction l with
      | nil => simp [nsAsc.ins]
      | cons y ys ih2 =>
        simp only [nsAsc.ins]
        rw [List.pairwise_cons] at ih
        split
        · rename_i hxy
          rw [List.pairwise_cons]
          refine ⟨?_, List.pairwise_cons.2 ih⟩
          intro z hz
          rcases List.mem_cons.1 hz with rfl | hz
          · exact hxy
          · exact Int.le_trans hxy (ih.1 z hz)
        · rename_i hxy
          rw [List.pairwise_cons]
          refine ⟨?_, ih2 ih.2⟩
          intro z hz
          rcases List.mem_cons.1 ((nsAsc_ins_perm x ys).mem_iff.1 hz) with rfl | hz
          · omega
          · exact ih.1 z hz

end Verif
