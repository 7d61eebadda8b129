import Verif.Insert
import Verif.Spec

set_option autoImplicit false

/-! # Lemmas on the table of points -/

namespace Verif
variable {T : Type}

theorem length_le_of_nodup_subset {α : Type} {l₁ : List α} (hn : l₁.Nodup) :
    ∀ {l₂ : List α}, (∀ x ∈ l₁, x ∈ l₂) → l₁.length ≤ l₂.length := by
  induction l₁ with
  | nil => intros; simp
  | cons a l₁ ih =>
    intro l₂ hs
    obtain ⟨s, t, rfl⟩ := List.append_of_mem (hs a (by simp))
    have hn' := List.nodup_cons.1 hn
    have : l₁.length ≤ (s ++ t).length := by
      apply ih hn'.2
      intro x hx
      have := hs x (List.mem_cons_of_mem _ hx)
      simp only [List.mem_append, List.mem_cons] at this ⊢
      rcases this with h | rfl | h
      · exact Or.inl h
      · exact absurd hx hn'.1
      · exact Or.inr h
    simp at this ⊢
    omega

theorem stored_iff {s : Idx T} {p : Ref T} : Stored s p ↔ ∃ l, p ∈ s.layer l := by
  unfold Stored Idx.points Idx.layer
  rw [List.mem_flatten]
  constructor
  · rintro ⟨x, hx, hp⟩
    obtain ⟨l, hl, rfl⟩ := List.getElem_of_mem hx
    exact ⟨l, by simpa [List.getElem?_eq_getElem hl] using hp⟩
  · rintro ⟨l, hp⟩
    cases h : s.layers[l]? with
    | none => simp [h] at hp
    | some x =>
      simp [h] at hp
      exact ⟨x, List.mem_of_getElem? h, hp⟩

namespace TableOK
variable {m : Nat} {s : Idx T}

theorem stored_iff (h : TableOK m s) {p : Ref T} :
    Stored s p ↔ (s.layer p.pid.layer)[p.pid.rank]? = some p := by
  rw [Verif.stored_iff]
  constructor
  · rintro ⟨l, hp⟩
    obtain ⟨r, hr⟩ := List.getElem?_of_mem hp
    have := h.ids l r p hr
    rw [this]; exact hr
  · intro hp
    exact ⟨_, List.mem_of_getElem? hp⟩

theorem unique (h : TableOK m s) {p p' : Ref T} (hp : Stored s p) (hp' : Stored s p')
    (he : p.pid = p'.pid) : p = p' := by
  rw [h.stored_iff] at hp hp'
  rw [he, hp'] at hp
  exact (Option.some.inj hp).symm

theorem layer_lt (h : TableOK m s) {p : Ref T} (hp : Stored s p) : p.pid.layer < m := by
  rw [h.stored_iff] at hp
  rw [← h.len]
  apply Classical.byContradiction
  intro hc
  have : s.layers[p.pid.layer]? = none := List.getElem?_eq_none (by omega)
  simp [Idx.layer, this] at hp

/-- distinct stored points are at most as many as the points of the table -/
theorem count (_h : TableOK m s) {l : List (Ref T)} (hl : ∀ v ∈ l, Stored s v)
    (hn : (l.map (·.pid)).Nodup) : l.length ≤ s.points.length := by
  apply length_le_of_nodup_subset (l₁ := l) ?_ hl
  exact List.Pairwise.of_map _ (fun a b hab heq => hab (by rw [heq])) hn

theorem new (m : Nat) : TableOK m (Idx.new m : Idx T) := by
  constructor
  · simp [Idx.new]
  · intro l r p hp
    simp only [Idx.new, Idx.layer, List.getElem?_replicate] at hp
    split at hp <;> simp at hp

end TableOK

theorem layer_addPoint (item : List T × DataId) (level : Nat) (s : Idx T)
    (h : level < s.layers.length) (l : Nat) :
    (addPoint item level s).layer l =
      if l = level then s.layer level ++ [newRef item level s] else s.layer l := by
  unfold addPoint Idx.layer newRef Idx.layer
  simp only [List.getElem?_modify]
  by_cases hl : l = level
  · subst hl
    simp [List.getElem?_eq_getElem h]
  · have : ¬ level = l := fun h => hl h.symm
    simp [this, hl]

theorem addPoint_out (item : List T × DataId) (level : Nat) (s : Idx T)
    (h : ¬ level < s.layers.length) : addPoint item level s = s := by
  unfold addPoint
  rw [List.modify_eq_self (by omega)]

theorem newRef_pid (item : List T × DataId) (level : Nat) (s : Idx T) :
    (newRef item level s).pid = ⟨level, (s.layer level).length⟩ := rfl

theorem stored_addPoint (item : List T × DataId) (level : Nat) (s : Idx T)
    (h : level < s.layers.length) (v : Ref T) :
    Stored (addPoint item level s) v ↔ Stored s v ∨ v = newRef item level s := by
  rw [stored_iff, stored_iff]
  constructor
  · rintro ⟨l, hl⟩
    rw [layer_addPoint item level s h] at hl
    split at hl
    · subst l
      rcases List.mem_append.1 hl with hl | hl
      · exact Or.inl ⟨_, hl⟩
      · exact Or.inr (by simpa using hl)
    · exact Or.inl ⟨l, hl⟩
  · rintro (⟨l, hl⟩ | rfl)
    · refine ⟨l, ?_⟩
      rw [layer_addPoint item level s h]
      split
      · subst l; exact List.mem_append_left _ hl
      · exact hl
    · refine ⟨level, ?_⟩
      rw [layer_addPoint item level s h]
      simp

theorem tableOK_addPoint {m : Nat} {s : Idx T} (h : TableOK m s) (item : List T × DataId)
    (level : Nat) : TableOK m (addPoint item level s) := by
  constructor
  · simp [addPoint, h.len]
  · intro l r p hp
    by_cases hl : level < s.layers.length
    · rw [layer_addPoint item level s hl] at hp
      split at hp
      · subst l
        rw [List.getElem?_append] at hp
        split at hp
        · exact h.ids _ _ _ hp
        · rename_i hlt
          have : r - (s.layer level).length = 0 := by
            cases hq : r - (s.layer level).length with
            | zero => rfl
            | succ n => rw [hq] at hp; simp at hp
          rw [this] at hp
          simp at hp
          rw [← hp, newRef_pid]
          congr 1
          omega
      · exact h.ids _ _ _ hp
    · rw [addPoint_out _ _ _ hl] at hp
      exact h.ids _ _ _ hp

theorem flatten_modify_length {α : Type} (xs : List (List α)) (i : Nat) (f : List α → List α)
    (hf : ∀ l, (f l).length = l.length + 1) (hi : i < xs.length) :
    (xs.modify i f).flatten.length = xs.flatten.length + 1 := by
  induction xs generalizing i with
  | nil => simp at hi
  | cons x xs ih =>
    cases i with
    | zero => simp [hf]; omega
    | succ i =>
      simp only [List.modify_succ_cons, List.flatten_cons, List.length_append]
      rw [ih i (by simpa using hi)]
      omega

theorem points_addPoint_length (item : List T × DataId) (level : Nat) (s : Idx T)
    (h : level < s.layers.length) :
    (addPoint item level s).points.length = s.points.length + 1 := by
  unfold Idx.points addPoint
  simp only
  exact flatten_modify_length _ _ _ (by simp) h

/-- the new point's id is not in the old table -/
theorem newRef_fresh {m : Nat} {s : Idx T} (h : TableOK m s) (item : List T × DataId)
    (level : Nat) {v : Ref T} (hv : Stored s v) : v.pid ≠ (newRef item level s).pid := by
  intro he
  rw [h.stored_iff, he, newRef_pid] at hv
  simp at hv

theorem pids_points_nodup {m : Nat} {s : Idx T} (h : TableOK m s) :
    (s.points.map (·.pid)).Nodup := by
  unfold Idx.points
  rw [List.map_flatten]
  unfold List.Nodup
  rw [List.pairwise_flatten]
  constructor
  · intro l hl
    obtain ⟨x, hx, rfl⟩ := List.mem_map.1 hl
    obtain ⟨i, hi, rfl⟩ := List.getElem_of_mem hx
    rw [List.pairwise_iff_getElem]
    intro a b ha hb hab heq
    simp only [List.length_map] at ha hb
    simp only [List.getElem_map] at heq
    have e1 := h.ids i a (s.layers[i][a]) (by
      simp [Idx.layer, List.getElem?_eq_getElem hi, List.getElem?_eq_getElem ha])
    have e2 := h.ids i b (s.layers[i][b]) (by
      simp [Idx.layer, List.getElem?_eq_getElem hi, List.getElem?_eq_getElem hb])
    rw [e1, e2] at heq
    cases heq
    omega
  · rw [List.pairwise_map, List.pairwise_iff_getElem]
    intro i j hi hj hij x hx y hy heq
    obtain ⟨p, hp, rfl⟩ := List.mem_map.1 hx
    obtain ⟨q, hq, rfl⟩ := List.mem_map.1 hy
    obtain ⟨a, ha, rfl⟩ := List.getElem_of_mem hp
    obtain ⟨b, hb, rfl⟩ := List.getElem_of_mem hq
    have e1 := h.ids i a (s.layers[i][a]) (by
      simp [Idx.layer, List.getElem?_eq_getElem hi, List.getElem?_eq_getElem ha])
    have e2 := h.ids j b (s.layers[j][b]) (by
      simp [Idx.layer, List.getElem?_eq_getElem hj, List.getElem?_eq_getElem hb])
    rw [e1, e2] at heq
    cases heq
    omega

end Verif
