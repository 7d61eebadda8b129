import Verif.Basic

set_option autoImplicit false

/-! # Consequences of the container laws -/

namespace Verif
variable {T : Type} {P : Policy T}

namespace Policy.Lawful
variable (L : P.Lawful)
include L

theorem mem_push {h : P.H} {x y : PWO T} : y ∈ P.items (P.push h x) ↔ y = x ∨ y ∈ P.items h := by
  rw [(L.items_push h x).mem_iff, List.mem_cons]

theorem len_push {h : P.H} {x : PWO T} : P.len (P.push h x) = P.len h + 1 := by
  simp [Policy.len, (L.items_push h x).length_eq]

theorem mem_pop {h h' : P.H} {x y : PWO T} (hp : P.pop h = some (x, h')) :
    y ∈ P.items h ↔ y = x ∨ y ∈ P.items h' := by
  rw [(L.pop_perm h x h' hp).mem_iff, List.mem_cons]

theorem len_pop {h h' : P.H} {x : PWO T} (hp : P.pop h = some (x, h')) :
    P.len h = P.len h' + 1 := by
  simp [Policy.len, (L.pop_perm h x h' hp).length_eq]

theorem len_empty : P.len P.empty = 0 := by simp [Policy.len, L.items_empty]

theorem items_push_empty {x : PWO T} : P.items (P.push P.empty x) = [x] := by
  have := L.items_push P.empty x
  rw [L.items_empty] at this
  exact List.perm_singleton.mp this

theorem peek_none {h : P.H} : P.peek h = none ↔ P.items h = [] := by
  simp [Policy.peek, L.pop_none]

theorem peek_some {h : P.H} {x : PWO T} (hp : P.peek h = some x) :
    x ∈ P.items h ∧ (P.Built h → ∀ y ∈ P.items h, y.dist.key ≤ x.dist.key) := by
  unfold Policy.peek at hp
  cases hq : P.pop h with
  | none => simp [hq] at hp
  | some z =>
    obtain ⟨a, h'⟩ := z
    simp [hq] at hp
    subst hp
    exact ⟨(L.mem_pop hq).2 (Or.inl rfl), fun hB => L.pop_max h hB a h' hq⟩

theorem peek_isSome {h : P.H} (hne : P.items h ≠ []) : ∃ x, P.peek h = some x := by
  cases hp : P.peek h with
  | none => exact absurd (L.peek_none.1 hp) hne
  | some x => exact ⟨x, rfl⟩

theorem pop_isSome {h : P.H} (hne : P.items h ≠ []) : ∃ x h', P.pop h = some (x, h') := by
  cases hp : P.pop h with
  | none => exact absurd ((L.pop_none h).1 hp) hne
  | some x => exact ⟨x.1, x.2, rfl⟩

omit L in
theorem peek_eq_of_pop {h h' : P.H} {x : PWO T} (hp : P.pop h = some (x, h')) :
    P.peek h = some x := by
  simp [Policy.peek, hp]

theorem nodup_push {h : P.H} {x : PWO T} (hn : ((P.items h).map (·.pt.pid)).Nodup)
    (hx : x.pt.pid ∉ (P.items h).map (·.pt.pid)) :
    ((P.items (P.push h x)).map (·.pt.pid)).Nodup := by
  rw [((L.items_push h x).map _).nodup_iff]
  simpa [List.nodup_cons] using ⟨by simpa using hx, hn⟩

theorem nodup_pop {h h' : P.H} {x : PWO T} (hp : P.pop h = some (x, h'))
    (hn : ((P.items h).map (·.pt.pid)).Nodup) :
    ((P.items h').map (·.pt.pid)).Nodup ∧ x.pt.pid ∉ (P.items h').map (·.pt.pid) := by
  rw [((L.pop_perm h x h' hp).map _).nodup_iff] at hn
  rw [List.map_cons, List.nodup_cons] at hn
  exact ⟨hn.2, hn.1⟩

end Policy.Lawful

theorem Policy.len_pos_iff {h : P.H} : 0 < P.len h ↔ P.items h ≠ [] := by
  simp [Policy.len, List.length_pos_iff]

theorem Policy.pushC_err {h : P.H} {x : PWO T} {e : Panic} (hp : P.pushC h x = .error e) :
    e = .nan := by
  unfold Policy.pushC at hp
  split at hp <;> cases hp
  rfl

theorem Policy.pushC_ok {h h' : P.H} {x : PWO T} (hp : P.pushC h x = .ok h') : h' = P.push h x := by
  unfold Policy.pushC at hp
  split at hp <;> cases hp
  rfl

theorem Policy.intoSortedC_ok {h : P.H} {v : List (PWO T)} (hp : P.intoSortedC h = .ok v) :
    v = P.intoSorted h := by
  unfold Policy.intoSortedC at hp
  split at hp <;> cases hp
  rfl

theorem Policy.intoSortedC_err {h : P.H} {e : Panic} (hp : P.intoSortedC h = .error e) :
    e = .nan := by
  unfold Policy.intoSortedC at hp
  split at hp <;> cases hp
  rfl

theorem Policy.sortC_err {l : List (PWO T)} {e : Panic} (hp : P.sortC l = .error e) : e ≠ .fuel := by
  unfold Policy.sortC at hp
  split at hp <;> cases hp
  simp

theorem Policy.sortC_ok {l v : List (PWO T)} (hp : P.sortC l = .ok v) : v = P.sort l := by
  unfold Policy.sortC at hp
  split at hp <;> cases hp
  rfl

namespace Policy.Lawful
variable (L : P.Lawful)
include L

theorem built_empty : P.Built P.empty := .nil L.items_empty

theorem built_noNaN {h : P.H} (hB : P.Built h) : NoNaN (P.items h) := by
  induction hB with
  | nil h => intro y hy; rw [h] at hy; cases hy
  | push _ hx ih =>
    intro y hy
    rcases L.mem_push.1 hy with rfl | hy
    · exact hx
    · exact ih y hy
  | pop _ hp ih => exact fun y hy => ih y ((L.mem_pop hp).2 (Or.inr hy))

theorem pushC_built {h : P.H} {x : PWO T} (hx : x.dist.isNaN = false) (hh : P.Built h) :
    P.pushC h x = .ok (P.push h x) := by
  unfold Policy.pushC
  rw [if_neg]
  rw [L.push_ok h x hh hx]; simp

theorem intoSortedC_built {h : P.H} (hh : P.Built h) : P.intoSortedC h = .ok (P.intoSorted h) := by
  unfold Policy.intoSortedC
  rw [if_neg]
  rw [L.intoSorted_ok h hh]; simp

theorem sortC_legal {l : List (PWO T)} (hh : NoNaN l) : P.sortC l = .ok (P.sort l) := by
  unfold Policy.sortC
  rw [if_neg]
  rw [L.sort_ok l hh]; simp

end Policy.Lawful

end Verif
