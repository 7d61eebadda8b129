import Verif.Insert
import Verif.Heap

set_option autoImplicit false

/-! # Lemmas on the selection of neighbours -/

namespace Verif
variable {T : Type} {P : Policy T} {cfg : Cfg T}

/-- change of sign of a heap element -/
def PWO.flip (x : PWO T) : PWO T := ⟨x.pt, x.dist.neg⟩

@[simp] theorem PWO.flip_pt (x : PWO T) : x.flip.pt = x.pt := rfl
@[simp] theorem PWO.flip_dist (x : PWO T) : x.flip.dist = x.dist.neg := rfl
@[simp] theorem PWO.flip_flip (x : PWO T) : x.flip.flip = x := by
  cases x; simp [PWO.flip]

/-- ids of a list of neighbours -/
abbrev pids (l : List (PWO T)) : List PointId := l.map (·.pt.pid)

theorem pids_flip (l : List (PWO T)) : pids (l.map PWO.flip) = pids l := by
  simp [pids, Function.comp_def]

theorem fromPositive_ok (L : P.Lawful) (ps : List (PWO T)) :
    ∀ (h : P.H), (∀ p ∈ ps, p.dist.Legal) → P.Built h →
    ∃ h', fromPositive P ps h = .ok h' ∧
      (P.items h').Perm (ps.map PWO.flip ++ P.items h) ∧ P.Built h' := by
  induction ps with
  | nil => intro h _ hB; exact ⟨h, rfl, List.Perm.refl _, hB⟩
  | cons p ps ih =>
    intro h hp hh
    have hpl := hp p (by simp)
    have h1 : ¬ F32.zero.le p.dist = false := by rw [F32.legal_iff_le.1 hpl]; simp
    have h2 : P.pushC h ⟨p.pt, p.dist.neg⟩ = .ok (P.push h ⟨p.pt, p.dist.neg⟩) :=
      L.pushC_built (by simpa using hpl.1) hh
    obtain ⟨h', h3, h4, h5⟩ := ih (P.push h ⟨p.pt, p.dist.neg⟩)
      (fun x hx => hp x (List.mem_cons_of_mem _ hx)) (.push hh (by simpa using hpl.1))
    refine ⟨h', by simp [fromPositive, h1, h2, h3], ?_, h5⟩
    refine h4.trans ?_
    refine ((L.items_push h ⟨p.pt, p.dist.neg⟩).append_left _).trans ?_
    simp only [List.map_cons, List.cons_append]
    exact List.perm_middle

/-- the sign of every distance is checked, NaN fails -/
theorem fromPositive_err {ps : List (PWO T)} : ∀ {h : P.H} {e : Panic},
    fromPositive P ps h = .error e → e ≠ .fuel := by
  induction ps with
  | nil => intro h e he; cases he
  | cons p ps ih =>
    intro h e he
    simp only [fromPositive] at he
    split at he
    · cases he; simp
    · split at he
      · rename_i hp
        cases he
        rw [Policy.pushC_err hp]; simp
      · exact ih he

theorem fromPositive_legal (ps : List (PWO T)) : ∀ (h h' : P.H), fromPositive P ps h = .ok h' →
    ∀ p ∈ ps, p.dist.Legal := by
  induction ps with
  | nil => intro h h' _ p hp; cases hp
  | cons p ps ih =>
    intro h h' hs
    simp only [fromPositive] at hs
    split at hs
    · cases hs
    · rename_i hz
      split at hs
      · cases hs
      · intro x hx
        rcases List.mem_cons.1 hx with rfl | hx
        · exact F32.legal_iff_le.2 (by simpa using hz)
        · exact ih _ _ hs x hx

theorem transferAll_ok (L : P.Lawful) : ∀ (n : Nat) (h : P.H) (acc : List (PWO T)),
    P.len h ≤ n → (∀ x ∈ P.items h, x.dist.neg.Legal) →
    ∃ v, transferAll P n h acc = .ok v ∧ v.Perm (acc ++ (P.items h).map PWO.flip) := by
  intro n
  induction n with
  | zero =>
    intro h acc hl _
    have : P.items h = [] := by
      simp [Policy.len] at hl; exact hl
    exact ⟨acc, rfl, by simp [this]⟩
  | succ n ih =>
    intro h acc hl hh
    cases hp : P.pop h with
    | none =>
      have : P.items h = [] := (L.pop_none h).1 hp
      exact ⟨acc, by simp [transferAll, hp], by simp [this]⟩
    | some z =>
      obtain ⟨p, h'⟩ := z
      have hpl := hh p ((L.mem_pop hp).2 (Or.inl rfl))
      have h1 : ¬ F32.zero.le p.dist.neg = false := by rw [F32.legal_iff_le.1 hpl]; simp
      have := L.len_pop hp
      obtain ⟨v, h2, h3⟩ := ih h' (acc ++ [⟨p.pt, p.dist.neg⟩]) (by omega)
        (fun x hx => hh x ((L.mem_pop hp).2 (Or.inr hx)))
      refine ⟨v, by simp [transferAll, hp, h1, h2], h3.trans ?_⟩
      rw [List.append_assoc]
      apply List.Perm.append_left
      exact ((L.pop_perm h p h' hp).map PWO.flip).symm

theorem le_zero_iff_legal {x : F32} : x.le F32.zero = true ↔ x.neg.Legal := by
  rw [F32.le_iff]
  simp [F32.Legal]

/-- What the selection loop does: its results come from the heap, with legal distances. -/
theorem selLoop_ok (L : P.Lawful) {asked : Nat} {kp : Bool} : ∀ (n : Nat) (h : P.H)
    (acc : List (PWO T)) (disc : P.H) (acc' : List (PWO T)) (disc' : P.H),
    selLoop P cfg asked kp n h acc disc = .ok (acc', disc') →
    (∀ x ∈ P.items disc, x.dist.neg.Legal) →
    (pids acc ++ (pids (P.items disc) ++ pids (P.items h))).Nodup →
    (∀ y ∈ acc', y ∈ acc ∨ (y.dist.Legal ∧ ∃ x ∈ P.items h, y = x.flip)) ∧
    (∀ x ∈ P.items disc', x ∈ P.items disc ∨ x ∈ P.items h) ∧
    (∀ x ∈ P.items disc', x.dist.neg.Legal) ∧
    (pids acc' ++ pids (P.items disc')).Nodup ∧
    acc'.length ≤ max asked acc.length := by
  intro n
  induction n with
  | zero =>
    intro h acc disc acc' disc' hs hd hnd
    simp only [selLoop] at hs
    cases hs
    refine ⟨fun y hy => Or.inl hy, fun x hx => Or.inl hx, hd, ?_, by omega⟩
    rw [← List.append_assoc] at hnd
    exact (List.nodup_append.1 hnd).1
  | succ n ih =>
    intro h acc disc acc' disc' hs hd hnd
    have hdone : (∀ y ∈ acc, y ∈ acc ∨ (y.dist.Legal ∧ ∃ x ∈ P.items h, y = x.flip)) ∧
        (∀ x ∈ P.items disc, x ∈ P.items disc ∨ x ∈ P.items h) ∧
        (∀ x ∈ P.items disc, x.dist.neg.Legal) ∧
        (pids acc ++ pids (P.items disc)).Nodup ∧ acc.length ≤ max asked acc.length := by
      refine ⟨fun y hy => Or.inl hy, fun x hx => Or.inl hx, hd, ?_, by omega⟩
      rw [← List.append_assoc] at hnd
      exact (List.nodup_append.1 hnd).1
    simp only [selLoop] at hs
    split at hs
    · cases hs; exact hdone
    · rename_i hlt
      split at hs
      · cases hs; exact hdone
      · rename_i e h' hp
        have hperm := (L.pop_perm h e h' hp).map (fun x : PWO T => x.pt.pid)
        have hmem : ∀ x, x ∈ P.items h' → x ∈ P.items h := fun x hx => (L.mem_pop hp).2 (Or.inr hx)
        have hem : e ∈ P.items h := (L.mem_pop hp).2 (Or.inl rfl)
        split at hs
        · cases hs
        · rename_i hel
          have hel : e.dist.neg.Legal := le_zero_iff_legal.1 (by simpa using hel)
          split at hs
          · -- selected
            have hnd' : (pids (acc ++ [⟨e.pt, e.dist.neg⟩]) ++
                (pids (P.items disc) ++ pids (P.items h'))).Nodup := by
              refine (List.Perm.nodup_iff ?_).1 hnd
              simp only [pids, List.map_append, List.map_cons, List.map_nil, List.append_assoc]
              apply List.Perm.append_left
              exact (hperm.append_left _).trans List.perm_middle
            obtain ⟨i1, i2, i3, i4, i5⟩ := ih h' _ disc acc' disc' hs hd hnd'
            refine ⟨?_, ?_, i3, i4, ?_⟩
            · intro y hy
              rcases i1 y hy with hy | ⟨hl, x, hx, rfl⟩
              · rcases List.mem_append.1 hy with hy | hy
                · exact Or.inl hy
                · right
                  simp at hy
                  subst hy
                  exact ⟨hel, e, hem, rfl⟩
              · exact Or.inr ⟨hl, x, hmem x hx, rfl⟩
            · intro x hx
              rcases i2 x hx with h | h
              · exact Or.inl h
              · exact Or.inr (hmem x h)
            · simp at i5; omega
          · split at hs
            · -- discarded and kept apart
              split at hs
              · cases hs
              · rename_i disc2 hd2
                obtain rfl := Policy.pushC_ok hd2
                have hpd := (L.items_push disc ⟨e.pt, e.dist⟩).map (fun x : PWO T => x.pt.pid)
                have hnd' : (pids acc ++ (pids (P.items (P.push disc ⟨e.pt, e.dist⟩)) ++
                    pids (P.items h'))).Nodup := by
                  refine (List.Perm.nodup_iff ?_).1 hnd
                  apply List.Perm.append_left
                  refine (hperm.append_left _).trans ?_
                  refine List.perm_middle.trans ?_
                  exact (hpd.append_right _).symm
                obtain ⟨i1, i2, i3, i4, i5⟩ := ih h' acc _ acc' disc' hs (by
                  intro x hx
                  rcases L.mem_push.1 hx with rfl | hx
                  · exact hel
                  · exact hd x hx) hnd'
                refine ⟨?_, ?_, i3, i4, i5⟩
                · intro y hy
                  rcases i1 y hy with hy | ⟨hl, x, hx, rfl⟩
                  · exact Or.inl hy
                  · exact Or.inr ⟨hl, x, hmem x hx, rfl⟩
                · intro x hx
                  rcases i2 x hx with h | h
                  · rcases L.mem_push.1 h with rfl | h
                    · exact Or.inr hem
                    · exact Or.inl h
                  · exact Or.inr (hmem x h)
            · -- discarded
              have hnd' : (pids acc ++ (pids (P.items disc) ++ pids (P.items h'))).Nodup := by
                have h1 : (pids acc ++ (pids (P.items disc) ++ (e.pt.pid :: pids (P.items h')))).Nodup :=
                  (List.Perm.nodup_iff ((hperm.append_left _).append_left _)).1 hnd
                rw [← List.append_assoc] at h1 ⊢
                have h2 := (List.perm_middle.nodup_iff).1 h1
                exact (List.nodup_cons.1 h2).2
              obtain ⟨i1, i2, i3, i4, i5⟩ := ih h' acc disc acc' disc' hs hd hnd'
              refine ⟨?_, ?_, i3, i4, i5⟩
              · intro y hy
                rcases i1 y hy with hy | ⟨hl, x, hx, rfl⟩
                · exact Or.inl hy
                · exact Or.inr ⟨hl, x, hmem x hx, rfl⟩
              · intro x hx
                rcases i2 x hx with h | h
                · exact Or.inl h
                · exact Or.inr (hmem x h)

theorem refill_ok (L : P.Lawful) {asked : Nat} : ∀ (n : Nat) (disc : P.H)
    (acc acc' : List (PWO T)),
    refill P asked n disc acc = .ok acc' →
    (pids acc ++ pids (P.items disc)).Nodup →
    (∀ y ∈ acc', y ∈ acc ∨ (y.dist.Legal ∧ ∃ x ∈ P.items disc, y = x.flip)) ∧
    (pids acc').Nodup ∧ acc'.length ≤ max asked acc.length := by
  intro n
  induction n with
  | zero =>
    intro disc acc acc' hs hnd
    simp only [refill] at hs
    cases hs
    exact ⟨fun y hy => Or.inl hy, (List.nodup_append.1 hnd).1, by omega⟩
  | succ n ih =>
    intro disc acc acc' hs hnd
    simp only [refill] at hs
    split at hs
    · cases hs
      exact ⟨fun y hy => Or.inl hy, (List.nodup_append.1 hnd).1, by omega⟩
    · split at hs
      · cases hs
        exact ⟨fun y hy => Or.inl hy, (List.nodup_append.1 hnd).1, by omega⟩
      · rename_i e h' hp
        split at hs
        · cases hs
        · rename_i hel
          have hel : e.dist.neg.Legal := le_zero_iff_legal.1 (by simpa using hel)
          have hperm := (L.pop_perm disc e h' hp).map (fun x : PWO T => x.pt.pid)
          have hnd' : (pids (acc ++ [⟨e.pt, e.dist.neg⟩]) ++ pids (P.items h')).Nodup := by
            refine (List.Perm.nodup_iff ?_).1 hnd
            simp only [pids, List.map_append, List.map_cons, List.map_nil, List.append_assoc]
            apply List.Perm.append_left
            exact hperm
          obtain ⟨i1, i2, i3⟩ := ih h' _ acc' hs hnd'
          refine ⟨?_, i2, ?_⟩
          · intro y hy
            rcases i1 y hy with hy | ⟨hl, x, hx, rfl⟩
            · rcases List.mem_append.1 hy with hy | hy
              · exact Or.inl hy
              · right
                simp at hy
                subst hy
                exact ⟨hel, e, (L.mem_pop hp).2 (Or.inl rfl), rfl⟩
            · exact Or.inr ⟨hl, x, (L.mem_pop hp).2 (Or.inr hx), rfl⟩
          · simp at i3; omega

/-- Results of the selection: distinct candidates, signs restored, legal, not too many. -/
theorem selectFrom_ok (L : P.Lawful) {asked : Nat} {kp : Bool} {cands : P.H} {v : List (PWO T)}
    (h : selectFrom P cfg asked kp cands = .ok v) (hnd : (pids (P.items cands)).Nodup) :
    (∀ y ∈ v, y.dist.Legal ∧ ∃ x ∈ P.items cands, y = x.flip) ∧ (pids v).Nodup ∧
      v.length ≤ asked := by
  unfold selectFrom at h
  split at h
  · cases h
  · rename_i acc disc hs
    obtain ⟨i1, i2, i3, i4, i5⟩ := selLoop_ok L _ _ _ _ _ _ hs (by simp [L.items_empty])
      (by simpa [L.items_empty, pids] using hnd)
    simp at i1 i5
    split at h
    · obtain ⟨j1, j2, j3⟩ := refill_ok L _ _ _ _ h i4
      refine ⟨?_, j2, by omega⟩
      intro y hy
      rcases j1 y hy with hy | ⟨hl, x, hx, rfl⟩
      · exact i1 y hy
      · refine ⟨hl, x, ?_, rfl⟩
        rcases i2 x hx with h | h
        · simp [L.items_empty] at h
        · exact h
    · cases h
      exact ⟨i1, (List.nodup_append.1 i4).1, i5⟩

theorem selLoop_no_err (L : P.Lawful) {asked : Nat} {kp : Bool} : ∀ (n : Nat) (h : P.H)
    (acc : List (PWO T)) (disc : P.H), (∀ x ∈ P.items h, x.dist.neg.Legal) →
    P.Built disc →
    ∃ r, selLoop P cfg asked kp n h acc disc = .ok r := by
  intro n
  induction n with
  | zero => intro h acc disc _ _; exact ⟨_, rfl⟩
  | succ n ih =>
    intro h acc disc hh hd
    simp only [selLoop]
    split
    · exact ⟨_, rfl⟩
    · cases hp : P.pop h with
      | none => exact ⟨_, rfl⟩
      | some z =>
        obtain ⟨e, h'⟩ := z
        have hel := hh e ((L.mem_pop hp).2 (Or.inl rfl))
        have hh' : ∀ x ∈ P.items h', x.dist.neg.Legal :=
          fun x hx => hh x ((L.mem_pop hp).2 (Or.inr hx))
        have h1 : e.dist.le F32.zero = true := le_zero_iff_legal.2 hel
        simp only [h1]
        split
        · rename_i h2; cases h2
        · split
          · exact ih _ _ _ hh' hd
          · split
            · rw [L.pushC_built (by simpa using hel.1) hd]
              exact ih _ _ _ hh' (.push hd (by simpa using hel.1))
            · exact ih _ _ _ hh' hd

theorem refill_no_err (L : P.Lawful) {asked : Nat} : ∀ (n : Nat) (disc : P.H)
    (acc : List (PWO T)), (∀ x ∈ P.items disc, x.dist.neg.Legal) →
    ∃ r, refill P asked n disc acc = .ok r := by
  intro n
  induction n with
  | zero => intro h acc _; exact ⟨_, rfl⟩
  | succ n ih =>
    intro disc acc hd
    simp only [refill]
    split
    · exact ⟨_, rfl⟩
    · cases hp : P.pop disc with
      | none => exact ⟨_, rfl⟩
      | some z =>
        obtain ⟨e, h'⟩ := z
        have hel := hd e ((L.mem_pop hp).2 (Or.inl rfl))
        have h1 : e.dist.le F32.zero = true := le_zero_iff_legal.2 hel
        simp only [h1]
        exact ih _ _ (fun x hx => hd x ((L.mem_pop hp).2 (Or.inr hx)))

theorem selectFrom_no_err (L : P.Lawful) {asked : Nat} {kp : Bool} {cands : P.H}
    (hh : ∀ x ∈ P.items cands, x.dist.neg.Legal) (hnd : (pids (P.items cands)).Nodup) :
    ∃ v, selectFrom P cfg asked kp cands = .ok v := by
  unfold selectFrom
  obtain ⟨⟨acc, disc⟩, hs⟩ := selLoop_no_err (cfg := cfg) (asked := asked) (kp := kp) L (P.len cands)
    cands [] P.empty hh L.built_empty
  obtain ⟨-, -, i3, -, -⟩ := selLoop_ok L _ _ _ _ _ _ hs (by simp [L.items_empty])
      (by simpa [L.items_empty, pids] using hnd)
  rw [hs]
  simp only
  split
  · exact refill_no_err L _ _ _ i3
  · exact ⟨_, rfl⟩

theorem pushAll_ok (L : P.Lawful) (xs : List (PWO T)) : ∀ (h h' : P.H),
    P.pushAll h xs = .ok h' → (P.items h').Perm (xs ++ P.items h) := by
  induction xs with
  | nil => intro h h' hs; simp only [Policy.pushAll] at hs; cases hs; exact List.Perm.refl _
  | cons x xs ih =>
    intro h h' hs
    simp only [Policy.pushAll] at hs
    split at hs
    · cases hs
    · rename_i h2 hp
      obtain rfl := Policy.pushC_ok hp
      refine (ih _ _ hs).trans ?_
      refine ((L.items_push h x).append_left _).trans ?_
      exact List.perm_middle

theorem pushAll_built (xs : List (PWO T)) : ∀ (h h' : P.H),
    P.pushAll h xs = .ok h' → P.Built h → (∀ x ∈ xs, x.dist.isNaN = false) → P.Built h' := by
  induction xs with
  | nil => intro h h' hs hB _; simp only [Policy.pushAll] at hs; cases hs; exact hB
  | cons x xs ih =>
    intro h h' hs hB hx
    simp only [Policy.pushAll] at hs
    split at hs
    · cases hs
    · rename_i h2 hp
      obtain rfl := Policy.pushC_ok hp
      exact ih _ _ hs (.push hB (hx x (by simp))) (fun y hy => hx y (List.mem_cons_of_mem _ hy))

theorem pushAll_no_err (L : P.Lawful) (xs : List (PWO T)) : ∀ (h : P.H),
    (∀ x ∈ xs, x.dist.isNaN = false) → P.Built h →
    ∃ h', P.pushAll h xs = .ok h' ∧ P.Built h' := by
  induction xs with
  | nil => intro h _ hB; exact ⟨_, rfl, hB⟩
  | cons x xs ih =>
    intro h hx hh
    simp only [Policy.pushAll]
    rw [L.pushC_built (hx x (by simp)) hh]
    exact ih _ (fun y hy => hx y (List.mem_cons_of_mem _ hy)) (.push hh (hx x (by simp)))

theorem pushAll_err_nan (xs : List (PWO T)) : ∀ (h : P.H) (e : Panic),
    P.pushAll h xs = .error e → e = .nan := by
  induction xs with
  | nil => intro h e hs; simp [Policy.pushAll] at hs
  | cons x xs ih =>
    intro h e hs
    simp only [Policy.pushAll] at hs
    split at hs
    · rename_i hp
      cases hs
      unfold Policy.pushC at hp
      split at hp
      · exact (Except.error.inj hp).symm
      · cases hp
    · exact ih _ _ hs

theorem selLoop_err {asked : Nat} {kp : Bool} : ∀ (n : Nat) (h : P.H) (acc : List (PWO T))
    (disc : P.H) (x : Panic), selLoop P cfg asked kp n h acc disc = .error x → x ≠ .fuel := by
  intro n
  induction n with
  | zero => intro h acc disc x hs; simp [selLoop] at hs
  | succ n ih =>
    intro h acc disc x hs
    simp only [selLoop] at hs
    split at hs
    · cases hs
    · split at hs
      · cases hs
      · split at hs
        · cases hs; simp
        · split at hs
          · exact ih _ _ _ _ hs
          · split at hs
            · split at hs
              · rename_i hp
                cases hs
                unfold Policy.pushC at hp
                split at hp
                · rw [← Except.error.inj hp]; simp
                · cases hp
              · exact ih _ _ _ _ hs
            · exact ih _ _ _ _ hs

theorem refill_err {asked : Nat} : ∀ (n : Nat) (disc : P.H) (acc : List (PWO T))
    (x : Panic), refill P asked n disc acc = .error x → x ≠ .fuel := by
  intro n
  induction n with
  | zero => intro h acc x hs; simp [refill] at hs
  | succ n ih =>
    intro disc acc x hs
    simp only [refill] at hs
    split at hs
    · cases hs
    · split at hs
      · cases hs
      · split at hs
        · cases hs; simp
        · exact ih _ _ _ hs

theorem selectFrom_err {asked : Nat} {kp : Bool} {cands : P.H} {x : Panic}
    (h : selectFrom P cfg asked kp cands = .error x) : x ≠ .fuel := by
  unfold selectFrom at h
  split at h
  · rename_i hs
    cases h
    exact selLoop_err _ _ _ _ _ hs
  · split at h
    · exact refill_err _ _ _ _ h
    · cases h

end Verif
