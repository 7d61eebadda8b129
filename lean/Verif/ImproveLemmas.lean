import Verif.Reach

set_option autoImplicit false

/-! # The lists of links as time passes: lemmas -/

namespace Verif
variable {T : Type} {P : Policy T} {cfg : Cfg T} {fuel N : Nat} {D : List T → Prop} {W : Nat → Prop} {B : Base T}

theorem sysInv_improves {s0 : CSt T} {jobs : List (Job T)} {c c' : CSt T × List (Prog (CSt T) Unit)}
    (hs : Step c c') {ph : List (Phase T)} (h : SysInvB B P cfg fuel N D W s0 jobs c.1 c.2 ph)
    (p : PointId) (l : Nat) : B.wild p l ∨ Improves (degreeBound cfg l) (c.1.idx.nb p l) (c'.1.idx.nb p l) := by
  cases hs with
  | mk i hi g u k hact hg =>
  rename_i s ts
  simp only at h ⊢
  have hti : ts[i]? = some (.act g u k) := by rw [List.getElem?_eq_getElem hi, hact]
  have hilt : i < jobs.length := h.tlen ▸ hi
  have hji : jobs[i]? = some jobs[i] := List.getElem?_eq_getElem hilt
  have hplt : i < ph.length := by rw [h.len]; exact hilt
  have hpi : ph[i]? = some ph[i] := List.getElem?_eq_getElem hplt
  generalize jobs[i] = j at hji
  generalize ph[i] = a at hpi
  have hT := h.thr i j a _ hji hpi hti
  cases a with
  | idle =>
    obtain ⟨hprog, -, hlev, -⟩ := hT
    unfold Job.prog insertP at hprog
    cases hprog
    exact Or.inr (.refl _ _)
  | added r =>
    obtain ⟨hprog, -⟩ := hT
    unfold countP at hprog
    cases hprog
    exact Or.inr (.refl _ _)
  | running r rk =>
    obtain ⟨hsafe, -⟩ := hT
    exact ((hsafe s h.env (Rel.refl _ _ _)).2 hg).1.imp p l

theorem sysInv_len {s0 : CSt T} {jobs : List (Job T)} {c c' : CSt T × List (Prog (CSt T) Unit)}
    (hs : Step c c') {ph : List (Phase T)} (h : SysInvB B P cfg fuel N D W s0 jobs c.1 c.2 ph)
    (p : PointId) (l : Nat) : (c.1.idx.nb p l).length ≤ (c'.1.idx.nb p l).length := by
  cases hs with
  | mk i hi g u k hact hg =>
  rename_i s ts
  simp only at h ⊢
  have hti : ts[i]? = some (.act g u k) := by rw [List.getElem?_eq_getElem hi, hact]
  have hilt : i < jobs.length := h.tlen ▸ hi
  have hji : jobs[i]? = some jobs[i] := List.getElem?_eq_getElem hilt
  have hplt : i < ph.length := by rw [h.len]; exact hilt
  have hpi : ph[i]? = some ph[i] := List.getElem?_eq_getElem hplt
  generalize jobs[i] = j at hji
  generalize ph[i] = a at hpi
  have hT := h.thr i j a _ hji hpi hti
  cases a with
  | idle =>
    obtain ⟨hprog, -, hlev, -⟩ := hT
    unfold Job.prog insertP at hprog
    cases hprog
    exact Nat.le_refl _
  | added r =>
    obtain ⟨hprog, -⟩ := hT
    unfold countP at hprog
    cases hprog
    exact Nat.le_refl _
  | running r rk =>
    obtain ⟨hsafe, -⟩ := hT
    exact ((hsafe s h.env (Rel.refl _ _ _)).2 hg).1.len p l

theorem steps_improves (L : P.Lawful) (hfu : N + 1 ≤ fuel) {s0 : CSt T} (hB : B.Owned s0.idx) {jobs : List (Job T)}
    {c c' : CSt T × List (Prog (CSt T) Unit)} (hs : Steps c c') {ph : List (Phase T)}
    (h : SysInvB B P cfg fuel N D W s0 jobs c.1 c.2 ph) (p : PointId) (l : Nat) :
    B.wild p l ∨ Improves (degreeBound cfg l) (c.1.idx.nb p l) (c'.1.idx.nb p l) := by
  induction hs with
  | refl => exact Or.inr (.refl _ _)
  | step hs1 hstep ih =>
    obtain ⟨ph1, h1⟩ := sysInv_steps L hfu hB hs1 h
    rcases ih with ih | ih
    · exact Or.inl ih
    · exact (sysInv_improves hstep h1 p l).imp id ih.trans

theorem improves_flags {ext kp : Bool} {l : Nat} {a b : List (PWO T)} :
    Improves (degreeBound (cfg.withFlags ext kp) l) a b ↔ Improves (degreeBound cfg l) a b := Iff.rfl

end Verif
