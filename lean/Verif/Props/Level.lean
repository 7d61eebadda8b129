import Verif.Level
import Verif.Props.Insert

set_option autoImplicit false

/-!
# Properties of the level generator (C27, C28)
-/

namespace Verif

/-- **C27** Whatever the sampled value (any double, NaN and infinities included) and the second sample
(in `0..maxlevel`, the contract of `Uniform`), the level is in range; and it is the integer part of
the sampled value when this is in range (`F64.units x / F64.U` is the absolute value of `x`). -/
theorem C27_level_range (g : LayerGen) (hm : 0 < g.maxlevel) (level : F64) (draw : Nat)
    (hd : draw < g.maxlevel) :
    ∃ l, g.generate level draw = .ok l ∧ l < g.maxlevel ∧
      (∀ n, level.isNaN = false → level.isInf = false → level.sign = false → n < g.maxlevel →
        n < 2 ^ 64 → n * F64.U ≤ level.units → level.units < (n + 1) * F64.U → l = n) ∧
      (level.isNaN = true ∨ level.sign = true → l = 0) := by
  unfold LayerGen.generate
  simp only
  by_cases h : g.maxlevel ≤ level.floorUsize
  · rw [if_pos h, if_neg (by omega)]
    refine ⟨draw, rfl, hd, ?_, ?_⟩
    · intro n h1 h2 h3 h4 _ h5 h6
      exfalso
      unfold F64.floorUsize at h
      rw [h1, h2, h3] at h
      simp only [Bool.false_eq_true, if_false] at h
      have h7 : level.units / F64.U ≤ n := Nat.lt_succ_iff.1 ((Nat.div_lt_iff_lt_mul F64.U_pos).2 h6)
      have h8 : Nat.min (level.units / F64.U) (2 ^ 64 - 1) ≤ level.units / F64.U := Nat.min_le_left _ _
      omega
    · intro h1
      exfalso
      have : level.floorUsize = 0 := by
        unfold F64.floorUsize
        rcases h1 with h1 | h1
        · rw [if_pos h1]
        · rw [h1]; simp
      omega
  · rw [if_neg h]
    refine ⟨level.floorUsize, rfl, by omega, ?_, ?_⟩
    · intro n h1 h2 h3 h4 hn h5 h6
      unfold F64.floorUsize
      rw [h1, h2, h3]
      simp only [Bool.false_eq_true, if_false]
      have h7 : level.units / F64.U ≤ n := Nat.lt_succ_iff.1 ((Nat.div_lt_iff_lt_mul F64.U_pos).2 h6)
      have h8 : n ≤ level.units / F64.U := (Nat.le_div_iff_mul_le F64.U_pos).2 h5
      have h9 : level.units / F64.U = n := by omega
      rw [h9]
      exact Nat.min_eq_left (by omega)
    · intro h1
      unfold F64.floorUsize
      rcases h1 with h1 | h1
      · rw [if_pos h1]
      · rw [h1]; simp

/-- 2.5 gives level 2; infinity is sent to the second sample -/
example : ((LayerGen.mk F64.one 16).generate ⟨false, Fin.ofNat _ 0x4004000000000000⟩ 7).toOption = some 2 ∧
    ((LayerGen.mk F64.one 16).generate ⟨false, Fin.ofNat _ 0x7ff0000000000000⟩ 7).toOption = some 7 ∧
    ((LayerGen.mk F64.one 16).generate F64.nan 7).toOption = some 0 := by decide +kernel

/-- **C28** `modify_level_scale(f)` multiplies the scale by a factor between 0.2 and 1, `f` itself if it
is in this range, 0.2 for NaN; the scale keeps its sign, does not grow, and is not smaller than 0.2
times the old one (`key` is the order of doubles; the multiplication is the rounded one). -/
theorem C28_level_scale (g : LayerGen) (f : F64) :
    ∃ k : F64, (g.modifyLevelScale f) = ⟨F64.mul g.scale k, g.maxlevel⟩ ∧
      F64.fifth.le k = true ∧ k.le F64.one = true ∧
      (F64.fifth.le f = true → f.le F64.one = true → k = f) ∧
      (f.isNaN = true → k = F64.fifth) ∧
      (f.lt F64.fifth = true → k = F64.fifth) ∧
      (F64.one.lt f = true → k = F64.one) ∧
      (g.scale.isNaN = false →
        (g.modifyLevelScale f).scale.sign = g.scale.sign ∧
        (g.modifyLevelScale f).scale.mag.val ≤ g.scale.mag.val ∧
        (F64.mul g.scale F64.fifth).mag.val ≤ (g.modifyLevelScale f).scale.mag.val) := by
  have k1 : F64.fifth.key = 0x3fc999999999999a := by decide
  have k2 : F64.one.key = 0x3ff0000000000000 := by decide
  have n1 : F64.fifth.isNaN = false := by decide
  have n2 : F64.one.isNaN = false := by decide
  -- the factor
  obtain ⟨k, hk, hlo, hhi, hin, hnan, hlt, hgt⟩ : ∃ k : F64,
      F64.min (F64.max f F64.fifth) F64.one = k ∧
      F64.fifth.le k = true ∧ k.le F64.one = true ∧
      (F64.fifth.le f = true → f.le F64.one = true → k = f) ∧
      (f.isNaN = true → k = F64.fifth) ∧
      (f.lt F64.fifth = true → k = F64.fifth) ∧
      (F64.one.lt f = true → k = F64.one) := by
    refine ⟨_, rfl, ?_⟩
    by_cases hf : f.isNaN = true
    · have : F64.min (F64.max f F64.fifth) F64.one = F64.fifth := by
        unfold F64.max
        rw [if_pos hf]
        decide
      rw [this]
      refine ⟨by decide, by decide, ?_, fun _ => rfl, fun _ => rfl, ?_⟩
      · intro h; simp [F64.le, hf] at h
      · intro h; simp [F64.lt, hf] at h
    · have hf' : f.isNaN = false := by simpa using hf
      by_cases h1 : f.key < F64.fifth.key
      · have : F64.min (F64.max f F64.fifth) F64.one = F64.fifth := by
          unfold F64.max
          rw [if_neg hf, if_neg (by rw [n1]; decide), if_pos h1]
          decide
        rw [this]
        refine ⟨by decide, by decide, ?_, fun h => absurd h hf, fun _ => rfl, ?_⟩
        · intro h; simp [F64.le] at h; omega
        · intro h; simp [F64.lt] at h; omega
      · have hmax : F64.max f F64.fifth = f := by
          unfold F64.max
          rw [if_neg hf, if_neg (by rw [n1]; decide), if_neg h1]
        rw [hmax]
        by_cases h2 : F64.one.key < f.key
        · have : F64.min f F64.one = F64.one := by
            unfold F64.min
            rw [if_neg hf, if_neg (by rw [n2]; decide), if_pos h2]
          rw [this]
          refine ⟨by decide, by decide, ?_, fun h => absurd h hf, ?_, fun _ => rfl⟩
          · intro _ h; simp [F64.le] at h; omega
          · intro h; simp [F64.lt] at h; omega
        · have : F64.min f F64.one = f := by
            unfold F64.min
            rw [if_neg hf, if_neg (by rw [n2]; decide), if_neg h2]
          rw [this]
          refine ⟨?_, ?_, fun _ _ => rfl, fun h => absurd h hf, ?_, ?_⟩
          · simp [F64.le, hf', n1]; omega
          · simp [F64.le, hf', n2]; omega
          · intro h; simp [F64.lt] at h; omega
          · intro h; simp [F64.lt] at h; omega
  have hg : g.modifyLevelScale f = ⟨F64.mul g.scale k, g.maxlevel⟩ := by
    unfold LayerGen.modifyLevelScale LayerGen.setScaleModification
    rw [hk]
  refine ⟨k, hg, hlo, hhi, hin, hnan, hlt, hgt, ?_⟩
  intro hs
  rw [hg]
  simp only [F64.le, Bool.and_eq_true, decide_eq_true_eq] at hlo hhi
  have hsg : k.sign = false := by
    cases hc : k.sign with
    | false => rfl
    | true =>
      have h3 := hlo.2
      simp only [F64.key, hc, if_true] at h3
      have h4 : F64.fifth.sign = false := rfl
      simp only [h4, Bool.false_eq_true, if_false] at h3
      have : F64.fifth.mag.val = 0x3fc999999999999a := by decide
      omega
  have e1 : F64.fifth.mag.val = 0x3fc999999999999a := by decide
  have e2 : F64.one.mag.val = 0x3ff0000000000000 := by decide
  have hk2 : k.key = k.mag.val := by simp [F64.key, hsg]
  have h1 : F64.fifth.mag.val ≤ k.mag.val := by omega
  have h2 : k.mag.val ≤ F64.one.mag.val := by omega
  have m1 := F64.mul_factor (a := g.scale) (b := F64.fifth) (b' := k) hs rfl (by omega) h1 h2
  have m2 := F64.mul_factor (a := g.scale) (b := k) (b' := k) hs hsg (by omega) (Nat.le_refl _) h2
  exact ⟨m2.1, m1.2.2, m1.2.1⟩

/-- **C28**, sequences of calls: the scale is multiplied successively by factors in the range; it never
grows and never changes sign. -/
theorem C28_sequence (fs : List F64) (g : LayerGen) :
    ∃ ks : List F64, ks.length = fs.length ∧
      (∀ k ∈ ks, F64.fifth.le k = true ∧ k.le F64.one = true) ∧
      (fs.foldl LayerGen.modifyLevelScale g) = ⟨ks.foldl F64.mul g.scale, g.maxlevel⟩ ∧
      (g.scale.isNaN = false →
        (fs.foldl LayerGen.modifyLevelScale g).scale.sign = g.scale.sign ∧
        (fs.foldl LayerGen.modifyLevelScale g).scale.mag.val ≤ g.scale.mag.val) := by
  induction fs generalizing g with
  | nil => exact ⟨[], rfl, by simp, rfl, fun _ => ⟨rfl, Nat.le_refl _⟩⟩
  | cons f fs ih =>
    obtain ⟨k, hk, h1, h2, -, -, -, -, h7⟩ := C28_level_scale g f
    obtain ⟨ks, i1, i2, i3, i4⟩ := ih (g.modifyLevelScale f)
    refine ⟨k :: ks, by simp [i1], ?_, ?_, ?_⟩
    · intro k' hk'
      rcases List.mem_cons.1 hk' with rfl | hk'
      · exact ⟨h1, h2⟩
      · exact i2 k' hk'
    · rw [List.foldl_cons, i3, List.foldl_cons, hk]
    · intro hs
      obtain ⟨h8, h9, -⟩ := h7 hs
      have hn : (g.modifyLevelScale f).scale.isNaN = false := by
        have := F64.mag_le_inf hs
        simp only [F64.isNaN, decide_eq_false_iff_not]
        omega
      obtain ⟨j1, j2⟩ := i4 hn
      rw [List.foldl_cons]
      exact ⟨j1.trans h8, Nat.le_trans j2 h9⟩

/-- 0.5 twice from scale 1 gives 0.25; 7 leaves the scale; -1 gives 0.2 -/
example :
    let g : LayerGen := ⟨F64.one, 16⟩
    let half : F64 := ⟨false, Fin.ofNat _ 0x3fe0000000000000⟩
    ([half, half].foldl LayerGen.modifyLevelScale g).scale =
      ⟨false, Fin.ofNat _ 0x3fd0000000000000⟩ ∧
    (g.modifyLevelScale ⟨false, Fin.ofNat _ 0x401c000000000000⟩).scale = F64.one ∧
    (g.modifyLevelScale ⟨true, Fin.ofNat _ 0x3ff0000000000000⟩).scale = F64.fifth := by
  decide +kernel

/-- **C28** (rounding) The scale after a call is the double nearest to the exact product of the old scale by the factor
`k`: for a finite scale, no other magnitude `m` is nearer, and if another one is as near the
last bit of the result is 0. The exact values are the integers `units`, multiples of `U⁻¹`. -/
theorem C28_rounded (g : LayerGen) (f : F64) (hn : g.scale.isNaN = false) (hi : g.scale.isInf = false) :
    ∃ k : F64, F64.fifth.le k = true ∧ k.le F64.one = true ∧ (F64.fifth.le f = true → f.le F64.one = true → k = f) ∧
      ∀ m : Nat, F64.error (g.scale.units * k.units) (g.modifyLevelScale f).scale.mag.val ≤
          F64.error (g.scale.units * k.units) m ∧
        (m ≠ (g.modifyLevelScale f).scale.mag.val →
          F64.error (g.scale.units * k.units) m = F64.error (g.scale.units * k.units) (g.modifyLevelScale f).scale.mag.val →
          (g.modifyLevelScale f).scale.mag.val % 2 = 0) := by
  obtain ⟨k, h1, h2, h3, h4, -, -, -, h5⟩ := C28_level_scale g f
  refine ⟨k, h2, h3, h4, fun m => ?_⟩
  have hk2 : k.isNaN = false ∧ k.isInf = false := by
    simp only [F64.le, Bool.and_eq_true, Bool.not_eq_eq_eq_not, Bool.not_true, decide_eq_true_eq] at h2 h3
    refine ⟨h2.1.2, ?_⟩
    have e1 : F64.one.key = 0x3ff0000000000000 := by decide
    have := h3.2
    cases hki : k.isInf with
    | false => rfl
    | true =>
      have hm : k.mag.val = F64.infMag := by simpa [F64.isInf] using hki
      have e3 : F64.fifth.key = 0x3fc999999999999a := by decide
      have h6 := h2.2
      have e2 : F64.infMag = 0x7ff0000000000000 := by decide
      unfold F64.key at *
      split at this <;> omega
  have hr := F64.roundMag_nearest (g.scale.units * k.units) m
  have hres : (g.modifyLevelScale f).scale.mag.val = F64.roundMag (g.scale.units * k.units) := by
    have h6 := (h5 hn).2.1
    rw [h1] at h6 ⊢
    have hfin := F64.mul_finite hn hk2.1 hi hk2.2
    show (F64.mul g.scale k).mag.val = _
    have h6 : (F64.mul g.scale k).mag.val ≤ g.scale.mag.val := h6
    rw [hfin, F64.mag_ofMag] at h6 ⊢
    have hlt : g.scale.mag.val < F64.infMag := by
      have := F64.mag_le_inf hn
      have : g.scale.mag.val ≠ F64.infMag := by simpa [F64.isInf] using hi
      omega
    unfold F64.cut at h6 ⊢
    split
    · rfl
    · rename_i hc
      rw [if_neg hc] at h6
      omega
  rw [hres]
  exact hr

/-- ties: 0.5 times 3 and 1 units of the subnormal doubles give 2 and 0 -/
example :
    let half : F64 := ⟨false, Fin.ofNat _ 0x3fe0000000000000⟩
    ((⟨⟨false, Fin.ofNat _ 3⟩, 16⟩ : LayerGen).modifyLevelScale half).scale.mag.val = 2 ∧
    ((⟨⟨false, Fin.ofNat _ 1⟩, 16⟩ : LayerGen).modifyLevelScale half).scale.mag.val = 0 := by
  decide +kernel

end Verif
