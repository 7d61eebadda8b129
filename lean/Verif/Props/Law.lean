import Verif.Level
import Mathlib.MeasureTheory.Measure.Lebesgue.Basic
import Mathlib.MeasureTheory.Measure.Real
import Mathlib.Analysis.SpecialFunctions.Log.Basic
import Mathlib.Algebra.Order.Floor.Semifield
import Mathlib.Tactic.FieldSimp
import Mathlib.Tactic.NormNum

set_option autoImplicit false

/-!
# C101: the law of the levels

The comments of `LayerGenerator` (/repo/src/hnsw.rs 315-318, 350-358) announce an exponential law.  Here the
sampled number is a real, uniform between 0 and 1, and the logarithm and the product are exact; the
integer part and the second sample are those of the code (`C101_exact_part`).
-/

namespace Verif
open MeasureTheory

/-- absolute value of a finite double -/
noncomputable def F64.absValue (x : F64) : ℝ := (x.units : ℝ) / (F64.U : ℝ)

/-- `generate` (/repo/src/hnsw.rs 359-370) with exact real arithmetic: `u` is the number sampled in
`[0, 1)` (0 itself has probability 0 and is left out below), `draw` the second sample. -/
noncomputable def idealLevel (scale : ℝ) (maxlevel : ℕ) (u : ℝ) (draw : ℕ) : ℕ :=
  let ulevel := ⌊-Real.log u * scale⌋₊
  if maxlevel ≤ ulevel then draw else ulevel

/-- Probability that `generate` returns `l`: `u` is uniform in `(0, 1)`, `draw` independent of it and
uniform in `0..maxlevel`. -/
noncomputable def levelProb (scale : ℝ) (maxlevel l : ℕ) : ℝ :=
  ∑ d ∈ Finset.range maxlevel,
    (1 / (maxlevel : ℝ)) * volume.real {u : ℝ | u ∈ Set.Ioo 0 1 ∧ idealLevel scale maxlevel u d = l}

/-- **C101** (the part without rounding) For every finite non-negative double, `generate` takes the integer
part of its value or, when this is too large, the second sample. -/
theorem C101_exact_part (g : LayerGen) (hm : 0 < g.maxlevel) (hm2 : g.maxlevel < 2 ^ 64) (level : F64)
    (draw : ℕ) (h1 : level.isNaN = false) (h2 : level.isInf = false) (h3 : level.sign = false) :
    g.generate level draw =
      .ok (if g.maxlevel ≤ ⌊level.absValue⌋₊ then draw else ⌊level.absValue⌋₊) := by
  have hfl : ⌊level.absValue⌋₊ = level.units / F64.U := by
    unfold F64.absValue
    exact Nat.floor_div_eq_div (K := ℝ) _ _
  have hu : level.floorUsize = min (level.units / F64.U) (2 ^ 64 - 1) := by
    simp [F64.floorUsize, h1, h2, h3]
  unfold LayerGen.generate
  simp only [hu, hfl]
  by_cases h : g.maxlevel ≤ level.units / F64.U
  · rw [if_pos (by omega), if_neg (by omega), if_pos h]
  · rw [if_neg (by omega), if_neg h]
    congr 1
    omega

/-- sampled numbers with integer part at least `n` -/
theorem tail_set {s : ℝ} (hs : 0 < s) (n : ℕ) (u : ℝ) (hu : u ∈ Set.Ioo (0 : ℝ) 1) :
    n ≤ ⌊-Real.log u * s⌋₊ ↔ u ≤ Real.exp (-n / s) := by
  have h0 : 0 ≤ -Real.log u * s :=
    mul_nonneg (neg_nonneg.2 (Real.log_nonpos hu.1.le hu.2.le)) hs.le
  rw [Nat.le_floor_iff h0, ← Real.log_le_iff_le_exp hu.1, le_div_iff₀ hs]
  constructor <;> intro h <;> linarith

theorem tail_prob {s : ℝ} (hs : 0 < s) (n : ℕ) :
    volume.real {u : ℝ | u ∈ Set.Ioo 0 1 ∧ n ≤ ⌊-Real.log u * s⌋₊} = Real.exp (-n / s) := by
  have hset : {u : ℝ | u ∈ Set.Ioo 0 1 ∧ n ≤ ⌊-Real.log u * s⌋₊} =
      {u : ℝ | u ∈ Set.Ioo 0 1 ∧ u ≤ Real.exp (-n / s)} := by
    ext u
    constructor
    · rintro ⟨h1, h2⟩; exact ⟨h1, (tail_set hs n u h1).1 h2⟩
    · rintro ⟨h1, h2⟩; exact ⟨h1, (tail_set hs n u h1).2 h2⟩
  rw [hset]
  rcases Nat.eq_zero_or_pos n with rfl | hn
  · have : {u : ℝ | u ∈ Set.Ioo 0 1 ∧ u ≤ Real.exp (-(0 : ℕ) / s)} = Set.Ioo 0 1 := by
      ext u
      constructor
      · exact fun h => h.1
      · intro h
        refine ⟨h, ?_⟩
        simp only [Nat.cast_zero, neg_zero, zero_div, Real.exp_zero]
        exact h.2.le
    rw [this]
    simp
  · have hlt : Real.exp (-n / s) < 1 := by
      rw [Real.exp_lt_one_iff]
      have : (0 : ℝ) < n := by exact_mod_cast hn
      exact div_neg_of_neg_of_pos (by linarith) hs
    have : {u : ℝ | u ∈ Set.Ioo 0 1 ∧ u ≤ Real.exp (-n / s)} = Set.Ioc 0 (Real.exp (-n / s)) := by
      ext u
      constructor
      · exact fun h => ⟨h.1.1, h.2⟩
      · exact fun h => ⟨⟨h.1, h.2.trans_lt hlt⟩, h.2⟩
    rw [this]
    simp [Real.exp_nonneg]

/-- sampled numbers with integer part at least `n`, as a set -/
def tailSet (s : ℝ) (n : ℕ) : Set ℝ := {u : ℝ | u ∈ Set.Ioo 0 1 ∧ n ≤ ⌊-Real.log u * s⌋₊}

theorem tailSet_meas {s : ℝ} (hs : 0 < s) (n : ℕ) : MeasurableSet (tailSet s n) := by
  have : tailSet s n = Set.Ioo 0 1 ∩ Set.Iic (Real.exp (-n / s)) := by
    ext u
    constructor
    · rintro ⟨h1, h2⟩; exact ⟨h1, (tail_set hs n u h1).1 h2⟩
    · rintro ⟨h1, h2⟩; exact ⟨h1, (tail_set hs n u h1).2 h2⟩
  rw [this]
  exact measurableSet_Ioo.inter measurableSet_Iic

theorem tailSet_fin (s : ℝ) (n : ℕ) : volume (tailSet s n) ≠ ⊤ :=
  measure_ne_top_of_subset (fun _ h => h.1) (by simp : volume (Set.Ioo (0 : ℝ) 1) ≠ ⊤)

/-- integer part exactly `n` -/
theorem point_prob {s : ℝ} (hs : 0 < s) (n : ℕ) :
    volume.real (tailSet s n \ tailSet s (n + 1)) = Real.exp (-n / s) - Real.exp (-(n + 1) / s) := by
  have hsub : tailSet s (n + 1) ⊆ tailSet s n := fun u hu => ⟨hu.1, (Nat.le_succ n).trans hu.2⟩
  rw [measureReal_sdiff hsub (tailSet_meas hs _) (tailSet_fin s _)]
  have h1 := tail_prob hs n
  have h2 := tail_prob hs (n + 1)
  push_cast at h2
  exact congrArg₂ (· - ·) h1 h2

theorem ideal_set_ne (s : ℝ) {m l d : ℕ} (hl : l < m) (hd : d ≠ l) :
    {u : ℝ | u ∈ Set.Ioo 0 1 ∧ idealLevel s m u d = l} = tailSet s l \ tailSet s (l + 1) := by
  ext u
  simp only [idealLevel, tailSet, Set.mem_ofPred_eq, Set.mem_sdiff, not_and, not_le]
  constructor
  · rintro ⟨h1, h2⟩
    split at h2
    · exact absurd h2 hd
    · exact ⟨⟨h1, by omega⟩, fun _ => by omega⟩
  · rintro ⟨⟨h1, h2⟩, h3⟩
    have h3 := h3 h1
    refine ⟨h1, ?_⟩
    rw [if_neg (by omega)]
    omega

theorem ideal_set_eq (s : ℝ) {m l : ℕ} (hl : l < m) :
    {u : ℝ | u ∈ Set.Ioo 0 1 ∧ idealLevel s m u l = l} =
      (tailSet s l \ tailSet s (l + 1)) ∪ tailSet s m := by
  ext u
  simp only [idealLevel, tailSet, Set.mem_ofPred_eq, Set.mem_sdiff, not_and, not_le, Set.mem_union]
  constructor
  · rintro ⟨h1, h2⟩
    split at h2
    · exact Or.inr ⟨h1, by assumption⟩
    · exact Or.inl ⟨⟨h1, by omega⟩, fun _ => by omega⟩
  · rintro (⟨⟨h1, h2⟩, h3⟩ | ⟨h1, h2⟩)
    · have h3 := h3 h1
      refine ⟨h1, ?_⟩
      rw [if_neg (by omega)]
      omega
    · exact ⟨h1, by rw [if_pos h2]⟩

/-- **C101** The law announced in the comment, plus the share of the levels that are too large, which is
spread evenly. -/
theorem C101_law {s : ℝ} (hs : 0 < s) {m l : ℕ} (hl : l < m) :
    levelProb s m l = Real.exp (-l / s) - Real.exp (-(l + 1) / s) + Real.exp (-m / s) / m := by
  have hm : (m : ℝ) ≠ 0 := by
    have : 0 < m := by omega
    exact_mod_cast this.ne'
  have hd : Disjoint (tailSet s l \ tailSet s (l + 1)) (tailSet s m) := by
    rw [Set.disjoint_left]
    rintro u ⟨⟨h1, h2⟩, h3⟩ ⟨-, h4⟩
    exact h3 ⟨h1, by omega⟩
  have hstep : ∀ d ∈ Finset.range m,
      (1 / (m : ℝ)) * volume.real {u : ℝ | u ∈ Set.Ioo 0 1 ∧ idealLevel s m u d = l} =
      (1 / (m : ℝ)) * (Real.exp (-l / s) - Real.exp (-(l + 1) / s)) +
        if d = l then Real.exp (-m / s) / m else 0 := by
    intro d _
    by_cases h : d = l
    · subst h
      rw [ideal_set_eq s hl, measureReal_union hd (tailSet_meas hs m)
        (measure_ne_top_of_subset Set.sdiff_subset (tailSet_fin s _)) (tailSet_fin s m),
        point_prob hs, if_pos rfl, show volume.real (tailSet s m) = _ from tail_prob hs m]
      ring
    · rw [ideal_set_ne s hl h, point_prob hs, if_neg h, add_zero]
  unfold levelProb
  rw [Finset.sum_congr rfl hstep, Finset.sum_add_distrib, Finset.sum_const, Finset.card_range,
    Finset.sum_ite_eq' (Finset.range m) l, if_pos (Finset.mem_range.2 hl)]
  rw [nsmul_eq_mul]
  field_simp

/-- **C101** no other level is possible -/
theorem C101_total {s : ℝ} (hs : 0 < s) {m : ℕ} (hm : 0 < m) :
    ∑ l ∈ Finset.range m, levelProb s m l = 1 := by
  have hm' : (m : ℝ) ≠ 0 := by exact_mod_cast hm.ne'
  rw [Finset.sum_congr rfl (fun l hl => C101_law hs (Finset.mem_range.1 hl)), Finset.sum_add_distrib,
    Finset.sum_const, Finset.card_range, nsmul_eq_mul]
  have ht : ∑ l ∈ Finset.range m, (Real.exp (-(l : ℝ) / s) - Real.exp (-((l : ℝ) + 1) / s)) =
      1 - Real.exp (-m / s) := by
    have := Finset.sum_range_sub' (fun l : ℕ => Real.exp (-(l : ℝ) / s)) m
    simpa using this
  rw [ht]
  field_simp
  ring

/-- **C101** "upper layers are of decreasing probabilities" -/
theorem C101_decreasing {s : ℝ} (hs : 0 < s) {m l l' : ℕ} (h : l < l') (hl : l' < m) :
    levelProb s m l' < levelProb s m l := by
  rw [C101_law hs hl, C101_law hs (h.trans hl)]
  have hq : Real.exp (-1 / s) < 1 := by
    rw [Real.exp_lt_one_iff]
    exact div_neg_of_neg_of_pos (by norm_num) hs
  have hsp : ∀ k : ℕ, Real.exp (-k / s) - Real.exp (-(k + 1) / s) =
      Real.exp (-k / s) * (1 - Real.exp (-1 / s)) := by
    intro k
    rw [mul_sub, mul_one, ← Real.exp_add]
    congr 2
    ring
  rw [hsp, hsp]
  have hlt : Real.exp (-(l' : ℝ) / s) < Real.exp (-(l : ℝ) / s) := by
    rw [Real.exp_lt_exp, div_lt_div_iff_of_pos_right hs]
    have : (l : ℝ) < l' := by exact_mod_cast h
    linarith
  have := mul_lt_mul_of_pos_right hlt (sub_pos.2 hq)
  linarith

/-- **C101** The default scale `1 / ln(max_nb_connection)`: the layers shrink by the factor
`max_nb_connection`. -/
theorem C101_default {M m l : ℕ} (hM : 2 ≤ M) (hl : l < m) :
    levelProb (1 / Real.log M) m l =
      (1 / (M : ℝ)) ^ l * (1 - 1 / (M : ℝ)) + (1 / (M : ℝ)) ^ m / m := by
  have hM0 : (0 : ℝ) < M := by exact_mod_cast (by omega : 0 < M)
  have hlog : 0 < Real.log M := Real.log_pos (by exact_mod_cast (by omega : 1 < M))
  have he : ∀ k : ℕ, Real.exp (-k / (1 / Real.log M)) = (1 / (M : ℝ)) ^ k := by
    intro k
    rw [div_div_eq_mul_div, div_one, neg_mul, ← mul_neg, ← Real.log_inv, Real.exp_nat_mul,
      Real.exp_log (inv_pos.2 hM0), one_div]
  have := he (l + 1)
  push_cast at this
  rw [C101_law (by positivity) hl, he, he, this, pow_succ]
  ring

/-- **C101** Probability that a level is drawn again. -/
theorem C101_redraw {M m : ℕ} (hM : 2 ≤ M) :
    volume.real {u : ℝ | u ∈ Set.Ioo 0 1 ∧ m ≤ ⌊-Real.log u * (1 / Real.log M)⌋₊} =
      (1 / (M : ℝ)) ^ m := by
  have hM0 : (0 : ℝ) < M := by exact_mod_cast (by omega : 0 < M)
  have hlog : 0 < Real.log M := Real.log_pos (by exact_mod_cast (by omega : 1 < M))
  rw [tail_prob (by positivity)]
  rw [div_div_eq_mul_div, div_one, neg_mul, ← mul_neg, ← Real.log_inv, Real.exp_nat_mul,
    Real.exp_log (inv_pos.2 hM0), one_div]

/-- **C101** The number in the comment (line 354: "for nb_conn = 10, even with maxlevel = 10, we get
P(l >= maxlevel) = 1.E-13") is wrong: it is 1.E-10. -/
theorem C101_comment_refuted :
    volume.real {u : ℝ | u ∈ Set.Ioo 0 1 ∧ 10 ≤ ⌊-Real.log u * (1 / Real.log (10 : ℕ))⌋₊} = 1e-10 ∧
    (1e-10 : ℝ) ≠ 1e-13 := by
  rw [C101_redraw (by norm_num)]
  norm_num

/-- **C101** A smaller scale (`modify_level_scale`) makes high levels less likely. -/
theorem C101_smaller_scale {s s' : ℝ} (hs : 0 < s) (h : s ≤ s') (n : ℕ) :
    volume.real {u : ℝ | u ∈ Set.Ioo 0 1 ∧ n ≤ ⌊-Real.log u * s⌋₊} ≤
    volume.real {u : ℝ | u ∈ Set.Ioo 0 1 ∧ n ≤ ⌊-Real.log u * s'⌋₊} := by
  rw [tail_prob hs, tail_prob (hs.trans_le h), Real.exp_le_exp, neg_div, neg_div, neg_le_neg_iff]
  exact div_le_div_of_nonneg_left (Nat.cast_nonneg n) hs h

/-- **C101** refuted for `max_nb_connection = 1`: the scale `1 / ln(1)` is infinite; whatever number is
sampled, the level is the second sample, so all levels are equally likely. -/
theorem C101_one_connection_refuted (defScale : ℕ → F64) (h1 : defScale 1 = F64.ofMag false F64.infMag)
    (m : ℕ) (hm : 0 < m) (hm2 : m < 2 ^ 64) (minusLn : F64) (hn : minusLn.isNaN = false)
    (hs : minusLn.sign = false) (h0 : minusLn.units ≠ 0) (draw : ℕ) :
    (LayerGen.new defScale 1 m).generate
      (F64.mul minusLn (LayerGen.new defScale 1 m).scale) draw = .ok draw := by
  have hinf : (F64.ofMag false F64.infMag).isInf = true ∧ (F64.ofMag false F64.infMag).isNaN = false ∧
      (F64.ofMag false F64.infMag).sign = false ∧ (F64.ofMag false F64.infMag).units ≠ 0 := by
    decide +kernel
  have hmul : F64.mul minusLn (F64.ofMag false F64.infMag) = F64.ofMag false F64.infMag := by
    simp [F64.mul, hn, hinf.1, hinf.2.1, hinf.2.2.1, hinf.2.2.2, h0, hs]
  have hfl : (F64.ofMag false F64.infMag).floorUsize = 2 ^ 64 - 1 := by decide +kernel
  simp only [LayerGen.new, h1, hmul, LayerGen.generate, hfl]
  rw [if_pos (by omega), if_neg (by omega)]

/-- a level sampled with `max_nb_connection = 24` and 16 layers: 23/24 of the points are in layer 0, up to
the levels drawn again, and a sixteenth of those -/
example : levelProb (1 / Real.log (24 : ℕ)) 16 0 = 23 / 24 + (1 / 24) ^ 16 / 16 := by
  rw [C101_default (by norm_num) (by norm_num)]
  norm_num

/-- 2.5 is a double: level 2 with three layers, the second sample with two -/
example : let x : F64 := F64.ofMag false (0x4004 * 2 ^ 48)
    x.isNaN = false ∧ x.isInf = false ∧ x.sign = false ∧
    (LayerGen.mk F64.one 3).generate x 1 = .ok 2 ∧ (LayerGen.mk F64.one 2).generate x 1 = .ok 1 := by
  decide +kernel

/-- `-ln(0.5)` is about 0.69, a double that meets the hypotheses of `C101_one_connection_refuted` -/
example : let x : F64 := F64.ofMag false 0x3fe62e42fefa39ef
    x.isNaN = false ∧ x.sign = false ∧ x.units ≠ 0 := by
  decide +kernel

end Verif
