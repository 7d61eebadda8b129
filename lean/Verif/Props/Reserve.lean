import Verif.Reserve
import Verif.Props.Law
import Mathlib.Analysis.SpecialFunctions.Log.Deriv
import Mathlib.Analysis.Complex.ExponentialBounds
import Mathlib.Algebra.BigOperators.Intervals
import Mathlib.Tactic.Ring
import Mathlib.Tactic.Linarith
import Mathlib.Tactic.FieldSimp
import Mathlib.Tactic.NormNum
import Mathlib.Tactic.Positivity

set_option autoImplicit false

/-!
# C107: memory reserved for the layers

The comment of `PointIndexation::new` (/repo/src/hnsw.rs 452) announces the expected number of points of each
layer.  A missing `exp` makes the code ask for a multiple of `max_elements` that grows with the layer.
-/

namespace Verif

theorem exp_scale {m : ℕ} (hm : 1 ≤ m) (i : ℕ) :
    Real.exp (-(i : ℝ) / levelScaleR m) = (1 / (m : ℝ)) ^ i := by
  have hm0 : (0 : ℝ) < m := by exact_mod_cast hm
  have : -(i : ℝ) / levelScaleR m = (i : ℝ) * (-Real.log m) := by
    unfold levelScaleR; rw [div_div_eq_mul_div, div_one]; ring
  rw [this, Real.exp_nat_mul, Real.exp_neg, Real.exp_log hm0, one_div]

/-- **C107** (what is reserved) Layer `i` asks for `max_elements` times `m^-i + (i+1) ln m`, rounded. -/
theorem C107_formula {m : ℕ} (hm : 1 ≤ m) (N i : ℕ) :
    reserveSize m N i = ⌊((1 / (m : ℝ)) ^ i + (i + 1) * Real.log m) * N + 1 / 2⌋₊ := by
  unfold reserveSize roundNat reserveFrac
  rw [exp_scale hm]
  have : -((i + 1 : ℕ) : ℝ) / levelScaleR m = -((i + 1) * Real.log m) := by
    unfold levelScaleR; rw [div_div_eq_mul_div, div_one]; push_cast; ring
  rw [this, sub_neg_eq_add]

/-- **C107** (never too little) The reservation of a layer is at least the expected number of its points under
the exponential law, `max_elements * (m^-i - m^-(i+1))`, rounded. -/
theorem C107_enough {m : ℕ} (hm : 1 ≤ m) (N i : ℕ) :
    roundNat (((1 / (m : ℝ)) ^ i - (1 / (m : ℝ)) ^ (i + 1)) * N) ≤ reserveSize m N i := by
  rw [C107_formula hm]
  unfold roundNat
  apply Nat.floor_le_floor
  have h1 : (1 : ℝ) ≤ m := by exact_mod_cast hm
  have h2 : 0 ≤ Real.log m := Real.log_nonneg h1
  have h3 : 0 ≤ (1 / (m : ℝ)) ^ (i + 1) := by positivity
  have h4 : 0 ≤ ((i : ℝ) + 1) * Real.log m := by positivity
  have h5 : (0 : ℝ) ≤ N := Nat.cast_nonneg N
  have : ((1 / (m : ℝ)) ^ i - (1 / (m : ℝ)) ^ (i + 1)) * N ≤ ((1 / (m : ℝ)) ^ i + (i + 1) * Real.log m) * N :=
    mul_le_mul_of_nonneg_right (by linarith) h5
  linarith

/-- **C107** (never too little, actual law) The same for the law of `generate` (`levelProb` of C101), in which the levels
that are too large are spread over all the layers. -/
theorem C107_enough_law {m L i : ℕ} (hm : 2 ≤ m) (hi : i < L) (N : ℕ) :
    roundNat (levelProb (1 / Real.log m) L i * N) ≤ reserveSize m N i := by
  rw [C107_formula (by omega), C101_default hm hi]
  unfold roundNat
  apply Nat.floor_le_floor
  have h1 : (1 : ℝ) ≤ m := by exact_mod_cast (by omega : 1 ≤ m)
  have hL : (1 : ℝ) ≤ L := by exact_mod_cast (by omega : 1 ≤ L)
  have h2 : 0 ≤ Real.log m := Real.log_nonneg h1
  have hq : (1 / (m : ℝ)) ≤ 1 := by rw [div_le_one (by linarith)]; exact h1
  have hq0 : 0 ≤ (1 / (m : ℝ)) := by positivity
  have h3 : (1 / (m : ℝ)) ^ L ≤ (1 / (m : ℝ)) ^ (i + 1) := pow_le_pow_of_le_one hq0 hq (by omega)
  have h6 : (1 / (m : ℝ)) ^ L / L ≤ (1 / (m : ℝ)) ^ L := div_le_self (by positivity) hL
  have h4 : 0 ≤ ((i : ℝ) + 1) * Real.log m := by positivity
  have h5 : (0 : ℝ) ≤ N := Nat.cast_nonneg N
  have : ((1 / (m : ℝ)) ^ i * (1 - 1 / (m : ℝ)) + (1 / (m : ℝ)) ^ L / L) * N
      ≤ ((1 / (m : ℝ)) ^ i + (i + 1) * Real.log m) * N := by
    refine mul_le_mul_of_nonneg_right ?_ h5
    have e : (1 / (m : ℝ)) ^ i * (1 - 1 / (m : ℝ)) = (1 / (m : ℝ)) ^ i - (1 / (m : ℝ)) ^ (i + 1) := by
      rw [pow_succ]; ring
    rw [e]
    linarith
  linarith

/-- **C107 is refuted** (order of the layers) The reservations grow with the layer, although the expected numbers
of points shrink: the emptiest layer gets the largest vector. -/
theorem C107_increasing {m : ℕ} (hm : 1 ≤ m) (N : ℕ) {i j : ℕ} (h : i ≤ j) :
    reserveSize m N i ≤ reserveSize m N j := by
  have h1 : (1 : ℝ) ≤ m := by exact_mod_cast hm
  have step : ∀ k, reserveSize m N k ≤ reserveSize m N (k + 1) := by
    intro k
    rw [C107_formula hm, C107_formula hm]
    apply Nat.floor_le_floor
    have hl : 1 - (m : ℝ)⁻¹ ≤ Real.log m := Real.one_sub_inv_le_log_of_pos (by linarith)
    have hi : (1 / (m : ℝ)) ≤ 1 := by rw [div_le_one (by linarith)]; exact h1
    have hi0 : 0 ≤ (1 / (m : ℝ)) := by positivity
    have hp : (1 / (m : ℝ)) ^ k ≤ 1 := pow_le_one₀ hi0 hi
    have hp0 : 0 ≤ (1 / (m : ℝ)) ^ k := by positivity
    have hd : (1 / (m : ℝ)) ^ k - (1 / (m : ℝ)) ^ (k + 1) ≤ Real.log m := by
      rw [pow_succ]
      have : (1 / (m : ℝ)) ^ k * (1 - 1 / (m : ℝ)) ≤ 1 * (1 - 1 / (m : ℝ)) :=
        mul_le_mul_of_nonneg_right hp (by linarith)
      rw [one_div] at *
      linarith
    have h5 : (0 : ℝ) ≤ N := Nat.cast_nonneg N
    have : ((1 / (m : ℝ)) ^ k + ((k : ℝ) + 1) * Real.log m) * N
        ≤ ((1 / (m : ℝ)) ^ (k + 1) + (((k + 1 : ℕ) : ℝ) + 1) * Real.log m) * N := by
      apply mul_le_mul_of_nonneg_right _ h5
      push_cast
      linarith
    linarith
  induction h with
  | refl => exact le_rfl
  | step _ ih => exact ih.trans (step _)

/-- sum of the reservations from below -/
theorem reserve_sum {m : ℕ} (hm : 1 ≤ m) (N L : ℕ) :
    (L : ℝ) * (L + 1) / 2 * Real.log m * N - L / 2 ≤ ((reserveAll m L N).sum : ℕ) := by
  induction L with
  | zero => simp [reserveAll]
  | succ L ih =>
    have e : (reserveAll m (L + 1) N).sum = (reserveAll m L N).sum + reserveSize m N L := by
      simp [reserveAll, List.range_succ]
    rw [e]
    have hf : ((1 / (m : ℝ)) ^ L + (L + 1) * Real.log m) * N + 1 / 2 < (reserveSize m N L : ℝ) + 1 := by
      rw [C107_formula hm]; exact Nat.lt_floor_add_one _
    have h3 : 0 ≤ (1 / (m : ℝ)) ^ L * N := by positivity
    have c1 : ((L + 1 : ℕ) : ℝ) = L + 1 := by push_cast; ring
    have c2 : (((reserveAll m L N).sum + reserveSize m N L : ℕ) : ℝ)
        = ((reserveAll m L N).sum : ℕ) + (reserveSize m N L : ℝ) := Nat.cast_add _ _
    rw [c1, c2]
    nlinarith

/-- **C107 is refuted** (total) With the usual 16 layers every index of at least two connections and four
expected elements asks for more than 90 times `max_elements` slots; the expected numbers of points add up to at most
`max_elements`. -/
theorem C107_total_refuted {m N : ℕ} (hm : 2 ≤ m) (hN : 4 ≤ N) : 90 * N < (reserveAll m 16 N).sum := by
  have h := reserve_sum (m := m) (by omega) N 16
  have h2 : Real.log 2 ≤ Real.log m := Real.log_le_log (by norm_num) (by exact_mod_cast hm)
  have h3 := Real.log_two_gt_d9
  have h4 : (4 : ℝ) ≤ N := by exact_mod_cast hN
  have h5 : (0.69 : ℝ) * N ≤ Real.log m * N := mul_le_mul_of_nonneg_right (by linarith) (by linarith)
  have : (90 * N : ℝ) < ((reserveAll m 16 N).sum : ℕ) := by
    rw [Nat.cast_ofNat] at h
    nlinarith
  exact_mod_cast this

/-- the expected numbers add up to at most `max_elements` -/
theorem C107_expected_total {m : ℕ} (hm : 1 ≤ m) (N L : ℕ) :
    ∑ i ∈ Finset.range L, ((1 / (m : ℝ)) ^ i - (1 / (m : ℝ)) ^ (i + 1)) * N ≤ N := by
  rw [← Finset.sum_mul, Finset.sum_range_sub']
  have h3 : 0 ≤ (1 / (m : ℝ)) ^ L * N := by positivity
  rw [pow_zero, sub_mul, one_mul]
  linarith

/-- one connection: `s` is infinite and every layer asks for `max_elements` slots -/
theorem C107_one (N i : ℕ) : reserveSize 1 N i = N := by
  rw [C107_formula le_rfl]
  simp only [Nat.cast_one, div_one, one_pow, Real.log_one, mul_zero, add_zero, one_mul]
  rw [Nat.floor_eq_iff (by positivity)]
  constructor <;> linarith

/-- `Hnsw::new(24, 1_000_000, 16, ..)`: more than 90 million slots -/
example : 90000000 < (reserveAll 24 16 1000000).sum := C107_total_refuted (m := 24) (N := 1000000) (by norm_num) (by norm_num)

example : roundNat (levelProb (1 / Real.log (24 : ℕ)) 16 3 * (1000000 : ℕ)) ≤ reserveSize 24 1000000 3 :=
  C107_enough_law (by norm_num) (by norm_num) _

example : reserveSize 24 1000000 0 ≤ reserveSize 24 1000000 15 := C107_increasing (by norm_num) _ (by norm_num)

end Verif
