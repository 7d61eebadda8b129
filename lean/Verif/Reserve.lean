import Mathlib.Analysis.SpecialFunctions.Log.Basic
import Mathlib.Algebra.Order.Floor.Semiring

set_option autoImplicit false

/-!
# Memory reserved by `PointIndexation::new`

Real numbers stand for the doubles and the logarithm and the exponential are exact; only `m ≥ 1` is meant
(for `m = 0` the code computes with infinities and reserves nothing).
-/

namespace Verif

/-- `(x.round()) as usize` for `x ≥ 0` (/repo/src/hnsw.rs 455): nearest integer, halves upwards.
Simplified: no saturation at `2^64 - 1`. -/
noncomputable def roundNat (x : ℝ) : ℕ := ⌊x + 1 / 2⌋₊

/-- `s` (/repo/src/hnsw.rs 453). For `m = 1` the code has an infinite `s` and Lean has 0; dividing by it
gives 0 in both. -/
noncomputable def levelScaleR (m : ℕ) : ℝ := 1 / Real.log m

/-- `frac` (/repo/src/hnsw.rs 454), as written: the second term is not inside an exponential. -/
noncomputable def reserveFrac (m i : ℕ) : ℝ :=
  Real.exp (-(i : ℝ) / levelScaleR m) - (-((i + 1 : ℕ) : ℝ) / levelScaleR m)

/-- `expected_size` of layer `i` (/repo/src/hnsw.rs 455): capacity asked for its vector (456). -/
noncomputable def reserveSize (m maxElements i : ℕ) : ℕ := roundNat (reserveFrac m i * maxElements)

/-- all capacities asked by `PointIndexation::new` (/repo/src/hnsw.rs 448-457), lowest layer first -/
noncomputable def reserveAll (m maxLayer maxElements : ℕ) : List ℕ :=
  (List.range maxLayer).map (reserveSize m maxElements)

end Verif
