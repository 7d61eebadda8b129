set_option autoImplicit false

/-!
# Single precision floats, as bit patterns

The crate only compares distances, negates them and stores their bits; no arithmetic is done on
them outside of the (arbitrary) distance function.  So an `f32` is modelled exactly by its sign
bit and its 31 remaining bits.
-/

namespace Verif

/-- An IEEE-754 binary32 bit pattern: sign bit and the 31 exponent/mantissa bits.
Models the `f32` of `dist_to_ref`, `Neighbour::distance` (/repo/src/hnsw.rs 99-124, 265-271). -/
structure F32 where
  sign : Bool
  mag : Fin (2 ^ 31)
deriving DecidableEq, Repr

namespace F32

/-- `f32::is_nan`: exponent all ones and non-zero mantissa. -/
def isNaN (x : F32) : Bool := decide (x.mag.val > 0x7f800000)

/-- Order key of a non-NaN pattern: IEEE order of non-NaN values is the order of this integer,
with `-0.0` and `+0.0` identified. -/
def key (x : F32) : Int := if x.sign then -(x.mag.val : Int) else (x.mag.val : Int)

/-- unary minus: flips the sign bit only (used in /repo/src/hnsw.rs 951, 972, 1014, 1298, 1627). -/
def neg (x : F32) : F32 := ⟨!x.sign, x.mag⟩

/-- `<` on `f32`: false as soon as one side is NaN. -/
def lt (a b : F32) : Bool := !a.isNaN && !b.isNaN && decide (a.key < b.key)

/-- `<=` on `f32`: false as soon as one side is NaN. -/
def le (a b : F32) : Bool := !a.isNaN && !b.isNaN && decide (a.key ≤ b.key)

/-- `+0.0`. -/
def zero : F32 := ⟨false, 0⟩

/-- The value with the given magnitude bits (`f32::from_bits(n)`); `n` small gives the n-th
subnormal number, so that `ofBits` is order preserving on non-NaN patterns. -/
def ofBits (n : Nat) (h : n < 2 ^ 31 := by decide) : F32 := ⟨false, ⟨n, h⟩⟩

@[simp] theorem neg_neg (x : F32) : x.neg.neg = x := by
  cases x; simp [neg]

@[simp] theorem isNaN_neg (x : F32) : x.neg.isNaN = x.isNaN := rfl

@[simp] theorem key_neg (x : F32) : x.neg.key = - x.key := by
  cases x with
  | mk s m => cases s <;> simp [neg, key]

theorem lt_iff {a b : F32} :
    a.lt b = true ↔ a.isNaN = false ∧ b.isNaN = false ∧ a.key < b.key := by
  simp [lt, and_assoc]

theorem le_iff {a b : F32} :
    a.le b = true ↔ a.isNaN = false ∧ b.isNaN = false ∧ a.key ≤ b.key := by
  simp [le, and_assoc]

@[simp] theorem key_zero : zero.key = 0 := rfl
@[simp] theorem isNaN_zero : zero.isNaN = false := rfl

/-- A distance the code accepts: not NaN and not negative (`-0.0` is accepted, as by
`assert!(f.dist_to_ref >= 0.)`, /repo/src/hnsw.rs 965). -/
def Legal (x : F32) : Prop := x.isNaN = false ∧ 0 ≤ x.key

instance (x : F32) : Decidable x.Legal := by unfold Legal; infer_instance

theorem legal_iff_le {x : F32} : x.Legal ↔ zero.le x = true := by
  rw [le_iff]; simp [Legal]

end F32
end Verif
