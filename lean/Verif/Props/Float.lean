import Verif.F32

set_option autoImplicit false

/-!
# C115: the comparisons of distances are those of IEEE-754 numbers

`F32` compares bit patterns.  Here the number of a pattern is written down as in the standard: exponent and
mantissa, subnormal numbers, infinities and NaN.  All finite numbers are multiples of 2^-149, so integers are
enough.
-/

namespace Verif

/-- what a binary32 pattern stands for; `fin n` is the number `n * 2^-149` -/
inductive Ieee where
  | nan
  | inf (neg : Bool)
  | fin (n : Int)
deriving DecidableEq, Repr

namespace Ieee

/-- IEEE-754 (2019) 3.4: sign `s`, biased exponent `e` of 8 bits, trailing significand `f` of 23 bits -/
def decode (s : Bool) (e f : Nat) : Ieee :=
  if e = 255 then (if f = 0 then .inf s else .nan)
  else
    let v : Int := if e = 0 then (f : Int) else ((2 ^ 23 + f) * 2 ^ (e - 1) : Nat)
    .fin (if s then -v else v)

/-- the numeric order, in which a NaN is not comparable -/
def Lt : Ieee → Ieee → Prop
  | .fin a, .fin b => a < b
  | .fin _, .inf s => s = false
  | .inf s, .fin _ => s = true
  | .inf s, .inf s' => s = true ∧ s' = false
  | _, _ => False

/-- numeric equality: `-0.0` and `0.0` are the same number, a NaN is equal to nothing -/
def Eq : Ieee → Ieee → Prop
  | .fin a, .fin b => a = b
  | .inf s, .inf s' => s = s'
  | _, _ => False

/-- the opposite number -/
def neg : Ieee → Ieee
  | .nan => .nan
  | .inf s => .inf (!s)
  | .fin n => .fin (-n)

end Ieee

namespace F32

/-- the number of a pattern: bits 23 to 30 are the exponent, bits 0 to 22 the significand -/
def ieee (x : F32) : Ieee := Ieee.decode x.sign (x.mag.val / 2 ^ 23) (x.mag.val % 2 ^ 23)

/-- absolute value of the finite patterns, in multiples of 2^-149 -/
def absv (m : Nat) : Nat := if m / 2 ^ 23 = 0 then m % 2 ^ 23 else (2 ^ 23 + m % 2 ^ 23) * 2 ^ (m / 2 ^ 23 - 1)

theorem absv_succ (m : Nat) : absv m < absv (m + 1) := by
  unfold absv
  have hm := Nat.div_add_mod m (2 ^ 23)
  have hm1 := Nat.div_add_mod (m + 1) (2 ^ 23)
  have hr := Nat.mod_lt m (show 0 < 2 ^ 23 by decide)
  have hr1 := Nat.mod_lt (m + 1) (show 0 < 2 ^ 23 by decide)
  have hp : ∀ k : Nat, 0 < 2 ^ k := fun k => Nat.pow_pos (by decide)
  generalize m / 2 ^ 23 = e at *
  generalize m % 2 ^ 23 = f at *
  generalize (m + 1) / 2 ^ 23 = e' at *
  generalize (m + 1) % 2 ^ 23 = f' at *
  by_cases hlast : f + 1 = 2 ^ 23
  · have h1 : e' = e + 1 := by omega
    have h2 : f' = 0 := by omega
    subst h1 h2
    by_cases h0 : e = 0
    · subst h0
      simp
      omega
    · rw [if_neg h0, if_neg (by omega)]
      have : (2 ^ 23 + f) * 2 ^ (e - 1) < (2 ^ 23 + 2 ^ 23) * 2 ^ (e - 1) :=
        Nat.mul_lt_mul_of_pos_right (by omega) (hp _)
      have h3 : 2 ^ (e + 1 - 1) = 2 * 2 ^ (e - 1) := by
        rw [← Nat.pow_succ', Nat.add_sub_cancel]
        congr 1
        omega
      rw [h3, Nat.add_zero]
      omega
  · have h1 : e' = e := by omega
    have h2 : f' = f + 1 := by omega
    subst h1 h2
    split
    · omega
    · exact Nat.mul_lt_mul_of_pos_right (by omega) (hp _)

theorem absv_lt {m n : Nat} (h : m < n) : absv m < absv n := by
  induction n with
  | zero => omega
  | succ n ih =>
    by_cases he : m = n
    · subst he; exact absv_succ m
    · exact Nat.lt_trans (ih (by omega)) (absv_succ n)

theorem absv_lt_iff {m n : Nat} : absv m < absv n ↔ m < n := by
  constructor
  · intro h
    rcases Nat.lt_trichotomy m n with h1 | h1 | h1
    · exact h1
    · subst h1; omega
    · have := absv_lt h1; omega
  · exact absv_lt

theorem absv_zero : absv 0 = 0 := rfl

/-- the three kinds of patterns -/
theorem ieee_cases (x : F32) :
    (x.mag.val < 0x7f800000 ∧ x.ieee = .fin (if x.sign then -(absv x.mag.val : Int) else absv x.mag.val)) ∨
    (x.mag.val = 0x7f800000 ∧ x.ieee = .inf x.sign) ∨ (x.mag.val > 0x7f800000 ∧ x.ieee = .nan) := by
  have hlt := x.mag.isLt
  unfold ieee Ieee.decode
  rcases Nat.lt_trichotomy x.mag.val 0x7f800000 with h | h | h
  · left
    refine ⟨h, ?_⟩
    rw [if_neg (by omega)]
    unfold absv
    by_cases h0 : x.mag.val / 2 ^ 23 = 0
    · simp [h0]
    · simp [h0]
  · right; left
    refine ⟨h, ?_⟩
    rw [h]
    rfl
  · right; right
    refine ⟨h, ?_⟩
    rw [if_pos (by omega), if_neg (by omega)]

end F32

/-- **C115** The NaN of the model are those of the standard. -/
theorem C115_nan (x : F32) : x.isNaN = true ↔ x.ieee = .nan := by
  unfold F32.isNaN
  rw [decide_eq_true_eq]
  rcases x.ieee_cases with ⟨h, e⟩ | ⟨h, e⟩ | ⟨h, e⟩ <;> rw [e] <;> simp <;> omega

/-- **C115** `<` compares the numbers. -/
theorem C115_lt (a b : F32) : a.lt b = true ↔ a.ieee.Lt b.ieee := by
  rw [F32.lt_iff]
  unfold F32.isNaN F32.key
  simp only [decide_eq_false_iff_not]
  have hab := F32.absv_lt_iff (m := a.mag.val) (n := b.mag.val)
  have hba := F32.absv_lt_iff (m := b.mag.val) (n := a.mag.val)
  have ha0 := F32.absv_lt_iff (m := 0) (n := a.mag.val)
  have hb0 := F32.absv_lt_iff (m := 0) (n := b.mag.val)
  rw [F32.absv_zero] at ha0 hb0
  rcases a.ieee_cases with ⟨h, e⟩ | ⟨h, e⟩ | ⟨h, e⟩ <;>
  rcases b.ieee_cases with ⟨h', e'⟩ | ⟨h', e'⟩ | ⟨h', e'⟩ <;> rw [e, e'] <;>
  simp only [Ieee.Lt] <;> cases a.sign <;> cases b.sign <;> simp <;> omega

/-- **C115** `<=` means smaller or equal as numbers. -/
theorem C115_le (a b : F32) : a.le b = true ↔ a.ieee.Lt b.ieee ∨ a.ieee.Eq b.ieee := by
  rw [F32.le_iff]
  unfold F32.isNaN F32.key
  simp only [decide_eq_false_iff_not]
  have hab := F32.absv_lt_iff (m := a.mag.val) (n := b.mag.val)
  have hba := F32.absv_lt_iff (m := b.mag.val) (n := a.mag.val)
  have ha0 := F32.absv_lt_iff (m := 0) (n := a.mag.val)
  have hb0 := F32.absv_lt_iff (m := 0) (n := b.mag.val)
  rw [F32.absv_zero] at ha0 hb0
  rcases a.ieee_cases with ⟨h, e⟩ | ⟨h, e⟩ | ⟨h, e⟩ <;>
  rcases b.ieee_cases with ⟨h', e'⟩ | ⟨h', e'⟩ | ⟨h', e'⟩ <;> rw [e, e'] <;>
  simp only [Ieee.Lt, Ieee.Eq] <;> cases a.sign <;> cases b.sign <;> simp <;> omega

/-- **C115** the sign change used to turn a max heap into a min heap gives the opposite number, so it reverses
comparisons. -/
theorem C115_neg (a b : F32) : a.neg.ieee = a.ieee.neg ∧ (a.neg.lt b.neg = true ↔ b.ieee.Lt a.ieee) := by
  constructor
  · unfold F32.neg F32.ieee Ieee.decode
    simp only []
    split
    · split <;> rfl
    · cases a.sign <;> simp [Ieee.neg]
  · rw [← C115_lt, F32.lt_iff, F32.lt_iff, F32.isNaN_neg, F32.isNaN_neg, F32.key_neg, F32.key_neg]
    constructor <;> rintro ⟨h1, h2, h3⟩ <;> exact ⟨h2, h1, by omega⟩

/-- **C115** the distances for which `assert!(dist_to_ref >= 0.)` passes: `+inf` and `-0.0` do, NaN and
negative numbers do not. -/
theorem C115_legal (x : F32) :
    x.Legal ↔ x.ieee = .inf false ∨ ∃ n : Int, 0 ≤ n ∧ x.ieee = .fin n := by
  unfold F32.Legal F32.isNaN F32.key
  rw [decide_eq_false_iff_not]
  have ha0 := F32.absv_lt_iff (m := 0) (n := x.mag.val)
  rw [F32.absv_zero] at ha0
  rcases x.ieee_cases with ⟨h, e⟩ | ⟨h, e⟩ | ⟨h, e⟩ <;> rw [e] <;> cases x.sign <;> simp <;> omega

/-- 1.0 is 2^149 times the smallest number, 0.1 (rounded) is smaller, both are smaller than infinity, which is
legal, and the two zeros are equal. -/
example : (F32.ofBits 0x3f800000).ieee = .fin (2 ^ 149) ∧
    (F32.ofBits 0x3dcccccd).lt (F32.ofBits 0x3f800000) = true ∧
    (F32.ofBits 0x3f800000).lt (F32.ofBits 0x7f800000) = true ∧ (F32.ofBits 0x7f800000).Legal ∧
    F32.zero.neg.le F32.zero = true ∧ F32.zero.neg.Legal ∧ (F32.ofBits 0x7f800001).ieee = .nan := by
  decide

end Verif
