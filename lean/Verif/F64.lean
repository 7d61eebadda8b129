set_option autoImplicit false

/-!
# Double precision floats, as bit patterns

Used for the scale of the random levels (/repo/src/hnsw.rs 317-382, 869-894) and its record in dump
files.  All finite doubles are integer multiples of `2^-1074`; `unitsM` gives this integer.
Multiplication is IEEE-754 round to nearest, ties to even.
-/

namespace Verif

/-- An IEEE-754 binary64 bit pattern: sign bit and the 63 exponent/mantissa bits. -/
structure F64 where
  sign : Bool
  mag : Fin (2 ^ 63)
deriving DecidableEq, Repr

namespace F64

/-- `1.0` as a multiple of `2^-1074` -/
@[irreducible] def U : Nat := 2 ^ 1074

theorem U_pos : 0 < U := by decide +kernel

/-- magnitude bits of `+inf` -/
def infMag : Nat := 0x7ff * 2 ^ 52

/-- the absolute value of the pattern with magnitude bits `m`, as a multiple of `2^-1074`
(for `m = infMag`: the value `2^1024` that infinity replaces) -/
def unitsM (m : Nat) : Nat :=
  if m / 2 ^ 52 = 0 then m else (2 ^ 52 + m % 2 ^ 52) * 2 ^ (m / 2 ^ 52 - 1)

/-- absolute value of a finite double, as a multiple of `2^-1074` -/
def units (x : F64) : Nat := unitsM x.mag.val

def isNaN (x : F64) : Bool := decide (x.mag.val > infMag)

def isInf (x : F64) : Bool := decide (x.mag.val = infMag)

/-- order key of a non-NaN pattern -/
def key (x : F64) : Int := if x.sign then -(x.mag.val : Int) else (x.mag.val : Int)

/-- `<`: false as soon as one side is NaN -/
def lt (a b : F64) : Bool := !a.isNaN && !b.isNaN && decide (a.key < b.key)

/-- `<=` -/
def le (a b : F64) : Bool := !a.isNaN && !b.isNaN && decide (a.key ≤ b.key)

/-- the pattern of the positive number with the given magnitude bits, `+inf` if too large -/
def ofMag (s : Bool) (m : Nat) : F64 := ⟨s, Fin.ofNat _ (if m ≤ infMag then m else infMag)⟩

/-- the quiet NaN -/
def nan : F64 := ⟨false, Fin.ofNat _ 0x7ff8000000000000⟩

/-- `1.0` -/
def one : F64 := ⟨false, Fin.ofNat _ 0x3ff0000000000000⟩

/-- the double nearest to `0.2` -/
def fifth : F64 := ⟨false, Fin.ofNat _ 0x3fc999999999999a⟩

/-- `f64::max`: the other operand if one is NaN -/
def max (a b : F64) : F64 := if a.isNaN then b else if b.isNaN then a else if a.key < b.key then b else a

/-- `f64::min`: the other operand if one is NaN -/
def min (a b : F64) : F64 := if a.isNaN then b else if b.isNaN then a else if b.key < a.key then b else a

/-- the largest magnitude whose value is at most `u` units -/
def floorMag (u : Nat) : Nat :=
  (Nat.log2 u - 52) * 2 ^ 52 + u / 2 ^ (Nat.log2 u - 52)

/-- the magnitude nearest to `q` multiples of `2^-2148`, ties to even -/
def roundMag (q : Nat) : Nat :=
  let m := floorMag (q / U)
  let mid := (unitsM m + unitsM (m + 1)) * U
  if 2 * q < mid then m
  else if mid < 2 * q then m + 1
  else if m % 2 = 0 then m else m + 1

/-- `f64` multiplication -/
def mul (a b : F64) : F64 :=
  if a.isNaN || b.isNaN then nan
  else if a.isInf || b.isInf then
    if a.units = 0 || b.units = 0 then nan else ofMag (a.sign != b.sign) infMag
  else ofMag (a.sign != b.sign) (roundMag (a.units * b.units))

/-- `x.floor() as usize` on a 64 bit platform: NaN and negative numbers give 0, numbers that are too
large give `usize::MAX`. -/
def floorUsize (x : F64) : Nat :=
  if x.isNaN then 0
  else if x.sign then 0
  else if x.isInf then 2 ^ 64 - 1
  else Nat.min (x.units / U) (2 ^ 64 - 1)

/-! ## Values -/

theorem unitsM_small {m : Nat} (h : m < 2 ^ 53) : unitsM m = m := by
  unfold unitsM
  split
  · rfl
  · have : m / 2 ^ 52 = 1 := by omega
    rw [this]
    simp
    omega

theorem unitsM_split (k w : Nat) (h1 : 2 ^ 52 ≤ w) (h2 : w < 2 ^ 53) :
    unitsM (k * 2 ^ 52 + w) = w * 2 ^ k := by
  unfold unitsM
  have e1 : (k * 2 ^ 52 + w) / 2 ^ 52 = k + 1 := by omega
  have e2 : (k * 2 ^ 52 + w) % 2 ^ 52 = w - 2 ^ 52 := by omega
  rw [e1, e2, if_neg (by omega), show k + 1 - 1 = k from rfl, show 2 ^ 52 + (w - 2 ^ 52) = w by omega]

/-- every magnitude from the normal range splits in exponent and mantissa -/
theorem mag_split {m : Nat} (h : 2 ^ 52 ≤ m) :
    ∃ k w, m = k * 2 ^ 52 + w ∧ 2 ^ 52 ≤ w ∧ w < 2 ^ 53 :=
  ⟨m / 2 ^ 52 - 1, m - (m / 2 ^ 52 - 1) * 2 ^ 52, by omega, by omega, by omega⟩

theorem unitsM_succ_split (k w : Nat) (h1 : 2 ^ 52 ≤ w) (h2 : w < 2 ^ 53) :
    unitsM (k * 2 ^ 52 + w + 1) = (w + 1) * 2 ^ k := by
  by_cases h : w + 1 < 2 ^ 53
  · rw [Nat.add_assoc]; exact unitsM_split k (w + 1) (by omega) h
  · have hw : w + 1 = 2 ^ 53 := by omega
    have : k * 2 ^ 52 + w + 1 = (k + 1) * 2 ^ 52 + 2 ^ 52 := by omega
    rw [this, unitsM_split (k + 1) (2 ^ 52) (by omega) (by omega), hw]
    rw [← Nat.pow_add, ← Nat.pow_add, show 52 + (k + 1) = 53 + k by omega]

theorem unitsM_lt_succ (m : Nat) : unitsM m < unitsM (m + 1) := by
  by_cases h : m < 2 ^ 52
  · rw [unitsM_small (by omega), unitsM_small (by omega)]; omega
  · obtain ⟨k, w, rfl, h1, h2⟩ := mag_split (Nat.le_of_not_lt h)
    rw [unitsM_split k w h1 h2, unitsM_succ_split k w h1 h2]
    exact Nat.mul_lt_mul_of_pos_right (Nat.lt_succ_self _) (Nat.two_pow_pos k)

theorem unitsM_lt {m n : Nat} (h : m < n) : unitsM m < unitsM n := by
  induction h with
  | refl => exact unitsM_lt_succ m
  | step _ ih => exact Nat.lt_trans ih (unitsM_lt_succ _)

theorem unitsM_le {m n : Nat} (h : m ≤ n) : unitsM m ≤ unitsM n := by
  rcases Nat.lt_or_eq_of_le h with h | h
  · exact Nat.le_of_lt (unitsM_lt h)
  · rw [h]; exact Nat.le_refl _

theorem unitsM_le_iff {m n : Nat} : unitsM m ≤ unitsM n ↔ m ≤ n := by
  constructor
  · intro h
    apply Classical.byContradiction
    intro hn
    have := unitsM_lt (Nat.lt_of_not_le hn)
    omega
  · exact unitsM_le

/-- `floorMag` -/
theorem floorMag_spec (u : Nat) : unitsM (floorMag u) ≤ u ∧ u < unitsM (floorMag u + 1) := by
  by_cases h : u < 2 ^ 53
  · have hk : Nat.log2 u - 52 = 0 := by
      by_cases h0 : u = 0
      · subst h0; rw [Nat.log2_zero]
      · have := (Nat.log2_lt h0).2 h
        omega
    unfold floorMag
    rw [hk]
    simp only [Nat.zero_mul, Nat.pow_zero, Nat.div_one, Nat.zero_add]
    refine ⟨?_, ?_⟩
    · rw [unitsM_small h]; exact Nat.le_refl _
    · have := unitsM_lt_succ u
      rw [unitsM_small h] at this
      exact this
  · have h0 : u ≠ 0 := by omega
    have hlo : 2 ^ Nat.log2 u ≤ u := Nat.log2_self_le h0
    have hhi : u < 2 ^ (Nat.log2 u + 1) := Nat.lt_log2_self
    have hk : 52 ≤ Nat.log2 u := (Nat.le_log2 h0).2 (by omega)
    obtain ⟨k, hk'⟩ := Nat.exists_eq_add_of_le hk
    unfold floorMag
    rw [hk'] at hlo hhi ⊢
    have e : 52 + k - 52 = k := by omega
    rw [e]
    have hpos := Nat.two_pow_pos k
    have hw1 : 2 ^ 52 ≤ u / 2 ^ k := by
      rw [Nat.le_div_iff_mul_le hpos, ← Nat.pow_add]; exact hlo
    have hw2 : u / 2 ^ k < 2 ^ 53 := by
      rw [Nat.div_lt_iff_lt_mul hpos, ← Nat.pow_add]
      have : 52 + k + 1 = 53 + k := by omega
      rw [← this]; exact hhi
    rw [unitsM_split k _ hw1 hw2, unitsM_succ_split k _ hw1 hw2]
    refine ⟨Nat.div_mul_le_self u (2 ^ k), ?_⟩
    have := Nat.lt_div_mul_add (a := u) hpos
    rw [Nat.add_mul, Nat.one_mul]
    exact this

theorem floorMag_mono {u v : Nat} (h : u ≤ v) : floorMag u ≤ floorMag v := by
  apply Classical.byContradiction
  intro hn
  have h1 := (floorMag_spec u).1
  have h2 := (floorMag_spec v).2
  have := unitsM_le (show floorMag v + 1 ≤ floorMag u by omega)
  omega

theorem floorMag_unitsM (m : Nat) : floorMag (unitsM m) = m := by
  have h := floorMag_spec (unitsM m)
  have h1 := unitsM_le_iff.1 h.1
  apply Classical.byContradiction
  intro hn
  have := unitsM_le (show floorMag (unitsM m) + 1 ≤ m by omega)
  omega

theorem roundMag_bounds (q : Nat) :
    floorMag (q / U) ≤ roundMag q ∧ roundMag q ≤ floorMag (q / U) + 1 := by
  unfold roundMag
  simp only
  split
  · omega
  · split
    · omega
    · split <;> omega

theorem roundMag_mono {q q' : Nat} (h : q ≤ q') : roundMag q ≤ roundMag q' := by
  have hf := floorMag_mono (Nat.div_le_div_right (c := U) h)
  rcases Nat.lt_or_eq_of_le hf with h1 | h1
  · have := (roundMag_bounds q).2
    have := (roundMag_bounds q').1
    omega
  · unfold roundMag
    simp only
    rw [← h1]
    generalize floorMag (q / U) = m
    generalize (unitsM m + unitsM (m + 1)) * U = mid
    split
    · split
      · omega
      · split
        · omega
        · split <;> omega
    · split
      · rw [if_neg (by omega), if_pos (by omega)]
        omega
      · split
        · split
          · omega
          · split
            · omega
            · exact Nat.le_refl _
        · split
          · omega
          · split
            · omega
            · exact Nat.le_refl _

theorem roundMag_exact (m : Nat) : roundMag (unitsM m * U) = m := by
  have hd : unitsM m * U / U = unitsM m := Nat.mul_div_cancel _ U_pos
  unfold roundMag
  simp only
  rw [hd, floorMag_unitsM, if_pos]
  rw [← Nat.mul_assoc]
  apply Nat.mul_lt_mul_of_pos_right _ U_pos
  have := unitsM_lt_succ m
  omega

/-- how far the magnitude `m` is from `q` multiples of `2^-2148` -/
def error (q m : Nat) : Nat := if unitsM m * U ≤ q then q - unitsM m * U else unitsM m * U - q

theorem roundMag_nearest (q m : Nat) : error q (roundMag q) ≤ error q m ∧
    (m ≠ roundMag q → error q m = error q (roundMag q) → roundMag q % 2 = 0) := by
  have hU := U_pos
  obtain ⟨h1, h2⟩ := floorMag_spec (q / U)
  replace h1 : unitsM (floorMag (q / U)) * U ≤ q := (Nat.le_div_iff_mul_le hU).1 h1
  replace h2 : q < unitsM (floorMag (q / U) + 1) * U := (Nat.div_lt_iff_lt_mul hU).1 h2
  unfold roundMag
  simp only
  generalize floorMag (q / U) = f at h1 h2
  have hmid : (unitsM f + unitsM (f + 1)) * U = unitsM f * U + unitsM (f + 1) * U := Nat.add_mul ..
  rw [hmid]
  have hlo : m < f → unitsM m * U < unitsM f * U := fun h => Nat.mul_lt_mul_of_pos_right (unitsM_lt h) hU
  have hhi : f + 1 < m → unitsM (f + 1) * U < unitsM m * U := fun h => Nat.mul_lt_mul_of_pos_right (unitsM_lt h) hU
  have hc : m < f ∨ m = f ∨ m = f + 1 ∨ f + 1 < m := by omega
  unfold error
  generalize hy : unitsM f * U = y at h1 hlo
  generalize hz : unitsM (f + 1) * U = z at h2 hhi
  generalize hx : unitsM m * U = x at hlo hhi
  have hxy : m = f → x = y := fun h => by rw [← hx, ← hy, h]
  have hxz : m = f + 1 → x = z := fun h => by rw [← hx, ← hz, h]
  by_cases c1 : 2 * q < y + z
  · simp only [if_pos c1, hy]
    rw [if_pos h1]
    rcases hc with hc | hc | hc | hc <;> split <;> omega
  · rw [if_neg c1]
    by_cases c2 : y + z < 2 * q
    · simp only [if_pos c2, hz]
      rw [if_neg (by omega)]
      rcases hc with hc | hc | hc | hc <;> split <;> omega
    · rw [if_neg c2]
      by_cases c3 : f % 2 = 0
      · simp only [if_pos c3, hy]
        rw [if_pos h1]
        rcases hc with hc | hc | hc | hc <;> split <;> omega
      · simp only [if_neg c3, hz]
        rw [if_neg (by omega)]
        rcases hc with hc | hc | hc | hc <;> split <;> omega

theorem units_one : unitsM one.mag.val = U := by decide +kernel

/-- a cut magnitude -/
def cut (m : Nat) : Nat := if m ≤ infMag then m else infMag

theorem mag_ofMag (s : Bool) (m : Nat) :
    (ofMag s m).mag.val = cut m := by
  have h : infMag < 2 ^ 63 := by decide
  unfold ofMag cut
  simp only [Fin.ofNat]
  apply Nat.mod_eq_of_lt
  split <;> omega

theorem sign_ofMag (s : Bool) (m : Nat) : (ofMag s m).sign = s := rfl

theorem cut_mono {m n : Nat} (h : m ≤ n) : cut m ≤ cut n := by
  unfold cut
  split <;> split <;> omega

theorem cut_le {m n : Nat} (h : m ≤ n) : cut m ≤ n := by
  unfold cut
  split <;> omega

theorem mag_le_inf {x : F64} (h : x.isNaN = false) : x.mag.val ≤ infMag := by
  simp [isNaN] at h; exact h

theorem roundMag_factor {u b v m : Nat} (h : b ≤ v) (hv : roundMag (u * v) = m) :
    roundMag (u * b) ≤ m := by
  rw [← hv]
  exact roundMag_mono (Nat.mul_le_mul_left u h)

theorem roundMag_units {x b : Nat} (hb : b ≤ U) : roundMag (unitsM x * b) ≤ x :=
  roundMag_factor hb (roundMag_exact x)

theorem unitsM_le_one {b : Nat} (h : b ≤ one.mag.val) : unitsM b ≤ U :=
  Nat.le_trans (unitsM_le h) (Nat.le_of_eq units_one)

theorem mul_finite {a b : F64} (ha : a.isNaN = false) (hb : b.isNaN = false) (ia : a.isInf = false)
    (ib : b.isInf = false) :
    mul a b = ofMag (a.sign != b.sign) (roundMag (unitsM a.mag.val * unitsM b.mag.val)) := by
  unfold mul
  rw [ha, hb, ia, ib]
  rfl

theorem mul_inf {a b : F64} (hb : b.isNaN = false) (ia : a.isInf = true) (h0 : 0 < b.mag.val) :
    mul a b = ofMag (a.sign != b.sign) infMag := by
  have hm : a.mag.val = infMag := by simpa [isInf] using ia
  have ha : a.isNaN = false := by simp only [isNaN, decide_eq_false_iff_not]; omega
  have h1 : a.units ≠ 0 := by
    have := unitsM_lt (show 0 < a.mag.val by rw [hm]; decide)
    unfold units; omega
  have h2 : b.units ≠ 0 := by
    have := unitsM_lt h0
    unfold units; omega
  unfold mul
  rw [ha, hb, ia, if_neg (by simp), if_pos (by simp), if_neg (by simp [h1, h2])]

/-- multiplication by a number of `]0, 1]` does not increase the magnitude, keeps the sign, and is
monotone in the factor -/
theorem mul_factor {a b b' : F64} (ha : a.isNaN = false) (hs : b.sign = false)
    (h0 : 0 < b.mag.val) (h1 : b.mag.val ≤ b'.mag.val) (h2 : b'.mag.val ≤ one.mag.val) :
    (mul a b).sign = a.sign ∧ (mul a b).mag.val ≤ (mul a b').mag.val ∧
      (mul a b').mag.val ≤ a.mag.val := by
  have hone : one.mag.val < infMag := by decide
  have hnb : b.isNaN = false := by simp only [isNaN, decide_eq_false_iff_not]; omega
  have hnb' : b'.isNaN = false := by simp only [isNaN, decide_eq_false_iff_not]; omega
  have hib : b.isInf = false := by simp only [isInf, decide_eq_false_iff_not]; omega
  have hib' : b'.isInf = false := by simp only [isInf, decide_eq_false_iff_not]; omega
  by_cases hinf : a.isInf = true
  · have hm : a.mag.val = infMag := by simpa [isInf] using hinf
    rw [mul_inf hnb hinf h0, mul_inf hnb' hinf (by omega), sign_ofMag, mag_ofMag, mag_ofMag, hs, hm]
    exact ⟨by simp, Nat.le_refl _, cut_le (Nat.le_refl _)⟩
  · have hinf' : a.isInf = false := by simpa using hinf
    rw [mul_finite ha hnb hinf' hib, mul_finite ha hnb' hinf' hib', sign_ofMag, mag_ofMag, mag_ofMag, hs]
    exact ⟨by simp, cut_mono (roundMag_mono (Nat.mul_le_mul_left _ (unitsM_le h1))),
      cut_le (roundMag_units (unitsM_le_one h2))⟩

end F64
end Verif
