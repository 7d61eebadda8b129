import Verif.LoadMem

set_option autoImplicit false

/-!
# Arithmetic of the map (for C140)

`DataMap::from_hnswdump` computes the size of a record with `usize`.  In builds with overflow checks (debug) an overflow is a
panic, in others (release) the result is taken modulo `2^64`.  Elsewhere the model computes without bound.
-/

namespace Verif
variable {T : Type}

/-- a `usize` result: `checks` tells whether overflow is checked -/
def usize (checks : Bool) (n : Nat) : Except Fail Nat :=
  if n < 2 ^ 64 then .ok n else if checks then .error .panic else .ok (n % 2 ^ 64)

/-- `residual / record_size`, a panic for zero -/
def divU (n d : Nat) : Except Fail Nat := if d = 0 then .error .panic else .ok (n / d)

/-- `DataMap::from_hnswdump` (/repo/src/datamap.rs 44-228) with the arithmetic of `usize`: product and sum of `record_size`
(153-155), the quotient (163).  Addresses (165-204) stay within the file: `mapped_slice[a..a + len]` panics when `a + len` is too
large, and when it wraps. -/
def DataMap.fromDumpU (checks : Bool) (ty : Ty T) (fs : Dir) (base : String) : Except Fail DataMap :=
  match fs (graphName base) with
  | none => .error .exit
  | some g =>
    match loadDescr g with
    | .error .err => .error .panic
    | .error e => .error e
    | .ok (d, _) =>
      if d.version ≤ 2 then .error .err
      else if ty.name ≠ d.tName then .error .err
      else
        match fs (dataName base) with
        | none => .error .exit
        | some b => do
          let magic ← sliceAt b 0 4
          if ofLE magic ≠ magicDataP then .error .panic
          let dim ← sliceAt b 4 8
          if ofLE dim ≠ d.dim.toNat then .error .err
          let prod ← usize checks (ofLE dim * ty.size)
          let recordSize ← usize checks (20 + prod)
          let n ← divU (b.length - 12) recordSize
          let m ← mapRecords ty.size (ofLE dim) b n 12 []
          .ok { bytes := b, hmap := m, tName := d.tName, dim := d.dim.toNat, distName := d.distName }

theorem usize_small {checks : Bool} {n : Nat} (h : n < 2 ^ 64) : usize checks n = .ok n := by
  unfold usize
  rw [if_pos h]

theorem divU_pos {n d : Nat} (h : 0 < d) : divU n d = .ok (n / d) := by
  unfold divU
  rw [if_neg (by omega)]

/-- a record too short for the dimension is read out of bounds -/
theorem mapRecords_short {size dim n a : Nat} {b : Bytes} {m r : List (DataId × Nat)} (hb : b.length < dim * size)
    (h : mapRecords size dim b n a m = .ok r) : n = 0 ∧ r = m := by
  cases n with
  | zero =>
    unfold mapRecords at h
    injection h with h
    exact ⟨rfl, h.symm⟩
  | succ n =>
    simp only [mapRecords, bind, Except.bind] at h
    split at h
    · cases h
    split at h
    · cases h
    split at h
    · cases h
    split at h
    · cases h
    rename_i v3 h3
    split at h
    · cases h
    rename_i v4 h4
    have hl : ofLE v3 ≤ b.length := by
      unfold sliceAt at h4
      split at h4
      · omega
      · cases h4
    rw [if_pos (by omega)] at h
    cases h

theorem fromDumpU_small (checks : Bool) (ty : Ty T) (fs : Dir) (base : String)
    (hov : ∀ b, fs (dataName base) = some b → 20 + ofLE ((b.drop 4).take 8) * ty.size < 2 ^ 64) :
    DataMap.fromDumpU checks ty fs base = DataMap.fromDump ty fs base := by
  unfold DataMap.fromDumpU DataMap.fromDump
  cases hg : fs (graphName base) with
  | none => rfl
  | some g =>
    simp only
    cases hl : loadDescr g with
    | error e => cases e <;> rfl
    | ok x =>
      obtain ⟨d, g'⟩ := x
      simp only
      by_cases hv : d.version ≤ 2
      · rw [if_pos hv, if_pos hv]
      rw [if_neg hv, if_neg hv]
      by_cases ht : ty.name ≠ d.tName
      · rw [if_pos ht, if_pos ht]
      rw [if_neg ht, if_neg ht]
      cases hd : fs (dataName base) with
      | none => rfl
      | some b =>
        simp only
        cases h1 : sliceAt b 0 4 with
        | error e => rfl
        | ok v1 =>
          simp only [bind, Except.bind]
          by_cases hm : ofLE v1 ≠ magicDataP
          · rw [if_pos hm, if_pos hm]
          rw [if_neg hm, if_neg hm]
          cases h2 : sliceAt b 4 8 with
          | error e => rfl
          | ok v2 =>
            simp only
            by_cases hn : ofLE v2 ≠ d.dim.toNat
            · rw [if_pos hn, if_pos hn]
            rw [if_neg hn, if_neg hn]
            have hv2 : v2 = (b.drop 4).take 8 := by
              unfold sliceAt at h2
              split at h2
              · injection h2 with h2
                exact h2.symm
              · cases h2
            have := hov b hd
            rw [← hv2] at this
            rw [usize_small (by omega)]
            simp only
            rw [usize_small this]
            simp only
            rw [divU_pos (by omega)]

/-- when the sizes do not fit: the headers are good, the map of exact arithmetic is empty -/
theorem fromDumpU_large (checks : Bool) (ty : Ty T) (fs : Dir) (base : String) {b : Bytes} (hd : fs (dataName base) = some b)
    (hov : 2 ^ 64 ≤ 20 + ofLE ((b.drop 4).take 8) * ty.size) (hb : b.length + 20 < 2 ^ 64) :
    DataMap.fromDumpU checks ty fs base = DataMap.fromDump ty fs base ∨
    (∃ m, DataMap.fromDump ty fs base = .ok m ∧ m.hmap = []) ∧
      ((DataMap.fromDumpU checks ty fs base = .error .panic) ∨
        checks = false ∧ ∃ e, e ≠ .err ∧ DataMap.fromDumpU checks ty fs base = .error e) := by
  unfold DataMap.fromDumpU DataMap.fromDump
  cases hg : fs (graphName base) with
  | none => exact .inl rfl
  | some g =>
    simp only
    cases hl : loadDescr g with
    | error e => cases e <;> exact .inl rfl
    | ok x =>
      obtain ⟨d, g'⟩ := x
      simp only
      by_cases hv : d.version ≤ 2
      · rw [if_pos hv, if_pos hv]; exact .inl rfl
      rw [if_neg hv, if_neg hv]
      by_cases ht : ty.name ≠ d.tName
      · rw [if_pos ht, if_pos ht]; exact .inl rfl
      rw [if_neg ht, if_neg ht]
      rw [hd]
      simp only
      cases h1 : sliceAt b 0 4 with
      | error e => exact .inl rfl
      | ok v1 =>
        simp only [bind, Except.bind]
        by_cases hm : ofLE v1 ≠ magicDataP
        · rw [if_pos hm, if_pos hm]; exact .inl rfl
        rw [if_neg hm, if_neg hm]
        cases h2 : sliceAt b 4 8 with
        | error e => exact .inl rfl
        | ok v2 =>
          simp only
          by_cases hn : ofLE v2 ≠ d.dim.toNat
          · rw [if_pos hn, if_pos hn]; exact .inl rfl
          rw [if_neg hn, if_neg hn]
          have hv2 : v2 = (b.drop 4).take 8 := by
            unfold sliceAt at h2
            split at h2
            · injection h2 with h2
              exact h2.symm
            · cases h2
          rw [← hv2] at hov
          have hz : (b.length - 12) / (20 + ofLE v2 * ty.size) = 0 := Nat.div_eq_of_lt (by omega)
          rw [hz]
          simp only [mapRecords]
          cases hp : usize checks (ofLE v2 * ty.size) with
          | error e =>
            have : e = .panic := by
              unfold usize at hp
              split at hp
              · cases hp
              split at hp
              · injection hp with hp; exact hp.symm
              · cases hp
            subst this
            exact .inr ⟨⟨_, rfl, rfl⟩, .inl rfl⟩
          | ok p =>
            simp only
            cases hq : usize checks (20 + p) with
            | error e =>
              have : e = .panic := by
                unfold usize at hq
                split at hq
                · cases hq
                split at hq
                · injection hq with hq; exact hq.symm
                · cases hq
              subst this
              exact .inr ⟨⟨_, rfl, rfl⟩, .inl rfl⟩
            | ok r =>
              have hc : checks = false := by
                cases checks with
                | false => rfl
                | true =>
                  unfold usize at hp hq
                  split at hp
                  · injection hp with hp
                    split at hq
                    · omega
                    · cases hq
                  · cases hp
              simp only
              cases hdv : divU (b.length - 12) r with
              | error e =>
                have : e = .panic := by
                  unfold divU at hdv
                  split at hdv
                  · injection hdv with hdv; exact hdv.symm
                  · cases hdv
                subst this
                exact .inr ⟨⟨_, rfl, rfl⟩, .inl rfl⟩
              | ok n =>
                simp only
                cases hr : mapRecords ty.size (ofLE v2) b n 12 [] with
                | error e => exact .inr ⟨⟨_, rfl, rfl⟩, .inr ⟨hc, e, fun h => mapRecords_not_err _ _ _ (hr.trans (h ▸ rfl)), rfl⟩⟩
                | ok l =>
                  obtain ⟨-, rfl⟩ := mapRecords_short (by omega) hr
                  exact .inl rfl

end Verif
