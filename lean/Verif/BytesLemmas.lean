import Verif.Bytes

set_option autoImplicit false

/-!
# Lemmas on bytes and readers
-/

namespace Verif
variable {σ α β γ : Type}

@[simp] theorem leBytes_length (k n : Nat) : (leBytes k n).length = k := by
  induction k generalizing n with
  | zero => rfl
  | succ k ih => simp [leBytes, ih]

theorem ofLE_leBytes {k n : Nat} (h : n < 256 ^ k) : ofLE (leBytes k n) = n := by
  induction k generalizing n with
  | zero => simp at h; simp [leBytes, ofLE, h]
  | succ k ih =>
    have : n / 256 < 256 ^ k := by
      rw [Nat.div_lt_iff_lt_mul (by decide)]
      rw [Nat.pow_succ] at h; omega
    simp only [leBytes, ofLE, ih this]
    rw [UInt8.toNat_ofNat']
    omega

theorem ofLE_lt (b : Bytes) : ofLE b < 256 ^ b.length := by
  induction b with
  | nil => simp [ofLE]
  | cons x xs ih =>
    have := x.toNat_lt
    simp only [ofLE, List.length_cons, Nat.pow_succ]
    omega

theorem F32.bits_lt (x : F32) : x.bits < 256 ^ 4 := by
  have := x.mag.isLt
  unfold F32.bits; split <;> omega

theorem F32.ofRaw_bits (x : F32) : F32.ofRaw x.bits = x := by
  obtain ⟨s, m, hm⟩ := x
  cases s
  · simp only [F32.ofRaw, F32.bits, Fin.ofNat]
    congr 1
    · simp; omega
    · apply Fin.ext; simp; omega
  · simp only [F32.ofRaw, F32.bits, Fin.ofNat]
    congr 1
    · simp; omega
    · apply Fin.ext; simp; omega

theorem F64.bits_lt (x : F64) : x.bits < 256 ^ 8 := by
  have := x.mag.isLt
  unfold F64.bits; split <;> omega

theorem F64.ofRaw_bits (x : F64) : F64.ofRaw x.bits = x := by
  obtain ⟨s, m, hm⟩ := x
  cases s
  · simp only [F64.ofRaw, F64.bits, Fin.ofNat]
    congr 1
    · simp; omega
    · apply Fin.ext; simp; omega
  · simp only [F64.ofRaw, F64.bits, Fin.ofNat]
    congr 1
    · simp; omega
    · apply Fin.ext; simp; omega

namespace Rd

theorem bind_run (m : Rd σ α) (f : α → Rd σ β) (s : σ) :
    (m >>= f) s = match m s with
      | .error e => .error e
      | .ok (a, s') => f a s' := rfl

theorem pure_run (a : α) (s : σ) : (Pure.pure a : Rd σ α) s = .ok (a, s) := rfl

theorem bind_ok {m : Rd σ α} {f : α → Rd σ β} {s s' : σ} {b : β} (h : (m >>= f) s = .ok (b, s')) :
    ∃ a s1, m s = .ok (a, s1) ∧ f a s1 = .ok (b, s') := by
  rw [bind_run] at h
  cases hm : m s with
  | error e => rw [hm] at h; cases h
  | ok r => obtain ⟨a, s1⟩ := r; rw [hm] at h; exact ⟨a, s1, rfl, h⟩

theorem bind_eq {m : Rd σ α} {f : α → Rd σ β} {s s1 : σ} {a : α} (h : m s = .ok (a, s1)) :
    (m >>= f) s = f a s1 := by rw [bind_run, h]

theorem require_ok {c : Bool} {e : Fail} {s s' : σ} {u : Unit} (h : require c e s = .ok (u, s')) :
    c = true ∧ s' = s := by
  unfold require at h
  split at h
  · rename_i hc; injection h with h; injection h with _ h; exact ⟨hc, h.symm⟩
  · cases h

theorem lift_ok {x : Except Fail α} {s s' : σ} {a : α} (h : lift x s = .ok (a, s')) :
    x = .ok a ∧ s' = s := by
  unfold lift at h
  cases x with
  | error e => cases h
  | ok b => injection h with h; injection h with h1 h2; subst h1; exact ⟨rfl, h2.symm⟩

end Rd

/-! ## Reading what was written -/

/-- On the bytes `b`, whatever follows, the reader gives `a` and leaves what follows. -/
def Parses (m : Rd Bytes α) (b : Bytes) (a : α) : Prop := ∀ r, m (b ++ r) = .ok (a, r)

/-- The same on two files. -/
def Parses2 (m : Rd Two α) (g d : Bytes) (a : α) : Prop :=
  ∀ rg rd, m (g ++ rg, d ++ rd) = .ok (a, (rg, rd))

theorem Parses.pure (a : α) : Parses (Pure.pure a) [] a := fun r => by simp [Rd.pure_run]

theorem Parses.bind {m : Rd Bytes α} {f : α → Rd Bytes β} {b b' : Bytes} {a : α} {c : β}
    (h : Parses m b a) (h' : Parses (f a) b' c) : Parses (m >>= f) (b ++ b') c := by
  intro r
  rw [List.append_assoc, Rd.bind_eq (h _), h']

theorem Parses.bind_nil {m : Rd Bytes α} {f : α → Rd Bytes β} {b : Bytes} {a : α} {c : β}
    (h : Parses m [] a) (h' : Parses (f a) b c) : Parses (m >>= f) b c := h.bind h'

theorem Parses.map {m : Rd Bytes α} {f : α → Rd Bytes β} {b : Bytes} {a : α} {c : β}
    (h : Parses m b a) (h' : Parses (f a) [] c) : Parses (m >>= f) b c := by
  have := h.bind h'
  rwa [List.append_nil] at this

theorem Parses.require {c : Bool} {e : Fail} (h : c = true) : Parses (Rd.require c e) [] () := by
  intro r; simp [Rd.require, h]

theorem Parses.lift {x : Except Fail α} {a : α} (h : x = .ok a) : Parses (Rd.lift x) [] a := by
  intro r; subst h; rfl

theorem parses_readExact (e : Fail) (b : Bytes) : Parses (readExact e b.length) b b := by
  intro r; simp [readExact]

theorem parses_readExact' (e : Fail) {n : Nat} {b : Bytes} (h : b.length = n) :
    Parses (readExact e n) b b := h ▸ parses_readExact e b

theorem parses_readNat (e : Fail) {k n : Nat} (h : n < 256 ^ k) :
    Parses (readNat e k) (leBytes k n) n := by
  unfold readNat
  refine Parses.map (parses_readExact' e (leBytes_length k n)) ?_
  rw [ofLE_leBytes h]
  exact Parses.pure n

theorem parses_byte (e : Fail) (x : UInt8) : Parses (readNat e 1) [x] x.toNat := by
  unfold readNat
  refine Parses.map (a := [x]) (parses_readExact' e rfl) ?_
  have : ofLE [x] = x.toNat := by simp [ofLE]
  rw [this]
  exact Parses.pure _

theorem Parses.rep {m : Rd Bytes α} {f : α → Bytes} {l : List α} (h : ∀ a ∈ l, Parses m (f a) a) :
    Parses (Rd.rep l.length m) (l.flatMap f) l := by
  induction l with
  | nil => exact Parses.pure []
  | cons a l ih =>
    simp only [List.length_cons, Rd.rep, List.flatMap_cons]
    exact (h a (by simp)).bind ((ih (fun b hb => h b (by simp [hb]))).map (Parses.pure _))

theorem Parses2.pure (a : α) : Parses2 (Pure.pure a) [] [] a := fun rg rd => by simp [Rd.pure_run]

theorem Parses2.bind {m : Rd Two α} {f : α → Rd Two β} {g g' d d' : Bytes} {a : α} {c : β}
    (h : Parses2 m g d a) (h' : Parses2 (f a) g' d' c) :
    Parses2 (m >>= f) (g ++ g') (d ++ d') c := by
  intro rg rd
  rw [List.append_assoc, List.append_assoc, Rd.bind_eq (h _ _), h']

theorem Parses2.require {c : Bool} {e : Fail} (h : c = true) : Parses2 (Rd.require c e) [] [] () := by
  intro rg rd; simp [Rd.require, h]

theorem Parses2.lift {x : Except Fail α} {a : α} (h : x = .ok a) :
    Parses2 (Rd.lift x) [] [] a := by
  intro rg rd; subst h; rfl

theorem Parses.onG {m : Rd Bytes α} {b : Bytes} {a : α} (h : Parses m b a) :
    Parses2 (Verif.onG m) b [] a := by
  intro rg rd; simp [Verif.onG, h rg]

theorem Parses.onD {m : Rd Bytes α} {b : Bytes} {a : α} (h : Parses m b a) :
    Parses2 (Verif.onD m) [] b a := by
  intro rg rd; simp [Verif.onD, h rd]

/-- first step reads from the graph file only -/
theorem Parses2.bindG {m : Rd Two α} {f : α → Rd Two β} {g g' d' : Bytes} {a : α} {c : β}
    (h : Parses2 m g [] a) (h' : Parses2 (f a) g' d' c) :
    Parses2 (m >>= f) (g ++ g') d' c := h.bind h'

/-- first step reads from the data file only -/
theorem Parses2.bindD {m : Rd Two α} {f : α → Rd Two β} {g' d d' : Bytes} {a : α} {c : β}
    (h : Parses2 m [] d a) (h' : Parses2 (f a) g' d' c) :
    Parses2 (m >>= f) g' (d ++ d') c := h.bind h'

/-- first step reads nothing -/
theorem Parses2.bind0 {m : Rd Two α} {f : α → Rd Two β} {g' d' : Bytes} {a : α} {c : β}
    (h : Parses2 m [] [] a) (h' : Parses2 (f a) g' d' c) :
    Parses2 (m >>= f) g' d' c := h.bind h'

/-- the rest reads nothing -/
theorem Parses2.map {m : Rd Two α} {f : α → Rd Two β} {g d : Bytes} {a : α} {c : β}
    (h : Parses2 m g d a) (h' : Parses2 (f a) [] [] c) : Parses2 (m >>= f) g d c := by
  have := h.bind h'
  rwa [List.append_nil, List.append_nil] at this

/-! ## Longer inputs -/

/-- A reader that looks at nothing beyond what it consumes: more input does not change a result, nor
an undefined behaviour. -/
structure Ext (m : Rd Two α) : Prop where
  ok : ∀ {g d a g' d'}, m (g, d) = .ok (a, (g', d')) →
    ∀ tg td, m (g ++ tg, d ++ td) = .ok (a, (g' ++ tg, d' ++ td))
  ub : ∀ {g d}, m (g, d) = .error .ub → ∀ tg td, m (g ++ tg, d ++ td) = .error .ub

/-- The same on one file. -/
structure Ext1 (m : Rd Bytes α) : Prop where
  ok : ∀ {g a g'}, m g = .ok (a, g') → ∀ t, m (g ++ t) = .ok (a, g' ++ t)
  ub : ∀ {g}, m g = .error .ub → ∀ t, m (g ++ t) = .error .ub

theorem Ext1.pure (a : α) : Ext1 (Pure.pure a : Rd Bytes α) where
  ok := by intro g b g' h t; injection h with h; injection h with h1 h2; subst h1 h2; rfl
  ub := by intro g h; cases h

theorem Ext1.bind {m : Rd Bytes α} {f : α → Rd Bytes β} (h : Ext1 m) (h' : ∀ a, Ext1 (f a)) :
    Ext1 (m >>= f) where
  ok := by
    intro g b g' hb t
    obtain ⟨a, s1, h1, h2⟩ := Rd.bind_ok hb
    rw [Rd.bind_eq (h.ok h1 t)]
    exact (h' a).ok h2 t
  ub := by
    intro g hb t
    rw [Rd.bind_run] at hb
    cases hm : m g with
    | error e =>
      rw [hm] at hb
      injection hb with hb; subst hb
      rw [Rd.bind_run, h.ub hm t]
    | ok r =>
      obtain ⟨a, s1⟩ := r
      rw [hm] at hb
      rw [Rd.bind_eq (h.ok hm t)]
      exact (h' a).ub hb t

theorem Ext1.require (c : Bool) {e : Fail} : Ext1 (Rd.require c e) where
  ok := by
    intro g b g' h t
    obtain ⟨hc, hs⟩ := Rd.require_ok h
    subst hs; simp [Rd.require, hc]
  ub := by
    intro g h t
    unfold Rd.require at h ⊢
    split at h
    · cases h
    · rename_i hc; rw [if_neg hc]; injection h with h; subst h; rfl

theorem Ext1.lift (x : Except Fail α) : Ext1 (Rd.lift x) where
  ok := by
    intro g b g' h t
    obtain ⟨hc, hs⟩ := Rd.lift_ok h
    subst hc hs; rfl
  ub := by
    intro g h t
    cases x with
    | ok a => cases h
    | error e => injection h with h; subst h; rfl

theorem Ext1.fail (e : Fail) : Ext1 (Rd.fail e : Rd Bytes α) where
  ok := by intro g b g' h t; cases h
  ub := by intro g h t; exact h

theorem ext_readExact {e : Fail} (he : e ≠ .ub) (n : Nat) : Ext1 (readExact e n) where
  ok := by
    intro g b g' h t
    unfold readExact at h ⊢
    split at h
    · rename_i hn
      injection h with h; injection h with h1 h2
      rw [if_pos (by simp; omega), List.take_append_of_le_length hn, List.drop_append_of_le_length hn,
        h1, h2]
    · cases h
  ub := by
    intro g h t
    unfold readExact at h
    split at h
    · cases h
    · injection h with h; exact absurd h he

theorem ext_readNat {e : Fail} (he : e ≠ .ub) (n : Nat) : Ext1 (readNat e n) :=
  (ext_readExact he n).bind fun _ => .pure _

theorem Ext1.rep {m : Rd Bytes α} (h : Ext1 m) (n : Nat) : Ext1 (Rd.rep n m) := by
  induction n with
  | zero => exact .pure _
  | succ n ih => exact h.bind fun _ => ih.bind fun _ => .pure _

theorem Ext.pure (a : α) : Ext (Pure.pure a : Rd Two α) where
  ok := by
    intro g d b g' d' h tg td
    injection h with h; injection h with h1 h2; injection h2 with h2 h3; subst h1 h2 h3; rfl
  ub := by intro g d h; cases h

theorem Ext.bind {m : Rd Two α} {f : α → Rd Two β} (h : Ext m) (h' : ∀ a, Ext (f a)) :
    Ext (m >>= f) where
  ok := by
    intro g d b g' d' hb tg td
    obtain ⟨a, ⟨g1, d1⟩, h1, h2⟩ := Rd.bind_ok hb
    rw [Rd.bind_eq (h.ok h1 tg td)]
    exact (h' a).ok h2 tg td
  ub := by
    intro g d hb tg td
    rw [Rd.bind_run] at hb
    cases hm : m (g, d) with
    | error e =>
      rw [hm] at hb
      injection hb with hb; subst hb
      rw [Rd.bind_run, h.ub hm tg td]
    | ok r =>
      obtain ⟨a, g1, d1⟩ := r
      rw [hm] at hb
      rw [Rd.bind_eq (h.ok hm tg td)]
      exact (h' a).ub hb tg td

theorem Ext.require (c : Bool) {e : Fail} : Ext (Rd.require c e) where
  ok := by
    intro g d b g' d' h tg td
    obtain ⟨hc, hs⟩ := Rd.require_ok h
    injection hs with h1 h2
    subst h1 h2; simp [Rd.require, hc]
  ub := by
    intro g d h tg td
    unfold Rd.require at h ⊢
    split at h
    · cases h
    · rename_i hc; rw [if_neg hc]; injection h with h; subst h; rfl

theorem Ext.lift (x : Except Fail α) : Ext (Rd.lift x) where
  ok := by
    intro g d b g' d' h tg td
    obtain ⟨hc, hs⟩ := Rd.lift_ok h
    injection hs with h1 h2
    subst hc h1 h2; rfl
  ub := by
    intro g d h tg td
    cases x with
    | ok a => cases h
    | error e => injection h with h; subst h; rfl

theorem Ext1.onG {m : Rd Bytes α} (h : Ext1 m) : Ext (Verif.onG m) where
  ok := by
    intro g d b g' d' hb tg td
    unfold Verif.onG at hb ⊢
    cases hm : m g with
    | error e => simp [hm] at hb
    | ok r =>
      obtain ⟨a, g1⟩ := r
      simp only [hm] at hb
      simp only [h.ok hm tg]
      injection hb with hb; injection hb with h1 h2; injection h2 with h2 h3; subst h1 h2 h3; rfl
  ub := by
    intro g d hb tg td
    unfold Verif.onG at hb ⊢
    cases hm : m g with
    | error e => simp only [hm] at hb; injection hb with hb; subst hb; simp only [h.ub hm tg]
    | ok r => simp [hm] at hb

theorem Ext1.onD {m : Rd Bytes α} (h : Ext1 m) : Ext (Verif.onD m) where
  ok := by
    intro g d b g' d' hb tg td
    unfold Verif.onD at hb ⊢
    cases hm : m d with
    | error e => simp [hm] at hb
    | ok r =>
      obtain ⟨a, g1⟩ := r
      simp only [hm] at hb
      simp only [h.ok hm td]
      injection hb with hb; injection hb with h1 h2; injection h2 with h2 h3; subst h1 h2 h3; rfl
  ub := by
    intro g d hb tg td
    unfold Verif.onD at hb ⊢
    cases hm : m d with
    | error e => simp only [hm] at hb; injection hb with hb; subst hb; simp only [h.ub hm td]
    | ok r => simp [hm] at hb

end Verif
