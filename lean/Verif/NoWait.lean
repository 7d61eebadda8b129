import Verif.LayerInfo

set_option autoImplicit false

/-!
# Accessors do not wait (for C139)
-/

namespace Verif
variable {T α : Type}

/-- Any schedule in which the accessor thread `i` acts `n` times. -/
inductive GTurns (i : Nat) : Nat → GSys T α → GSys T α → Prop
  | refl (m : GSys T α) : GTurns i 0 m m
  | own {n : Nat} {a b c : GSys T α} : GTurns i n a b → OwnStep i b c → GTurns i (n + 1) a c
  | ins {n : Nat} {a : GSys T α} {s s' : CSt T} {ts ts' : List (Prog (CSt T) Unit)} {us : List (Prog (CSt T) α)} :
      GTurns i n a ⟨s, ts, us⟩ → Step (s, ts) (s', ts') → GTurns i n a ⟨s', ts', us⟩
  | other {n j : Nat} {a b c : GSys T α} : GTurns i n a b → j ≠ i → OwnStep j b c → GTurns i n a c

/-- all actions of the program are possible in every state, and there are at most `n` of them if they are made in states
with `K` -/
def Quick {σ : Type} (K : σ → Prop) : Prog σ α → Nat → Prop
  | .act g _ k, n => 0 < n ∧ ∀ s, g s = true ∧ (K s → Quick K (k s) (n - 1))
  | _, _ => True

theorem Quick.more {σ : Type} {K : σ → Prop} {t : Prog σ α} {n n' : Nat} (h : Quick K t n) (hn : n ≤ n') : Quick K t n' := by
  induction t generalizing n n' with
  | ret a => trivial
  | fail e => trivial
  | act g u k ih =>
    exact ⟨Nat.lt_of_lt_of_le h.1 hn, fun s => ⟨(h.2 s).1, fun hk => ih s ((h.2 s).2 hk) (by omega)⟩⟩

theorem Quick.bind {σ β : Type} {K : σ → Prop} {t : Prog σ α} {f : α → Prog σ β} {n n' : Nat} (h : Quick K t n)
    (hf : ∀ a, Quick K (f a) n') : Quick K (t.bind f) (n + n') := by
  induction t generalizing n with
  | ret a => exact (hf a).more (by omega)
  | fail e => trivial
  | act g u k ih =>
    refine ⟨by have := h.1; omega, fun s => ⟨(h.2 s).1, fun hk => (ih s ((h.2 s).2 hk)).more ?_⟩⟩
    have := h.1
    omega

theorem Quick.read {σ : Type} {K : σ → Prop} {k : σ → Prog σ α} {n : Nat} (h : ∀ s, K s → Quick K (k s) n) :
    Quick K (Prog.read k) (n + 1) :=
  ⟨by omega, fun s => ⟨rfl, h s⟩⟩

section
variable {K : CSt T → Prop}

theorem lookP_quick (f : Idx T → α) : Quick K (lookP f) 1 := Quick.read fun _ _ => trivial

theorem layerNbP_quick (l : Nat) : Quick K (layerNbP l : Prog (CSt T) Nat) 2 := by
  apply Quick.read
  intro s _
  split
  · apply Quick.read
    intro s' _
    split <;> trivial
  · trivial

theorem pointP_quick (g : Ref T → α) (l : Nat) (r : Int) : Quick K (pointP g l r) 4 := by
  unfold pointP
  split
  · trivial
  · refine (lookP_quick _).bind (n' := 3) fun ml => ?_
    split
    · refine (layerNbP_quick _).bind (n' := 1) fun n => ?_
      split
      · apply Quick.read
        intro s _
        split
        · trivial
        · split <;> trivial
      · trivial
    · trivial

theorem infoLoop_quick : ∀ (ls out : List Nat), Quick K (infoLoop ls out : Prog (CSt T) (List Nat)) ls.length := by
  intro ls
  induction ls with
  | nil => intro out; trivial
  | cons l ls ih =>
    intro out
    apply Quick.read
    intro s _
    split
    · trivial
    · exact ih _

end

theorem layerInfoP_quick (n : Nat) :
    Quick (fun s => getMaxLevelObserved s.idx ≤ n) (layerInfoP : Prog (CSt T) (List Nat)) (n + 2) := by
  refine ⟨by omega, fun s => ⟨rfl, fun hs => ?_⟩⟩
  refine (infoLoop_quick _ _).more ?_
  rw [List.length_range]
  omega

theorem GTurns.steps {i k : Nat} {m0 m : GSys T α} (h : GTurns i k m0 m) : GSteps m0 m := by
  induction h with
  | refl => exact .refl _
  | own _ hs ih => exact .step ih (.acc _ hs)
  | ins _ hs ih => exact .step ih (.ins hs)
  | other _ _ hs ih => exact .step ih (.acc _ hs)

/-- a thread with a quick program, whatever the others do -/
theorem quick_turns {K : CSt T → Prop} {i n k : Nat} {m0 m : GSys T α} {p : Prog (CSt T) α} (hp : m0.acc[i]? = some p)
    (hq : Quick K p n) (hK : ∀ m, GSteps m0 m → K m.st) (h : GTurns i k m0 m) :
    ∃ t, m.acc[i]? = some t ∧ k ≤ n ∧ Quick K t (n - k) := by
  induction h with
  | refl => exact ⟨p, hp, Nat.zero_le _, hq⟩
  | @own _ _ b _ hb hs ih =>
    obtain ⟨t, h1, h2, h3⟩ := ih hp hK
    obtain ⟨g, u, k', ha, _, rfl⟩ := hs
    rw [ha] at h1
    cases h1
    obtain ⟨h4, h5⟩ := h3
    refine ⟨k' b.st, ?_, by omega, ?_⟩
    · have hlt : i < b.acc.length := (List.getElem?_eq_some_iff.1 ha).1
      exact List.getElem?_set_self hlt
    · exact ((h5 b.st).2 (hK _ hb.steps)).more (by omega)
  | ins _ _ ih => exact ih hp hK
  | other _ hne hs ih =>
    obtain ⟨t, h1, h2⟩ := ih hp hK
    obtain ⟨g, u, k', ha, _, rfl⟩ := hs
    refine ⟨t, ?_, h2⟩
    dsimp only
    rw [List.getElem?_set_ne hne]
    exact h1

theorem quick_free {K : CSt T → Prop} {i n k : Nat} {m0 m : GSys T α} {p : Prog (CSt T) α} (hp : m0.acc[i]? = some p)
    (hq : Quick K p n) (hK : ∀ m, GSteps m0 m → K m.st) (h : GTurns i k m0 m) :
    k ≤ n ∧ ((∃ a, m.acc[i]? = some (.ret a)) ∨ (∃ e, m.acc[i]? = some (.fail e)) ∨ k < n ∧ ∃ m', OwnStep i m m') := by
  obtain ⟨t, h1, h2, h3⟩ := quick_turns hp hq hK h
  refine ⟨h2, ?_⟩
  cases t with
  | ret a => exact .inl ⟨a, h1⟩
  | fail e => exact .inr (.inl ⟨e, h1⟩)
  | act g u k' => exact .inr (.inr ⟨by have := h3.1; omega, _, g, u, k', h1, (h3.2 _).1, rfl⟩)

end Verif
