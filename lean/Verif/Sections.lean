import Verif.Reach
import Verif.Examples

set_option autoImplicit false

/-!
# Number of lock sections of an insertion

`Depth I n t`: the program `t` performs at most `n` actions, if every state it meets satisfies `I`.
-/

namespace Verif
variable {T : Type} {σ α β : Type}

/-- at most `n` actions in states satisfying `I`, then a result satisfying `A` -/
def Depth (I : σ → Prop) (A : α → Prop) : Nat → Prog σ α → Prop
  | _, .ret a => A a
  | _, .fail _ => True
  | 0, .act .. => False
  | n + 1, .act _ _ k => ∀ s, I s → Depth I A n (k s)

namespace Depth
variable {I : σ → Prop} {A : α → Prop} {B : β → Prop}

theorem ret {n : Nat} {a : α} (h : A a) : Depth I A n (.ret a) := by
  cases n <;> exact h

theorem fail {n : Nat} {e : Panic} : Depth I A n (.fail e) := by
  cases n <;> exact True.intro

theorem mono {t : Prog σ α} : ∀ {n m : Nat}, n ≤ m → Depth I A n t → Depth I A m t := by
  induction t with
  | ret a => intro n m _ h; exact ret (by cases n <;> exact h)
  | fail e => intros; exact fail
  | act g u k ih =>
    intro n m hnm h
    cases n with
    | zero => exact h.elim
    | succ n =>
      cases m with
      | zero => omega
      | succ m => exact fun s hs => ih s (by omega) (h s hs)

theorem bind {f : α → Prog σ β} {t : Prog σ α} {m : Nat} (hf : ∀ a, A a → Depth I B m (f a)) :
    ∀ {n : Nat}, Depth I A n t → Depth I B (n + m) (t.bind f) := by
  induction t with
  | ret a => intro n h; exact (hf a (by cases n <;> exact h)).mono (by omega)
  | fail e => intros; exact fail
  | act g u k ih =>
    intro n h
    cases n with
    | zero => exact h.elim
    | succ n =>
      rw [show n + 1 + m = (n + m) + 1 by omega]
      exact fun s hs => ih s (h s hs)

theorem act {g : σ → Bool} {u : σ → σ} {k : σ → Prog σ α} {n : Nat}
    (h : ∀ s, I s → Depth I A n (k s)) : Depth I A (n + 1) (.act g u k) := h

theorem read {k : σ → Prog σ α} {n : Nat} (h : ∀ s, I s → Depth I A n (k s)) :
    Depth I A (n + 1) (.read k) := h

theorem ofExcept {x : Except Panic β} {f : β → Prog σ α} {n : Nat} (h : ∀ b, Depth I A n (f b)) :
    Depth I A n (.ofExcept x f) := by
  cases x with
  | error e => exact fail
  | ok b => exact h b

end Depth

/-- what the bound on the actions of an insertion needs to know of the states: the length of the lists of
the points that are not older (`O`), and the layer of the entry point -/
structure SecInv (O : PointId → Prop) (cfg : Cfg T) (c : CSt T) : Prop where
  len : ∀ p l, O p → (c.idx.nb p l).length ≤ 2 * cfg.maxNb
  new : ∀ l, O ⟨l, (c.idx.layer l).length⟩
  entry : ∀ e, c.idx.entry = some e → e.pid.layer < cfg.maxLayer

theorem secInv_of {cfg : Cfg T} {c : CSt T} (h : IdxOK cfg c.idx) : SecInv (fun _ => True) cfg c := by
  refine ⟨?_, fun _ => trivial, ?_⟩
  · intro p l _
    have := h.bound p l
    unfold degreeBound at this
    split at this <;> omega
  · intro e he
    obtain ⟨l, hl⟩ := stored_iff.1 (h.entry e he)
    obtain ⟨r, hr⟩ := List.mem_iff_getElem?.1 hl
    have h1 := h.tab.ids l r e hr
    have h2 : l < c.idx.layers.length := by
      unfold Idx.layer at hl
      cases hx : c.idx.layers[l]? with
      | none => rw [hx] at hl; simp at hl
      | some x => exact (List.getElem?_eq_some_iff.1 hx).1
    rw [h1]
    rw [h.tab.len] at h2
    exact h2

section
variable {P : Policy T} {cfg : Cfg T} {O : PointId → Prop} (L : P.Lawful)

theorem loopP_depth (q : List T) (ef l : Nat) : ∀ (n : Nat) (st : SL P),
    Depth (SecInv O cfg) (fun _ => True) n (loopP P cfg q ef l n st) := by
  intro n
  induction n with
  | zero => intro st; exact .fail
  | succ n ih =>
    intro st
    simp only [loopP]
    split
    · exact .ret True.intro
    · exact .fail
    · refine .read ?_
      intro s _
      split
      · exact .fail
      · exact .ret True.intro
      · exact ih _

theorem searchLayerP_depth (fuel : Nat) (q : List T) (ep : Ref T) (ef l : Nat) :
    Depth (SecInv O cfg) (fun _ => True) (fuel + 1) (searchLayerP P cfg fuel q ep ef l) := by
  refine .read ?_
  intro s _
  split
  · exact .fail
  · exact .ret True.intro
  · exact loopP_depth _ _ _ _ _

theorem extendP_depth (l : Nat) (cands : List (Ref T)) : ∀ (w acc : List (Ref T)),
    Depth (SecInv O cfg) (fun _ => True) w.length (extendP l cands w acc) := by
  intro w
  induction w with
  | nil => intro acc; exact .ret True.intro
  | cons p w ih => intro acc; exact .read (fun s _ => ih _)

include L in
theorem selectP_depth (p : Ref T) (cands : P.H) (asked : Nat) (ext : Bool) (l : Nat) (kp : Bool) :
    Depth (SecInv O cfg) (fun _ => True) asked (selectP P cfg p cands asked ext l kp) := by
  unfold selectP
  split
  · exact .ofExcept (fun _ => .ret True.intro)
  · split
    · rename_i h
      refine Depth.mono ?_ (Depth.bind (m := 0) ?_ (extendP_depth l _ _ _))
      · rw [(L.hash_perm _ _ _ _).length_eq, List.length_map]
        exact h
      · intro a _
        exact .ofExcept (fun _ => .ofExcept (fun _ => .ret True.intro))
    · exact .ofExcept (fun _ => .ret True.intro)

theorem upperP_depth (fuel : Nat) (p : Ref T) : ∀ (ls : List Nat) (ep : Ref T) (d : F32),
    Depth (SecInv O cfg) (fun _ => True) (ls.length * (fuel + 3)) (upperP P cfg fuel p ls ep d) := by
  intro ls
  induction ls with
  | nil => intro ep d; exact .ret True.intro
  | cons l ls ih =>
    intro ep d
    rw [show (l :: ls).length * (fuel + 3) = (fuel + 1) + (ls.length * (fuel + 3) + 1 + 1) by
      rw [List.length_cons, Nat.succ_mul]; omega]
    refine Depth.bind ?_ (searchLayerP_depth fuel p.data ep 1 l)
    intro h _
    split
    · exact .fail
    · split
      · exact (ih _ _).mono (by omega)
      · refine .read ?_
        intro s _
        split
        · refine .act ?_
          intro s _
          split
          · exact ih _ _
          · exact ih _ _
        · split
          · exact (ih _ _).mono (by omega)
          · exact (ih _ _).mono (by omega)

include L in
theorem lowerP_depth (fuel : Nat) (p : Ref T) : ∀ (ls : List Nat) (ep : Ref T),
    Depth (SecInv O cfg) (fun _ => True) (ls.length * (fuel + 2 * cfg.maxNb + 2))
      (lowerP P cfg fuel p ls ep) := by
  intro ls
  induction ls with
  | nil => intro ep; exact .ret True.intro
  | cons l ls ih =>
    intro ep
    rw [show (l :: ls).length * (fuel + 2 * cfg.maxNb + 2) =
        (fuel + 1) + (2 * cfg.maxNb + (ls.length * (fuel + 2 * cfg.maxNb + 2) + 1)) by
      rw [List.length_cons, Nat.succ_mul]; omega]
    refine Depth.bind ?_ (searchLayerP_depth fuel p.data ep cfg.efC l)
    intro h _
    refine .ofExcept ?_
    intro nh
    split
    · exact (ih _).mono (by omega)
    · refine Depth.bind ?_ ((selectP_depth L p nh _ _ l _).mono (m := 2 * cfg.maxNb) (by split <;> omega))
      intro v _
      refine .ofExcept ?_
      intro nbrs
      refine .act ?_
      intro s _
      split
      · exact ih _
      · exact ih _

theorem revInner_depth (p : Ref T) {k : Prog (CSt T) Unit} {n : Nat}
    (hk : Depth (SecInv O cfg) (fun _ => True) n k) : ∀ (l : List (PWO T)),
    Depth (SecInv O cfg) (fun _ => True) (l.length + (n + 1)) (revInner P cfg p k l) := by
  intro l
  induction l with
  | nil =>
    simp only [List.length_nil, Nat.zero_add]
    exact .act (fun s _ => hk)
  | cons q l ih =>
    simp only [revInner, List.length_cons]
    rw [show l.length + 1 + (n + 1) = (l.length + (n + 1)) + 1 by omega]
    split
    · exact ih.mono (by omega)
    · refine .act ?_
      intro s _
      split
      · rw [show l.length + (n + 1) = (l.length + n) + 1 by omega]
        exact .act (fun s _ => .fail)
      · exact ih

theorem reverseP_depth (p : Ref T) (hp : O p.pid) {k : Prog (CSt T) Unit} {n : Nat}
    (hk : Depth (SecInv O cfg) (fun _ => True) n k) : ∀ (ls : List Nat),
    Depth (SecInv O cfg) (fun _ => True) (ls.length * (2 * cfg.maxNb + 2) + n) (reverseP P cfg p k ls) := by
  intro ls
  induction ls with
  | nil => simpa [reverseP] using hk
  | cons l ls ih =>
    rw [show (l :: ls).length * (2 * cfg.maxNb + 2) + n =
        (2 * cfg.maxNb + ((ls.length * (2 * cfg.maxNb + 2) + n) + 1)) + 1 by
      rw [List.length_cons, Nat.succ_mul]; omega]
    refine .act ?_
    intro s hs
    exact (revInner_depth p ih _).mono (by have := hs.len p.pid l hp; omega)

/-- the bound -/
def sections (cfg : Cfg T) (n : Nat) : Nat := 4 + cfg.maxLayer * (n + 4 * cfg.maxNb + 4)

include L in
theorem insertP_depth (fuel : Nat) (item : List T × DataId) {level : Nat} (hl : level < cfg.maxLayer) :
    Depth (SecInv O cfg) (fun _ => True) (sections cfg fuel) (insertP P cfg fuel item level) := by
  unfold sections
  rw [show 4 + cfg.maxLayer * (fuel + 4 * cfg.maxNb + 4) =
    ((cfg.maxLayer * (fuel + 4 * cfg.maxNb + 4) + 1) + 1 + 1) + 1 by omega]
  refine .act ?_
  intro s hs
  have hO : O (newRef item level s.idx).pid := hs.new level
  split
  · refine .act ?_
    intro s1 _
    refine .read ?_
    intro s2 hs2
    have hchk : ∀ p : Ref T, Depth (SecInv O cfg) (fun _ => True) 1 (checkEntryP p) := fun p =>
      .act (n := 0) (fun s _ => .ret True.intro)
    split
    · exact (hchk _).mono (by omega)
    · rename_i ep hep
      split
      · exact .ret True.intro
      · have he := hs2.entry ep hep
        have hu : (layersDown ep.pid.layer ((newRef item level s.idx).pid.layer + 1)).length =
            ep.pid.layer - level := by
          simp [layersDown, newRef]
        have hw : (layersDown (newRef item level s.idx).pid.layer 0).length = level + 1 := by
          simp [layersDown, newRef]
        refine Depth.mono ?_ (Depth.bind (fun a _ => Depth.bind (fun b _ =>
          reverseP_depth _ hO (hchk _) _) (lowerP_depth L _ _ _ _)) (upperP_depth _ _ _ _ _))
        rw [hu, hw]
        generalize hA : ep.pid.layer - level = a
        have h1 : a + (level + 1) ≤ cfg.maxLayer := by omega
        have h2 : a * (fuel + 3) ≤ a * (fuel + 4 * cfg.maxNb + 4) := Nat.mul_le_mul_left _ (by omega)
        have h3 : (level + 1) * (fuel + 2 * cfg.maxNb + 2) + (level + 1) * (2 * cfg.maxNb + 2) =
            (level + 1) * (fuel + 4 * cfg.maxNb + 4) := by
          rw [← Nat.mul_add]
          congr 1
          omega
        have h4 : a * (fuel + 4 * cfg.maxNb + 4) + (level + 1) * (fuel + 4 * cfg.maxNb + 4) ≤
            cfg.maxLayer * (fuel + 4 * cfg.maxNb + 4) := by
          rw [← Nat.add_mul]
          exact Nat.mul_le_mul_right _ h1
        omega
  · exact .fail

end

/-- steps of a system of threads, with the threads that made them -/
inductive StepsBy {σ α : Type} : List Nat → σ × List (Prog σ α) → σ × List (Prog σ α) → Prop
  | refl (c) : StepsBy [] c c
  | step {is : List Nat} {a : σ × List (Prog σ α)} {s : σ} {ts : List (Prog σ α)} (i : Nat)
      (hi : i < ts.length) (g u k) : StepsBy is a (s, ts) → ts[i] = .act g u k → g s = true →
      StepsBy (is ++ [i]) a (u s, ts.set i (k s))

theorem StepsBy.steps {is : List Nat} {a b : σ × List (Prog σ α)} (h : StepsBy is a b) : Steps a b := by
  induction h with
  | refl c => exact .refl _
  | step i hi g u k _ ha hg ih => exact .step ih (.mk i hi g u k ha hg)

/-- every execution has its list of threads -/
theorem Steps.by {a b : σ × List (Prog σ α)} (h : Steps a b) : ∃ is, StepsBy is a b := by
  induction h with
  | refl => exact ⟨[], .refl _⟩
  | step _ hb ih =>
    obtain ⟨is, hs⟩ := ih
    cases hb with
    | mk i hi g u k ha hg => exact ⟨is ++ [i], .step i hi g u k hs ha hg⟩

/-- a thread that can make at most `n` steps has made at most `n` -/
theorem StepsBy.count {I : σ → Prop} {A : α → Prop} {is : List Nat} {a b : σ × List (Prog σ α)}
    (h : StepsBy is a b) (hI : ∀ is' c, StepsBy is' a c → I c.1) {n : Nat} {i : Nat} (hi : i < a.2.length)
    (hn : Depth I A n a.2[i]) :
    is.count i ≤ n ∧ ∃ hi' : i < b.2.length, Depth I A (n - is.count i) b.2[i] := by
  induction h with
  | refl c => exact ⟨by simp, hi, by simpa using hn⟩
  | @step is a s ts j hj g u k hs ha hg ih =>
    obtain ⟨h1, h2, h3⟩ := ih hI hi hn
    simp only at h2 h3
    by_cases hij : j = i
    · subst hij
      rw [ha] at h3
      generalize hm : n - is.count j = m at h3
      cases m with
      | zero => exact h3.elim
      | succ m =>
        have hc : (is ++ [j]).count j = is.count j + 1 := by simp
        rw [hc]
        refine ⟨by omega, by simpa using hj, ?_⟩
        simp only [List.getElem_set_self]
        rw [show n - (is.count j + 1) = m by omega]
        exact h3 s (hI _ _ hs)
    · have hc : (is ++ [j]).count i = is.count i := by
        simp [List.count_append, hij]
      rw [hc]
      refine ⟨h1, by simpa using h2, ?_⟩
      simp only [List.getElem_set_ne hij]
      exact h3

end Verif
