import Verif.LoadLemmas
import Verif.TruncLemmas

set_option autoImplicit false

/-!
# How a reader fails on a file that is cut
-/

namespace Verif
variable {T : Type}

/-- On a related stream a reader that succeeds gives the same value or fails in one of the ways `F`. -/
def Cut {σ α : Type} (R : σ → σ → Prop) (F : Fail → Prop) (m : Rd σ α) : Prop :=
  ∀ s s' a r, R s s' → m s = .ok (a, r) →
    (∃ e, F e ∧ m s' = .error e) ∨ ∃ r', m s' = .ok (a, r') ∧ R r r'

/-- the second list of bytes is a cut of the first one -/
def CutOf (s s' : Bytes) : Prop := s' <+: s

/-- relation on the two files -/
def OnBoth (A B : Bytes → Bytes → Prop) (s s' : Two) : Prop := A s.1 s'.1 ∧ B s.2 s'.2

namespace Cut
variable {σ α β : Type} {R : σ → σ → Prop} {F : Fail → Prop}

theorem pure (a : α) : Cut R F (Pure.pure a : Rd σ α) := by
  intro s s' b r hR h
  cases h
  exact Or.inr ⟨s', rfl, hR⟩

theorem bind {m : Rd σ α} {f : α → Rd σ β} (h : Cut R F m) (hf : ∀ a, Cut R F (f a)) :
    Cut R F (m >>= f) := by
  intro s s' b r hR hb
  obtain ⟨a, s1, h1, h2⟩ := Rd.bind_ok hb
  rcases h s s' a s1 hR h1 with ⟨e, he, h3⟩ | ⟨r1, h3, hR1⟩
  · refine Or.inl ⟨e, he, ?_⟩
    show Rd.bind m f s' = _
    unfold Rd.bind
    rw [h3]
  · rcases hf a s1 r1 b r hR1 h2 with ⟨e, he, h4⟩ | ⟨r', h4, hR'⟩
    · refine Or.inl ⟨e, he, ?_⟩
      show Rd.bind m f s' = _
      unfold Rd.bind
      rw [h3]
      exact h4
    · refine Or.inr ⟨r', ?_, hR'⟩
      show Rd.bind m f s' = _
      unfold Rd.bind
      rw [h3]
      exact h4

theorem require (c : Bool) (e : Fail) : Cut R F (Rd.require c e : Rd σ Unit) := by
  intro s s' a r hR h
  cases c
  · cases h
  · cases h
    exact Or.inr ⟨s', rfl, hR⟩

theorem lift (x : Except Fail α) : Cut R F (Rd.lift x : Rd σ α) := by
  intro s s' a r hR h
  cases x
  · cases h
  · cases h
    exact Or.inr ⟨s', rfl, hR⟩

theorem fail (e : Fail) : Cut R F (Rd.fail e : Rd σ α) := by
  intro s s' a r hR h
  cases h

theorem rep {m : Rd σ α} (h : Cut R F m) (n : Nat) : Cut R F (Rd.rep n m) := by
  induction n with
  | zero => exact .pure _
  | succ n ih => exact h.bind fun a => ih.bind fun as => .pure _

theorem eq (m : Rd σ α) : Cut Eq F m := by
  rintro s s' a r rfl h
  exact Or.inr ⟨r, h, rfl⟩

theorem onG {m : Rd Bytes α} {A B : Bytes → Bytes → Prop} (h : Cut A F m) : Cut (OnBoth A B) F (onG m) := by
  rintro ⟨g, d⟩ ⟨g', d'⟩ a r ⟨hA, hB⟩ hr
  simp only at hA hB
  unfold Verif.onG at hr
  simp only at hr
  cases hm : m g with
  | error e => rw [hm] at hr; cases hr
  | ok x =>
    obtain ⟨a1, g1⟩ := x
    rw [hm] at hr
    cases hr
    rcases h g g' a g1 hA hm with ⟨e, he, h1⟩ | ⟨g2, h1, hA'⟩
    · exact Or.inl ⟨e, he, by simp [Verif.onG, h1]⟩
    · exact Or.inr ⟨(g2, d'), by simp [Verif.onG, h1], hA', hB⟩

theorem onD {m : Rd Bytes α} {A B : Bytes → Bytes → Prop} (h : Cut B F m) : Cut (OnBoth A B) F (onD m) := by
  rintro ⟨g, d⟩ ⟨g', d'⟩ a r ⟨hA, hB⟩ hr
  simp only at hA hB
  unfold Verif.onD at hr
  simp only at hr
  cases hm : m d with
  | error e => rw [hm] at hr; cases hr
  | ok x =>
    obtain ⟨a1, d1⟩ := x
    rw [hm] at hr
    cases hr
    rcases h d d' a d1 hB hm with ⟨e, he, h1⟩ | ⟨d2, h1, hB'⟩
    · exact Or.inl ⟨e, he, by simp [Verif.onD, h1]⟩
    · exact Or.inr ⟨(g', d2), by simp [Verif.onD, h1], hA, hB'⟩

theorem readExact {eof : Fail} (he : F eof) (n : Nat) : Cut CutOf F (Verif.readExact eof n) := by
  rintro s s' a r ⟨t, rfl⟩ h
  unfold Verif.readExact at h ⊢
  by_cases hn : n ≤ s'.length
  · rw [if_pos (by simp; omega)] at h
    cases h
    refine Or.inr ⟨s'.drop n, ?_, t, ?_⟩
    · rw [if_pos hn, List.take_append_of_le_length hn]
    · rw [List.drop_append_of_le_length hn]
  · exact Or.inl ⟨eof, he, if_neg hn⟩

theorem readNat {eof : Fail} (he : F eof) (n : Nat) : Cut CutOf F (Verif.readNat eof n) :=
  (readExact he n).bind fun _ => .pure _

end Cut

section
variable {F : Fail → Prop} {A B : Bytes → Bytes → Prop}

/-- reads of the graph file fail in one of the ways `F` when it is cut -/
def OkG (F : Fail → Prop) (A : Bytes → Bytes → Prop) : Prop :=
  ∀ n, Cut A F (readNat .err n) ∧ Cut A F (readNat .panic n)

/-- reads of the data file -/
def OkD (F : Fail → Prop) (B : Bytes → Bytes → Prop) : Prop :=
  ∀ n, Cut B F (readNat .exit n) ∧ Cut B F (readExact .exit n)

theorem cut_loadPointGraph (h : OkG F A) (d : Descr) : Cut A F (loadPointGraph d) := by
  unfold loadPointGraph
  refine (h _).2.bind fun _ => ?_
  refine (Cut.require _ _).bind fun _ => ?_
  refine (h _).2.bind fun _ => ?_
  refine (h _).2.bind fun _ => ?_
  refine (h _).2.bind fun _ => ?_
  refine Cut.bind (Cut.rep ?_ _) fun _ => .pure _
  unfold loadList
  refine (h _).2.bind fun _ => Cut.rep ?_ _
  unfold loadNeighbour
  refine (h _).2.bind fun _ => ?_
  refine Cut.bind ?_ fun _ => (h _).2.bind fun _ => .pure _
  unfold loadNbPid
  split
  · exact (h _).2.bind fun _ => (h _).2.bind fun _ => .pure _
  · exact .pure _

theorem cut_loadPoint (h : OkG F A) (h' : OkD F B) (ty : Ty T) (d : Descr) (dm : Option DataMap) :
    Cut (OnBoth A B) F (loadPoint ty d dm false) := by
  unfold loadPoint
  refine (cut_loadPointGraph h d).onG.bind fun x => ?_
  obtain ⟨origin, pid, lists⟩ := x
  simp only [Bool.false_eq_true, if_false]
  refine Cut.bind (Cut.onD ?_) fun _ => .pure _
  unfold loadPointData readRecord
  refine Cut.bind ?_ fun _ => Cut.lift _
  refine (h' _).1.bind fun _ => ?_
  refine (Cut.require _ _).bind fun _ => ?_
  refine (h' _).1.bind fun _ => ?_
  refine (Cut.require _ _).bind fun _ => ?_
  exact (h' _).1.bind fun _ => (h' _).2

theorem cut_loadPoints (h : OkG F A) (h' : OkD F B) (ty : Ty T) (d : Descr) (dm : Option DataMap)
    {o : ReloadOptions} (ho : o.datamap = false) (l n r : Nat) (still : Int) :
    Cut (OnBoth A B) F (loadPoints ty d dm o l n r still) := by
  induction n generalizing r still with
  | zero => exact .pure _
  | succ n ih =>
    unfold loadPoints
    have : pointUseMmap o still = false := by simp [pointUseMmap, ho]
    rw [this]
    refine (cut_loadPoint h h' ty d dm).bind fun p => ?_
    refine (Cut.require _ _).bind fun _ => ?_
    refine (Cut.require _ _).bind fun _ => ?_
    refine (Cut.require _ _).bind fun _ => ?_
    exact (ih _ _).bind fun _ => .pure _

theorem cut_loadLayers (h : OkG F A) (h' : OkD F B) (ty : Ty T) (d : Descr) (dm : Option DataMap)
    {o : ReloadOptions} (ho : o.datamap = false) (n l : Nat) (still : Int) :
    Cut (OnBoth A B) F (loadLayers ty d dm o n l still) := by
  induction n generalizing l still with
  | zero => exact .pure _
  | succ n ih =>
    unfold loadLayers
    refine (h _).1.onG.bind fun _ => ?_
    refine (Cut.require _ _).bind fun _ => ?_
    refine (h _).1.onG.bind fun _ => ?_
    refine (cut_loadPoints h h' ty d dm ho _ _ _ _).bind fun x => ?_
    exact (ih _ _).bind fun _ => .pure _

theorem cut_loadIndexation (h : OkG F A) (h' : OkD F B) (P : Policy T) (ty : Ty T) (d : Descr)
    (dm : Option DataMap) {o : ReloadOptions} (ho : o.datamap = false) :
    Cut (OnBoth A B) F (loadIndexation P ty d dm o) := by
  unfold loadIndexation
  refine (Cut.require _ _).bind fun _ => ?_
  refine (h _).1.onG.bind fun _ => ?_
  refine (Cut.require _ _).bind fun _ => ?_
  refine (cut_loadLayers h h' ty d dm ho _ _ _).bind fun recs => ?_
  refine (Cut.lift _).bind fun _ => ?_
  refine (h _).1.onG.bind fun _ => ?_
  refine (h _).1.onG.bind fun _ => ?_
  refine (h _).1.onG.bind fun _ => ?_
  exact (Cut.lift _).bind fun _ => .pure _

end

/-- The reader fails only in the ways `F`. -/
def FailsBy {σ α : Type} (F : Fail → Prop) (m : Rd σ α) : Prop := ∀ s e, m s = .error e → F e

namespace FailsBy
variable {σ α β : Type} {F : Fail → Prop}

theorem pure (a : α) : FailsBy F (Pure.pure a : Rd σ α) := by intro s e h; cases h

theorem bind {m : Rd σ α} {f : α → Rd σ β} (h : FailsBy F m) (hf : ∀ a, FailsBy F (f a)) :
    FailsBy F (m >>= f) := by
  intro s e hb
  rw [Rd.bind_run] at hb
  cases hm : m s with
  | error e' =>
    rw [hm] at hb
    cases hb
    exact h s e hm
  | ok x =>
    rw [hm] at hb
    exact hf x.1 x.2 e hb

theorem require (c : Bool) {e : Fail} (he : F e) : FailsBy F (Rd.require c e : Rd σ Unit) := by
  intro s e' h
  cases c
  · cases h; exact he
  · cases h

theorem fail {e : Fail} (he : F e) : FailsBy F (Rd.fail e : Rd σ α) := by intro s e' h; cases h; exact he

theorem readExact {eof : Fail} (he : F eof) (n : Nat) : FailsBy F (Verif.readExact eof n) := by
  intro s e h
  unfold Verif.readExact at h
  split at h
  · cases h
  · cases h; exact he

theorem readNat {eof : Fail} (he : F eof) (n : Nat) : FailsBy F (Verif.readNat eof n) :=
  (readExact he n).bind fun _ => .pure _

end FailsBy

theorem fails_loadDescr {F : Fail → Prop} (h1 : F .err) (h2 : F .panic) : FailsBy F loadDescr := by
  have hs : FailsBy F loadStr := by
    unfold loadStr
    refine (FailsBy.readNat h1 _).bind fun n => ?_
    refine (FailsBy.require _ h1).bind fun _ => ?_
    refine (FailsBy.readExact h1 _).bind fun b => ?_
    split
    · exact .pure _
    · exact .fail h2
  unfold loadDescr
  refine (FailsBy.readNat h1 _).bind fun magic => ?_
  split
  · exact .fail h1
  · refine (FailsBy.readNat h1 _).bind fun _ => ?_
    refine (FailsBy.readNat h1 _).bind fun _ => ?_
    refine FailsBy.bind ?_ fun _ => ?_
    · unfold loadScale
      split
      · exact (FailsBy.readNat h1 _).bind fun _ => .pure _
      · exact .pure _
    refine (FailsBy.readNat h1 _).bind fun _ => ?_
    refine (FailsBy.readNat h1 _).bind fun _ => ?_
    refine (FailsBy.readNat h1 _).bind fun _ => ?_
    refine (FailsBy.readNat h1 _).bind fun _ => ?_
    exact hs.bind fun _ => hs.bind fun _ => .pure _

end Verif
