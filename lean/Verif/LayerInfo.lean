import Verif.AccessConc
import Verif.DumpConcLemmas

set_option autoImplicit false

/-!
# The report of the layers, `dump_layer_info` (for C137)
-/

namespace Verif
variable {T α : Type}

/-- the loop of `PointIndexation::debug_dump` (/repo/src/hnsw.rs 486-492): the table is locked once for each layer. -/
def infoLoop : List Nat → List Nat → Prog (CSt T) (List Nat)
  | [], out => .ret out
  | l :: ls, out =>
    .read fun s =>
      match s.idx.layers[l]? with
      | none => .fail .index
      | some v => infoLoop ls (out ++ [v.length])

/-- `dump_layer_info` (/repo/src/hnsw.rs 1399-1401) and `PointIndexation::debug_dump` (482-494): the numbers that are printed, for
the layers from 0 to `get_max_level_observed`, which is looked at first. -/
def layerInfoP : Prog (CSt T) (List Nat) :=
  (lookP getMaxLevelObserved).bind fun ml => infoLoop (List.range (ml + 1)) []

/-- What the program returns satisfies `Q` at that moment, for each evolution of the index; it does not panic. -/
def Tells (n : Nat) (Q : α → CSt T → Prop) : Prog (CSt T) α → CSt T → Prop
  | .ret a, s => Q a s
  | .fail _, _ => False
  | .act _ _ k, s => ∀ s', TableOK n s'.idx → (∀ e, s'.idx.entry = some e → Stored s'.idx e) → Grown s s' → Tells n Q (k s') s'

section
variable {P : Policy T} {cfg : Cfg T} {B : Base T}

/-- a thread running such a program, while insertions run -/
theorem tells_general (L : P.Lawful) {c0 : CSt T} (h : GoodCB B cfg c0) (hB : B.Owned c0.idx) {jobs : List (Job T)}
    (hl : ∀ j ∈ jobs, j.level < cfg.maxLayer) {us : List (Prog (CSt T) α)} (hro : ∀ u ∈ us, ReadOnly u)
    {i : Nat} {p : Prog (CSt T) α} (hp : us[i]? = some p) {Q : α → CSt T → Prop}
    (hQ : ∀ a s s', TableOK cfg.maxLayer s.idx → TableOK cfg.maxLayer s'.idx → Grown s s' → Q a s → Q a s')
    (ht : Tells cfg.maxLayer Q p c0) {m : GSys T α} (he : GSteps (accStart P cfg c0 jobs us) m)
    {t : Prog (CSt T) α} (hti : m.acc[i]? = some t) : Tells cfg.maxLayer Q t m.st := by
  generalize hm0 : accStart P cfg c0 jobs us = m0 at he
  induction he generalizing t with
  | refl =>
    subst hm0
    have : us[i]? = some t := hti
    rw [hp] at this
    cases this
    exact ht
  | @step b c hb hs ih =>
    have hb' : GSteps (accStart P cfg c0 jobs us) b := hm0 ▸ hb
    have hc' : GSteps (accStart P cfg c0 jobs us) c := .step hb' hs
    have hgrow := GStep.grown L h hB hl hro hb' hs
    obtain ⟨hex, hro', -, htab⟩ := GSteps.facts L h hB hl hro hb'
    obtain ⟨-, -, -, htab'⟩ := GSteps.facts L h hB hl hro hc'
    have hent := (Exec.factsB L h hB hl hex (fun _ => True) (fun _ _ => trivial) (fun _ _ => trivial)).ok.entry
    have mono : ∀ {t : Prog (CSt T) α}, Tells cfg.maxLayer Q t b.st → Tells cfg.maxLayer Q t c.st := by
      intro t h2
      cases t with
      | ret a => exact hQ a _ _ htab htab' hgrow h2
      | fail e => exact h2
      | act g u k => exact fun s'' ht he hg' => h2 s'' ht he (hgrow.trans hg')
    cases hs with
    | @ins s s' ts ts' us' hst => exact mono (ih hti)
    | acc i' hst =>
      obtain ⟨g, u, k, ha, hg, rfl⟩ := hst
      have hr := hro' _ (List.mem_of_getElem? ha)
      have hus : u b.st = b.st := (hr.1 _).2
      rcases getElem?_set_cases hti with ⟨rfl, rfl, -⟩ | ⟨hne, ht'⟩
      · have h2 := ih ha
        simp only [hus]
        exact h2 b.st htab hent (Grown.refl _)
      · exact mono (ih ht')

end

theorem infoLoop_ro : ∀ (ls out : List Nat), ReadOnly (infoLoop ls out : Prog (CSt T) (List Nat)) := by
  intro ls
  induction ls with
  | nil => intro out; trivial
  | cons l ls ih =>
    intro out
    apply ReadOnly.read
    intro s
    split
    · trivial
    · exact ih _

theorem layerInfoP_ro : ReadOnly (layerInfoP : Prog (CSt T) (List Nat)) := (lookP_ro _).bind fun _ => infoLoop_ro _ _

/-- the report was made after `c0`, not later than `s` -/
def Reported (c0 : CSt T) (out : List Nat) (s : CSt T) : Prop :=
  ∀ l n, out[l]? = some n → (c0.idx.layer l).length ≤ n ∧ n ≤ (s.idx.layer l).length

theorem infoLoop_tells {n : Nat} {c0 : CSt T} (ht0 : TableOK n c0.idx) {ml : Nat} (hml : ml < n) : ∀ (k : Nat) (out : List Nat)
    (s : CSt T), out.length + k = ml + 1 → TableOK n s.idx → Grown c0 s → ml ≤ getMaxLevelObserved s.idx → Reported c0 out s →
    Tells n (fun out s => out.length = ml + 1 ∧ ml ≤ getMaxLevelObserved s.idx ∧ Reported c0 out s)
      (infoLoop (List.range' out.length k) out) s := by
  intro k
  induction k with
  | zero => exact fun out s h1 _ _ h3 h2 => ⟨h1, h3, h2⟩
  | succ k ih =>
    intro out s h1 hts hg h3 h2 s' ht' he' hg'
    have hlt : out.length < s'.idx.layers.length := by rw [ht'.len]; omega
    have hlen : (out ++ [(s'.idx.layer out.length).length]).length = out.length + 1 := by simp
    have hv : s'.idx.layers[out.length]? = some (s'.idx.layer out.length) := by
      unfold Idx.layer
      rw [List.getElem?_eq_getElem hlt]
      rfl
    show Tells n _ (match s'.idx.layers[out.length]? with
      | none => .fail .index
      | some v => infoLoop (List.range' (out.length + 1) k) (out ++ [v.length])) s'
    rw [hv, ← hlen]
    refine ih _ s' (by rw [hlen]; omega) ht' (hg.trans hg') (Nat.le_trans h3 hg'.level) fun l v hl => ?_
    rw [List.getElem?_append] at hl
    split at hl
    · have := h2 l v hl
      exact ⟨this.1, Nat.le_trans this.2 (hg'.layer_len hts ht' l)⟩
    · have hl' := List.getElem?_eq_some_iff.1 hl
      obtain ⟨hl1, hl2⟩ := hl'
      simp at hl1 hl2
      have : l = out.length := by omega
      subst this
      rw [← hl2]
      exact ⟨(hg.trans hg').layer_len ht0 ht' _, Nat.le_refl _⟩

theorem level_lt {n : Nat} {s : Idx T} (ht : TableOK n s) (he : ∀ e, s.entry = some e → Stored s e) (hn : 0 < n) :
    getMaxLevelObserved s < n := by
  unfold getMaxLevelObserved
  cases h : s.entry with
  | none => exact hn
  | some e =>
    have := nth_of_stored ht (he e h)
    rw [← ht.len]
    rcases Nat.lt_or_ge e.pid.layer s.layers.length with h1 | h1
    · exact h1
    · unfold Idx.layer at this
      rw [List.getElem?_eq_none h1] at this
      simp at this

theorem layerInfoP_tells {n : Nat} {c0 : CSt T} (ht0 : TableOK n c0.idx) (hn : 0 < n) :
    Tells n (fun out s => getMaxLevelObserved c0.idx + 1 ≤ out.length ∧ out.length ≤ getMaxLevelObserved s.idx + 1 ∧
      Reported c0 out s) (layerInfoP : Prog (CSt T) (List Nat)) c0 := by
  intro s ht he hg
  have h1 := level_lt ht he hn
  have := infoLoop_tells ht0 h1 (getMaxLevelObserved s.idx + 1) [] s (by simp) ht hg (Nat.le_refl _)
    (fun l v h => by simp at h)
  have h2 : List.range' ([] : List Nat).length (getMaxLevelObserved s.idx + 1) = List.range (getMaxLevelObserved s.idx + 1) := by
    rw [List.range_eq_range']
    rfl
  rw [h2] at this
  have hw : ∀ {Q Q' : List Nat → CSt T → Prop}, (∀ a s, Q a s → Q' a s) → ∀ (p : Prog (CSt T) (List Nat)) (s : CSt T),
      Tells n Q p s → Tells n Q' p s := by
    intro Q Q' hq p
    induction p with
    | ret a => exact fun s h => hq a s h
    | fail e => exact fun s h => h
    | act g u k ih => exact fun s h s' h1 h2 h3 => ih s' s' (h s' h1 h2 h3)
  refine hw ?_ _ s this
  rintro a s' ⟨h3, h4, h5⟩
  have := hg.level
  exact ⟨by omega, by omega, h5⟩

end Verif
