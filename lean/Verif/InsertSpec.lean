import Verif.LinkSpec
import Verif.SmallLemmas

set_option autoImplicit false

/-!
# Sequential runs of insertion: what each part does
-/

namespace Verif
variable {T : Type} {P : Policy T} {cfg : Cfg T} {s0 : Idx T} {p : Ref T}

theorem Beam.perm {eval : List T → List T → F32} {s : Idx T} {q : List T} {l ef : Nat} {a : Ref T}
    {F G : List (PWO T)} (h : Beam eval s q l ef a F) (hp : F.Perm G) : Beam eval s q l ef a G := by
  have hm : ∀ x, x ∈ G ↔ x ∈ F := fun x => hp.mem_iff.symm
  refine ⟨fun x hx => h.reach x ((hm x).1 hx), fun x hx => h.dist x ((hm x).1 hx),
    (hp.map _).nodup_iff.1 h.nodup, by rw [← hp.length_eq]; exact h.len, ?_, ?_, ?_⟩
  · obtain ⟨x, hx, h1⟩ := h.best
    exact ⟨x, (hm x).2 hx, h1⟩
  · intro x hx e he
    rcases h.localOpt x ((hm x).1 hx) e he with ⟨y, hy, h1⟩ | h1
    · exact Or.inl ⟨y, (hm y).2 hy, h1⟩
    · exact Or.inr fun y hy => h1 y ((hm y).1 hy)
  · intro hl v hv
    obtain ⟨x, hx, h1⟩ := h.full (by rw [hp.length_eq]; exact hl) v hv
    exact ⟨x, (hm x).2 hx, h1⟩

/-- the lists of the other points are those of `s0` -/
def OwnOnly (s0 : Idx T) (p : PointId) (c : CSt T) : Prop :=
  ∀ a l, a ≠ p → c.idx.nb a l = s0.nb a l

theorem reaches_stored (h0 : IdxOK cfg s0) {l : Nat} {a b : Ref T} (ha : Stored s0 a)
    (h : Reaches (links s0 l) a b) : Stored s0 b := by
  cases h with
  | refl => exact ha
  | step _ he => exact h0.stored _ _ _ he

/-- `search_layer` of an insertion run alone -/
theorem searchLayerP_run_beam (L : P.Lawful) (h0 : IdxOK cfg s0) {c : CSt T}
    (hfr : ∀ v, Stored s0 v → v.pid ≠ p.pid) (hown : OwnOnly s0 p.pid c) {l : Nat} {a : Ref T}
    (ha : Stored s0 a) {q : List T} (hL : LegalOn cfg.eval s0 q) {ef fuel : Nat}
    (hfuel : s0.points.length + 2 ≤ fuel) (hlay : ∃ x xs, c.idx.layers[l]? = some (x :: xs)) :
    ∃ r, (searchLayerP P cfg fuel q a ef l).run c = .ok r c ∧
      Beam cfg.eval s0 q l ef a (P.items r) ∧
      ∀ x ∈ P.items r, Stored s0 x.pt ∧ x.dist.Legal := by
  obtain ⟨x, xs, hlay⟩ := hlay
  have hst : ∀ v, Stored s0 v → c.idx.nb v.pid l = s0.nb v.pid l := fun v hv => hown _ _ (hfr v hv)
  have hI : InvA P cfg.eval q ef (fun v => Stored s0 v ∧ Reaches (links s0 l) a v)
      (slInit P cfg.eval q a) := invA_init L ⟨ha, .refl⟩
  have hN : InvN P cfg.eval q ef [] (slInit P cfg.eval q a) := by
    refine ⟨?_, ?_, ?_⟩ <;> simp [slInit, L.items_push_empty]
  have hcl : ∀ v, (Stored s0 v ∧ Reaches (links s0 l) a v) → ∀ e ∈ c.idx.nb v.pid l,
      Stored s0 e.pt ∧ Reaches (links s0 l) a e.pt := by
    intro v hv e he
    rw [hst v hv.1] at he
    exact ⟨h0.stored _ _ e he, hv.2.step he⟩
  have hre : ∀ v, Reaches (links s0 l) a v → Reaches (fun p => c.idx.nb p l) a v := by
    intro v hv
    induction hv with
    | refl => exact .refl
    | @step b e hb he ih =>
      refine .step ih ?_
      rw [hst b (reaches_stored h0 ha hb)]
      exact he
  rcases slLoop_resN (ep := a) (nbf := fun p => c.idx.nb p l) L hcl (fun v w hv hw => h0.tab.unique hv.1 hw.1)
      (fun v hv => hL v hv.1) fuel hI hN (by simp [slInit]) (by simp) (by simp) with hf | ⟨r, hr, hR⟩
  · refine absurd hf (slLoop_no_fuel L hcl s0.points.length ?_ fuel hI ?_)
    · intro v hv hn
      exact h0.tab.count (fun x hx => (hv x hx).1) hn
    · simp [slInit, Policy.len, L.items_push_empty]
      omega
  · have hA := slLoop_resA L hcl _ hI hr
    refine ⟨r, ?_, ⟨fun x hx => (hA.inK x hx).2, hA.dist, hA.nd, hA.len, hR.best, ?_, ?_⟩,
      fun x hx => ⟨(hA.inK x hx).1, hA.legal (fun v hv => (hL v hv.1).1) x hx⟩⟩
    · simp only [searchLayerP, Prog.read, Prog.run, id, if_true, hlay]
      rw [loopP_run, hr]
    · intro y hy e he
      exact hR.localOpt y hy e (by rw [hst _ (hA.inK y hy).1]; exact he)
    · intro hl v hv
      exact hR.full hl v (hre v hv)

theorem searchLayerP_run_empty {c : CSt T} {q : List T} {a : Ref T} {ef l fuel : Nat}
    (hlay : c.idx.layers[l]? = some []) :
    (searchLayerP P cfg fuel q a ef l).run c = .ok P.empty c := by
  simp only [searchLayerP, Prog.read, Prog.run, id, if_true, hlay]

/-- `select_neighbours` run alone -/
theorem selectP_run_selected (L : P.Lawful) {cands : P.H} {asked l : Nat} {ext kp : Bool}
    {c c' : CSt T} {v : List (PWO T)}
    (h : (selectP P cfg p cands asked ext l kp).run c = .ok v c')
    (hnd : ((P.items cands).map (·.pt.pid)).Nodup) (hB : P.Built cands)
    (hnan : ∀ a, ∀ x ∈ c.idx.nb a l, (cfg.eval p.data x.pt.data).isNaN = false) :
    c' = c ∧ Selected cfg c.idx p l asked ext kp (candidates P cands) v := by
  have hlen : (candidates P cands).length = P.len cands := by simp [candidates, Policy.len]
  by_cases hact : P.len cands ≤ asked ∧ ext = false
  · obtain ⟨hle, rfl⟩ := hact
    obtain ⟨hc, hp⟩ := C24_all_selected L h hle
    refine ⟨hc, candidates P cands, ⟨[], by simp, by simp, by simp, by simp, fun _ => rfl⟩, Or.inl ?_⟩
    rw [hlen]
    exact ⟨hle, rfl, hp⟩
  · have hact' : asked < P.len cands ∨ ext = true := by
      by_cases hl : P.len cands ≤ asked
      · right
        cases ext with
        | true => rfl
        | false => exact absurd ⟨hl, rfl⟩ hact
      · left; omega
    obtain ⟨hc, hh⟩ := selectP_run L h
    rcases hh with ⟨h1, h2, -⟩ | ⟨-, heap, hpool, hbu, hsel, -⟩
    · exact absurd ⟨h1, h2⟩ hact
    · have hnd' := pool_nodup hpool hnd
      have hbh := hbu hB (pool_noNaN L hpool hB hnan)
      have hpool' : IsPool cfg c.idx p l (candidates P cands) (P.len cands ≤ asked ∧ ext = true)
          (candidates P heap) := by
        have : (P.len cands ≤ asked) = (P.len cands ≤ asked ∧ ext = true) := by
          apply propext
          constructor
          · intro h
            rcases hact' with h' | h'
            · omega
            · exact ⟨h, h'⟩
          · exact fun h => h.1
        rw [← this]; exact hpool
      refine ⟨hc, candidates P heap, by rw [hlen]; exact hpool', Or.inr ?_⟩
      rw [hlen]
      cases kp with
      | false => exact Or.inl ⟨hact', rfl, selectFrom_diversified L hsel hnd' hbh⟩
      | true =>
        refine Or.inr ⟨hact', rfl, ?_⟩
        obtain ⟨v0, w, h1, h2, h3, h4, h5, h6, h7⟩ := selectFrom_kept L hsel hnd'
        exact ⟨v0, w, h1, selectFrom_diversified L h2 hnd' hbh, h3, h4, h5, h6, h7⟩

/-- the `n` layers from `lo + n - 1` down to `lo` -/
theorem layersDown_eq (hi lo : Nat) : layersDown hi lo = (List.range' lo (hi + 1 - lo)).reverse := rfl

theorem down_succ (lo n : Nat) :
    (List.range' lo (n + 1)).reverse = (lo + n) :: (List.range' lo n).reverse := by
  rw [List.range'_concat]
  simp

/-- what the loops over layers need to know of the state -/
structure LayerCond (s0 : Idx T) (p : Ref T) (lo n : Nat) (c : CSt T) : Prop where
  own : OwnOnly s0 p.pid c
  lay : ∀ l, lo ≤ l → l < lo + n → ∃ x, c.idx.layers[l]? = some x ∧
    (x = [] ↔ s0.layer l = [] ∧ l ≠ p.pid.layer)
  empty : ∀ l, lo ≤ l → l < lo + n → c.idx.nb p.pid l = []

theorem OwnOnly.setNb {c : CSt T} (h : OwnOnly s0 p.pid c) (l : Nat) (v : List (PWO T)) :
    OwnOnly s0 p.pid { c with idx := c.idx.setNb p.pid l v } := by
  intro a l' ha
  have : (c.idx.setNb p.pid l v).nb a l' = c.idx.nb a l' := by
    simp only [Idx.setNb]
    rw [if_neg (fun h => ha h.1)]
  exact this.trans (h a l' ha)

theorem nb_setNb_other {c : Idx T} {l l' : Nat} {v : List (PWO T)} (h : l' ≠ l) :
    (c.setNb p.pid l v).nb p.pid l' = c.nb p.pid l' := by
  simp only [Idx.setNb]
  rw [if_neg (fun h' => h h'.2)]

theorem nb_setNb_same {c : Idx T} {l : Nat} {v : List (PWO T)} :
    (c.setNb p.pid l v).nb p.pid l = v := by
  simp [Idx.setNb]

/-- extend a sequence of pivots -/
theorem piv_extend {R : Nat → Ref T → Ref T → Prop} {lo n : Nat} {a a1 b : Ref T}
    (h : R (lo + n) a a1) (h' : ∃ piv : Nat → Ref T, piv (lo + n) = a1 ∧ piv lo = b ∧
      ∀ l, lo ≤ l → l < lo + n → R l (piv (l + 1)) (piv l)) :
    ∃ piv : Nat → Ref T, piv (lo + (n + 1)) = a ∧ piv lo = b ∧
      ∀ l, lo ≤ l → l < lo + (n + 1) → R l (piv (l + 1)) (piv l) := by
  obtain ⟨piv, h1, h2, h3⟩ := h'
  refine ⟨fun l => if l = lo + (n + 1) then a else piv l, by simp, ?_, ?_⟩
  · simp only
    rw [if_neg (by omega)]
    exact h2
  · intro l hl hl'
    simp only
    rw [if_neg (by omega : ¬ l = lo + (n + 1))]
    by_cases hln : l = lo + n
    · subst hln
      rw [if_pos (by omega), h1]
      exact h
    · rw [if_neg (by omega)]
      exact h3 l hl (by omega)

/-- the descent above the level of the new point, run alone -/
theorem upperP_run (L : P.Lawful) (h0 : IdxOK cfg s0) (hfr : ∀ v, Stored s0 v → v.pid ≠ p.pid)
    (hL : LegalOn cfg.eval s0 p.data) {fuel : Nat} (hfuel : s0.points.length + 2 ≤ fuel) {lo : Nat}
    (hlo : p.pid.layer < lo) :
    ∀ (n : Nat) (a b : Ref T) (c c' : CSt T), LayerCond s0 p lo n c → Stored s0 a →
      (upperP P cfg fuel p (List.range' lo n).reverse a (cfg.eval p.data a.data)).run c = .ok b c' →
      Stored s0 b ∧ OwnOnly s0 p.pid c' ∧ c'.idx.layers = c.idx.layers ∧
      c'.idx.entry = c.idx.entry ∧
      (∀ l, ¬ (lo ≤ l ∧ l < lo + n) → c'.idx.nb p.pid l = c.idx.nb p.pid l) ∧
      ∃ piv : Nat → Ref T, piv (lo + n) = a ∧ piv lo = b ∧
        ∀ l, lo ≤ l → l < lo + n → UpperStep cfg s0 p l (piv (l + 1)) (piv l) (c'.idx.nb p.pid l) := by
  intro n
  induction n with
  | zero =>
    intro a b c c' hc ha h
    simp only [List.range'_zero, List.reverse_nil, upperP, Prog.run] at h
    injection h with h1 h2
    subst h1 h2
    exact ⟨ha, hc.own, rfl, rfl, fun _ _ => rfl, fun _ => a, rfl, rfl, fun l hl hl' => by omega⟩
  | succ n ih =>
    intro a b c c' hc ha h
    rw [down_succ] at h
    simp only [upperP] at h
    rw [run_bind] at h
    obtain ⟨x, hx, hxe⟩ := hc.lay (lo + n) (by omega) (by omega)
    have hemp := hc.empty (lo + n) (by omega) (by omega)
    have hcond : LayerCond s0 p lo n c :=
      ⟨hc.own, fun l h1 h2 => hc.lay l h1 (by omega), fun l h1 h2 => hc.empty l h1 (by omega)⟩
    -- the rest, from a state where only the list of this layer has changed
    have key : ∀ (a1 : Ref T) (c1 : CSt T), LayerCond s0 p lo n c1 → Stored s0 a1 →
        c1.idx.layers = c.idx.layers → c1.idx.entry = c.idx.entry →
        (∀ l, l ≠ lo + n → c1.idx.nb p.pid l = c.idx.nb p.pid l) →
        UpperStep cfg s0 p (lo + n) a a1 (c1.idx.nb p.pid (lo + n)) →
        (upperP P cfg fuel p (List.range' lo n).reverse a1 (cfg.eval p.data a1.data)).run c1 =
          .ok b c' →
        Stored s0 b ∧ OwnOnly s0 p.pid c' ∧ c'.idx.layers = c.idx.layers ∧
        c'.idx.entry = c.idx.entry ∧
        (∀ l, ¬ (lo ≤ l ∧ l < lo + (n + 1)) → c'.idx.nb p.pid l = c.idx.nb p.pid l) ∧
        ∃ piv : Nat → Ref T, piv (lo + (n + 1)) = a ∧ piv lo = b ∧
          ∀ l, lo ≤ l → l < lo + (n + 1) →
            UpperStep cfg s0 p l (piv (l + 1)) (piv l) (c'.idx.nb p.pid l) := by
      intro a1 c1 hc1 ha1 hl1 he1 hnb1 hstep hrun
      obtain ⟨k1, k2, k3, k4, k5, k6⟩ := ih a1 b c1 c' hc1 ha1 hrun
      refine ⟨k1, k2, k3.trans hl1, k4.trans he1, ?_, ?_⟩
      · intro l hl
        rw [k5 l (by omega), hnb1 l (by omega)]
      · refine piv_extend (R := fun l a b => UpperStep cfg s0 p l a b (c'.idx.nb p.pid l)) ?_ k6
        rw [k5 (lo + n) (by omega)]
        exact hstep
    cases x with
    | nil =>
      rw [searchLayerP_run_empty hx] at h
      simp only [Policy.len, L.items_empty, List.length_nil] at h
      rw [if_neg (by omega), (L.pop_none _).2 L.items_empty] at h
      refine key a c hcond ha rfl rfl (fun _ _ => rfl) ?_ h
      exact Or.inl ⟨(hxe.1 rfl).1, rfl, hemp⟩
    | cons x xs =>
      obtain ⟨r, hr, hB, hS⟩ := searchLayerP_run_beam (p := p) (q := p.data) (ef := 1) L h0 hfr hc.own
        ha hL hfuel ⟨x, xs, hx⟩
      rw [hr] at h
      have hlen := hB.len
      obtain ⟨e, he⟩ : ∃ e, P.items r = [e] := by
        obtain ⟨y, hy, -⟩ := hB.best
        match hm : P.items r with
        | [] => rw [hm] at hy; cases hy
        | [e] => exact ⟨e, rfl⟩
        | _ :: _ :: _ => rw [hm] at hlen; simp at hlen
      rw [he] at hB hS
      simp only [Policy.len, he, List.length_cons, List.length_nil] at h
      rw [if_neg (by omega)] at h
      cases hp : P.pop r with
      | none => rw [(L.pop_none r).1 hp] at he; cases he
      | some eh =>
        obtain ⟨e', h'⟩ := eh
        have : e' = e := by
          have := (L.mem_pop hp).2 (Or.inl rfl)
          rw [he] at this
          simpa using this
        subst this
        rw [hp] at h
        have hed := hB.dist e' (by simp)
        have hbest : e'.dist.key ≤ (cfg.eval p.data a.data).key := by
          obtain ⟨y, hy, h1⟩ := hB.best
          rw [List.mem_singleton.1 hy] at h1
          exact h1
        have hpop : s0.layer (lo + n) ≠ [] := by
          intro h1
          have := hxe.2 ⟨h1, by omega⟩
          cases this
        have hsw : ∃ a1, Stored s0 a1 ∧
            ((e'.dist.key < (cfg.eval p.data a.data).key ∧ a1 = e'.pt) ∨
              (e'.dist.key = (cfg.eval p.data a.data).key ∧ a1 = a)) ∧
            (if (cfg.eval p.data e'.pt.data).lt (cfg.eval p.data a.data) = true then
              upperP P cfg fuel p (List.range' lo n).reverse e'.pt (cfg.eval p.data e'.pt.data)
            else upperP P cfg fuel p (List.range' lo n).reverse a (cfg.eval p.data a.data)) =
            upperP P cfg fuel p (List.range' lo n).reverse a1 (cfg.eval p.data a1.data) := by
          have hla : (cfg.eval p.data a.data).Legal := hL a ha
          have hle : (cfg.eval p.data e'.pt.data).Legal := hL _ (hS e' (by simp)).1
          rw [lt_key hle hla]
          by_cases hlt : (cfg.eval p.data e'.pt.data).key < (cfg.eval p.data a.data).key
          · exact ⟨e'.pt, (hS e' (by simp)).1, Or.inl ⟨by rw [hed]; exact hlt, rfl⟩, by simp [hlt]⟩
          · exact ⟨a, ha, Or.inr ⟨by rw [hed] at hbest ⊢; omega, rfl⟩, by simp [hlt]⟩
        obtain ⟨a1, ha1, hsw, hnext⟩ := hsw
        simp only [hnext, Prog.read, Prog.run, id, if_true, hemp, List.length_nil, Cfg.maxNbU8] at h
        by_cases hm : 0 < cfg.maxNb % 256
        · rw [if_pos hm] at h
          simp only [Prog.run] at h
          split at h
          · rw [hemp] at h
            refine key a1 _ ⟨hc.own.setNb _ _, fun l h1 h2 => hc.lay l h1 (by omega), ?_⟩ ha1 rfl rfl
              ?_ ?_ h
            · intro l h1 h2
              simp only
              rw [nb_setNb_other (by omega)]
              exact hcond.empty l h1 h2
            · intro l hl
              exact nb_setNb_other hl
            · right
              refine ⟨hpop, e', hB, ?_, hsw⟩
              simp only
              rw [nb_setNb_same, if_pos hm]
              rfl
          · cases h
        · rw [if_neg hm] at h
          refine key a1 c hcond ha1 rfl rfl (fun _ _ => rfl) ?_ h
          right
          exact ⟨hpop, e', hB, by rw [hemp, if_neg hm], hsw⟩

/-- linking of the new point in its own layers, run alone -/
theorem lowerP_run (L : P.Lawful) (h0 : IdxOK cfg s0) (hfr : ∀ v, Stored s0 v → v.pid ≠ p.pid)
    (hL : LegalOn cfg.eval s0 p.data) {fuel : Nat} (hfuel : s0.points.length + 2 ≤ fuel) {lo : Nat} :
    ∀ (n : Nat) (a : Ref T) (c c' : CSt T), LayerCond s0 p lo n c → Stored s0 a →
      (lowerP P cfg fuel p (List.range' lo n).reverse a).run c = .ok () c' →
      OwnOnly s0 p.pid c' ∧ c'.idx.layers = c.idx.layers ∧
      c'.idx.entry = c.idx.entry ∧
      (∀ l, ¬ (lo ≤ l ∧ l < lo + n) → c'.idx.nb p.pid l = c.idx.nb p.pid l) ∧
      ∃ (b : Ref T) (piv : Nat → Ref T), piv (lo + n) = a ∧ piv lo = b ∧
        ∀ l, lo ≤ l → l < lo + n →
          LowerStep cfg s0 p l (piv (l + 1)) (piv l) (c'.idx.nb p.pid l) ∧
          ∀ x ∈ c'.idx.nb p.pid l, Stored s0 x.pt := by
  intro n
  induction n with
  | zero =>
    intro a c c' hc ha h
    simp only [List.range'_zero, List.reverse_nil, lowerP, Prog.run] at h
    injection h with h1 h2
    subst h2
    exact ⟨hc.own, rfl, rfl, fun _ _ => rfl, a, fun _ => a, rfl, rfl, fun l hl hl' => by omega⟩
  | succ n ih =>
    intro a c c' hc ha h
    rw [down_succ] at h
    simp only [lowerP] at h
    rw [run_bind] at h
    obtain ⟨x, hx, hxe⟩ := hc.lay (lo + n) (by omega) (by omega)
    have hemp := hc.empty (lo + n) (by omega) (by omega)
    have hcond : LayerCond s0 p lo n c :=
      ⟨hc.own, fun l h1 h2 => hc.lay l h1 (by omega), fun l h1 h2 => hc.empty l h1 (by omega)⟩
    have key : ∀ (a1 : Ref T) (c1 : CSt T), LayerCond s0 p lo n c1 → Stored s0 a1 →
        c1.idx.layers = c.idx.layers → c1.idx.entry = c.idx.entry →
        (∀ l, l ≠ lo + n → c1.idx.nb p.pid l = c.idx.nb p.pid l) →
        LowerStep cfg s0 p (lo + n) a a1 (c1.idx.nb p.pid (lo + n)) →
        (∀ x ∈ c1.idx.nb p.pid (lo + n), Stored s0 x.pt) →
        (lowerP P cfg fuel p (List.range' lo n).reverse a1).run c1 = .ok () c' →
        OwnOnly s0 p.pid c' ∧ c'.idx.layers = c.idx.layers ∧
        c'.idx.entry = c.idx.entry ∧
        (∀ l, ¬ (lo ≤ l ∧ l < lo + (n + 1)) → c'.idx.nb p.pid l = c.idx.nb p.pid l) ∧
        ∃ (b : Ref T) (piv : Nat → Ref T), piv (lo + (n + 1)) = a ∧ piv lo = b ∧
          ∀ l, lo ≤ l → l < lo + (n + 1) →
            LowerStep cfg s0 p l (piv (l + 1)) (piv l) (c'.idx.nb p.pid l) ∧
            ∀ x ∈ c'.idx.nb p.pid l, Stored s0 x.pt := by
      intro a1 c1 hc1 ha1 hl1 he1 hnb1 hstep hst hrun
      obtain ⟨k2, k3, k4, k5, b, k6⟩ := ih a1 c1 c' hc1 ha1 hrun
      refine ⟨k2, k3.trans hl1, k4.trans he1, ?_, b, ?_⟩
      · intro l hl
        rw [k5 l (by omega), hnb1 l (by omega)]
      · refine piv_extend (R := fun l a b => LowerStep cfg s0 p l a b (c'.idx.nb p.pid l) ∧
            ∀ x ∈ c'.idx.nb p.pid l, Stored s0 x.pt) ?_ k6
        rw [k5 (lo + n) (by omega)]
        exact ⟨hstep, hst⟩
    cases x with
    | nil =>
      rw [searchLayerP_run_empty hx] at h
      simp only [L.items_empty, fromPositive, Prog.ofExcept, if_true] at h
      refine key a c hcond ha rfl rfl (fun _ _ => rfl) ?_ (by rw [hemp]; simp) h
      have := hxe.1 rfl
      exact Or.inl ⟨this.1, this.2, rfl, hemp⟩
    | cons x xs =>
      obtain ⟨r, hr, hB, hS⟩ := searchLayerP_run_beam (p := p) (q := p.data) (ef := cfg.efC) L h0 hfr
        hc.own ha hL hfuel ⟨x, xs, hx⟩
      rw [hr] at h
      obtain ⟨nh, hnh, hk⟩ := run_ofExcept_ok h
      obtain ⟨nh', hnh', hperm, hbn⟩ := fromPositive_ok L (P.items r) P.empty (fun x hx => (hS x hx).2)
        L.built_empty
      rw [hnh] at hnh'
      cases hnh'
      rw [L.items_empty, List.append_nil] at hperm
      have hcand : (P.items r).Perm (candidates P nh) := by
        have h1 : (candidates P nh).Perm (((P.items r).map PWO.flip).map PWO.flip) := hperm.map _
        rw [List.map_map, show (PWO.flip ∘ PWO.flip : PWO T → PWO T) = id from funext fun x => by
          simp [PWO.flip], List.map_id] at h1
        exact h1.symm
      have hne : P.items nh ≠ [] := by
        intro h1
        obtain ⟨y, hy, -⟩ := hB.best
        rw [h1] at hperm
        have := hperm.nil_eq.symm
        rw [List.map_eq_nil_iff] at this
        rw [this] at hy; cases hy
      have hB' := hB.perm hcand
      have hS' : ∀ x ∈ candidates P nh, Stored s0 x.pt ∧ x.dist.Legal :=
        fun x hx => hS x (hcand.mem_iff.2 hx)
      have hnd : ((P.items nh).map (·.pt.pid)).Nodup := by
        have := hB'.nodup
        simpa [candidates, Function.comp_def] using this
      rw [if_neg hne, run_bind] at hk
      generalize hsel : (selectP P cfg p nh (if lo + n = 0 then 2 * cfg.maxNb else cfg.maxNb)
        (if lo + n = 0 then cfg.extend else false) (lo + n) cfg.keepPruned).run c = o at hk
      cases o with
      | panic e s => cases hk
      | blocked s => cases hk
      | ok v c1 =>
        obtain ⟨hc1, hSel⟩ := selectP_run_selected L hsel hnd hbn (by
          intro b x hx
          by_cases hb : b = p.pid
          · rw [hb, hemp] at hx; cases hx
          · rw [hc.own b _ hb] at hx
            exact (hL _ (h0.stored _ _ x hx)).1)
        subst hc1
        have hext : (if lo + n = 0 then cfg.extend else false) =
            (decide (lo + n = 0) && cfg.extend) := by
          by_cases h1 : lo + n = 0 <;> simp [h1]
        rw [hext] at hSel
        -- the pool is the same in `s0`
        have hpool : Selected cfg s0 p (lo + n) (degreeBound cfg (lo + n))
            (decide (lo + n = 0) && cfg.extend) cfg.keepPruned (candidates P nh) v := by
          obtain ⟨pool, ⟨extras, e1, e2, e3, e4, e5⟩, hv⟩ := hSel
          have hnbs : ∀ x ∈ candidates P nh, c1.idx.nb x.pt.pid (lo + n) = s0.nb x.pt.pid (lo + n) :=
            fun x hx => hc.own _ _ (hfr _ (hS' x hx).1)
          refine ⟨pool, ⟨extras, e1, e2, ?_, ?_, e5⟩, hv⟩
          · intro r hr
            obtain ⟨h1, x, hx, q, hq, h2⟩ := e3 r hr
            exact ⟨h1, x, hx, q, by rw [← hnbs x hx]; exact hq, h2⟩
          · intro h1 x hx q hq h2
            exact e4 h1 x hx q (by rw [hnbs x hx]; exact hq) h2
        have hvS' : ∀ x ∈ v, Stored s0 x.pt ∧ x.dist.isNaN = false := by
          obtain ⟨pool, ⟨extras, e1, e2, e3, e4, e5⟩, hv⟩ := hpool
          have hpS : ∀ x ∈ pool, Stored s0 x.pt ∧ x.dist.isNaN = false := by
            intro x hx
            rcases List.mem_append.1 (e1.mem_iff.1 hx) with h1 | h1
            · exact ⟨(hS' x h1).1, (hS' x h1).2.1⟩
            · obtain ⟨r, hr, rfl⟩ := List.mem_map.1 h1
              obtain ⟨-, y, hy, q, hq, rfl⟩ := e3 r hr
              exact ⟨h0.stored _ _ q hq, (hL _ (h0.stored _ _ q hq)).1⟩
          intro x hx
          rcases hv with ⟨-, -, h1⟩ | ⟨-, -, h1⟩ | ⟨-, -, v0, w, -, -, h1, -⟩
          · exact hpS x (h1.mem_iff.1 hx)
          · exact hpS x (h1.sub x hx).1
          · exact hpS x (h1 x hx)
        have hvS : ∀ x ∈ v, Stored s0 x.pt := fun x hx => (hvS' x hx).1
        obtain ⟨nbrs, hsort, hk⟩ := run_ofExcept_ok hk
        have hnb := Policy.sortC_ok hsort
        have hnp : nbrs.Perm v := by rw [hnb]; exact L.sort_perm v
        have hns : nbrs.Pairwise (fun a b => a.dist.key ≤ b.dist.key) := by
          rw [hnb]; exact L.sort_sorted v fun x hx => (hvS' x hx).2
        simp only [Prog.run] at hk
        split at hk
        rotate_left
        · cases hk
        have hpop : s0.layer (lo + n) ≠ [] ∨ lo + n = p.pid.layer := by
          by_cases h1 : lo + n = p.pid.layer
          · exact Or.inr h1
          · left
            intro h2
            have := hxe.2 ⟨h2, h1⟩
            cases this
        obtain ⟨a1, ha1, hcase, hrun⟩ : ∃ a1, Stored s0 a1 ∧
            ((nbrs = [] ∧ a1 = a) ∨ ∃ n rest, nbrs = n :: rest ∧ a1 = n.pt) ∧
            (lowerP P cfg fuel p (List.range' lo n).reverse a1).run
              { c1 with idx := c1.idx.setNb p.pid (lo + n) nbrs } = .ok () c' := by
          cases hcs : nbrs with
          | nil =>
            rw [hcs] at hk
            exact ⟨a, ha, Or.inl ⟨rfl, rfl⟩, hk⟩
          | cons m rest =>
            rw [hcs] at hk
            exact ⟨m.pt, hvS m (hnp.mem_iff.1 (by rw [hcs]; simp)), Or.inr ⟨m, rest, rfl, rfl⟩, hk⟩
        refine key a1 _ ⟨hc.own.setNb _ _, fun l h1 h2 => hc.lay l h1 (by omega), ?_⟩ ha1 rfl rfl
            ?_ ?_ ?_ hrun
        · intro l h1 h2
          simp only
          rw [nb_setNb_other (by omega)]
          exact hcond.empty l h1 h2
        · intro l hl
          exact nb_setNb_other hl
        · right
          simp only
          rw [nb_setNb_same]
          exact ⟨hpop, _, v, hB', hpool, hnp, hns, hcase⟩
        · simp only
          rw [nb_setNb_same]
          exact fun x hx => hvS x (hnp.mem_iff.1 hx)

/-! ## Reverse update -/

/-- one update of the list of a neighbour -/
theorem revList_nearest (L : P.Lawful) {q : PWO T} {S old : List (PWO T)} {k : Nat}
    (hk : k = if 0 < p.pid.layer then cfg.maxNb else 2 * cfg.maxNb) (hS : S.Nodup)
    (hx : ⟨p, q.dist⟩ ∈ S) (hN : NoNaN S) (hno : ∀ o ∈ old, o.pt.pid ≠ p.pid) (hsub : ∀ o ∈ old, o ∈ S)
    (hnd : old.Nodup) (hlen : old.length ≤ k)
    (hmiss : ∀ z ∈ S, z ∉ old → z = ⟨p, q.dist⟩ ∨
      (old.length = k ∧ ∀ y ∈ old, y.dist.key ≤ z.dist.key))
    (hok : (revList P cfg p q old).2 = none) :
    NearestLinks k S (revList P cfg p q old).1 := by
  have hxo : ⟨p, q.dist⟩ ∉ old := fun h => hno _ h rfl
  unfold revList at hok ⊢
  rw [if_neg (by simpa using hno)] at hok ⊢
  rw [← hk] at hok ⊢
  dsimp only at hok ⊢
  cases hs : P.sortC (old ++ [(⟨p, q.dist⟩ : PWO T)]) with
  | error e => rw [hs] at hok; cases hok
  | ok w =>
    have hw := Policy.sortC_ok hs
    have hperm : w.Perm (old ++ [(⟨p, q.dist⟩ : PWO T)]) := by rw [hw]; exact L.sort_perm _
    have hsort : w.Pairwise (fun a b => a.dist.key ≤ b.dist.key) := by
      rw [hw]
      refine L.sort_sorted _ fun z hz => ?_
      rcases List.mem_append.1 hz with hz | hz
      · exact hN z (hsub z hz)
      · rw [List.mem_singleton.1 hz]; exact hN _ hx
    have hwnd : w.Nodup := by
      rw [hperm.nodup_iff, List.nodup_append]
      refine ⟨hnd, by simp, ?_⟩
      intro a ha b hb
      rw [List.mem_singleton] at hb
      rintro rfl
      exact hxo (hb ▸ ha)
    have hwl : w.length = old.length + 1 := by rw [hperm.length_eq]; simp
    have hwm : ∀ z, z ∈ w ↔ z ∈ old ∨ z = ⟨p, q.dist⟩ := by
      intro z; rw [hperm.mem_iff]; simp
    have hwS : ∀ z ∈ w, z ∈ S := by
      intro z hz
      rcases (hwm z).1 hz with h | rfl
      · exact hsub z h
      · exact hx
    simp only
    have hle : w.length ≤ S.length := length_le_of_nodup_subset hwnd hwS
    by_cases hc : k < (old ++ [(⟨p, q.dist⟩ : PWO T)]).length
    · rw [if_pos hc]
      have hok : old.length = k := by simp at hc; omega
      have hne : w ≠ [] := by intro h; rw [h] at hwl; simp at hwl
      obtain ⟨d, hd⟩ : ∃ d, w = w.dropLast ++ [d] := ⟨w.getLast hne, (List.dropLast_concat_getLast hne).symm⟩
      generalize w.dropLast = v at hd
      subst hd
      rw [List.pairwise_append] at hsort
      rw [List.nodup_append] at hwnd
      have hvd : ∀ y ∈ v, y.dist.key ≤ d.dist.key := fun y hy => hsort.2.2 y hy d (by simp)
      refine ⟨fun z hz => hwS z (by simp [hz]), hwnd.1, hsort.1, ?_, ?_⟩
      · simp at hwl hle
        omega
      · intro z hz hzv y hy
        by_cases hzd : z = d
        · rw [hzd]; exact hvd y hy
        · have hzo : ¬ (z ∈ old ∨ z = ⟨p, q.dist⟩) := by
            intro h
            have := (hwm z).2 h
            simp [hzv, hzd] at this
          rcases hmiss z hz (fun h => hzo (Or.inl h)) with h | ⟨-, h⟩
          · exact absurd (Or.inr h) hzo
          · rcases (hwm y).1 (by simp [hy]) with hyo | hyx
            · exact h y hyo
            · have hdo : d ∈ old := by
                rcases (hwm d).1 (by simp) with h | h
                · exact h
                · exact absurd (hyx.trans h.symm) (hwnd.2.2 y hy d (by simp))
              exact Int.le_trans (hvd y hy) (h d hdo)
    · rw [if_neg hc]
      simp at hc
      have hall : ∀ z ∈ S, z ∈ w := by
        intro z hz
        rw [hwm]
        by_cases hzo : z ∈ old
        · exact Or.inl hzo
        · rcases hmiss z hz hzo with h | ⟨h, -⟩
          · exact Or.inr h
          · omega
      refine ⟨hwS, hwnd, hsort, ?_, fun z hz hzv => absurd (hall z hz) hzv⟩
      have := length_le_of_nodup_subset hS hall
      omega

/-- state of the reverse update: `done` are the points whose list was updated -/
structure RevInv (cfg : Cfg T) (s0 : Idx T) (p : Ref T) (own : Nat → List (PWO T))
    (done : List PointId) (c : CSt T) : Prop where
  other : ∀ a l, a ≠ p.pid → (l ≠ p.pid.layer ∨ a ∉ done) → c.idx.nb a l = s0.nb a l
  own : ∀ l, c.idx.nb p.pid l = own l
  upd : ∀ o, Stored s0 o → o.pid ∈ done →
    NearestLinks (degreeBound cfg p.pid.layer)
      (s0.nb o.pid p.pid.layer ++ [⟨p, cfg.eval p.data o.data⟩]) (c.idx.nb o.pid p.pid.layer)

theorem RevInv.congr {own : Nat → List (PWO T)} {done done' : List PointId} {c c' : CSt T}
    (h : RevInv cfg s0 p own done c) (hd : ∀ a, a ∈ done ↔ a ∈ done') (hc : c'.idx.nb = c.idx.nb) :
    RevInv cfg s0 p own done' c' := by
  refine ⟨fun a l h1 h2 => ?_, fun l => ?_, fun o ho h1 => ?_⟩
  · rw [hc]; exact h.other a l h1 (by rw [hd]; exact h2)
  · rw [hc]; exact h.own l
  · rw [hc]; exact h.upd o ho ((hd _).2 h1)

theorem RevInv.congrOwn {own own' : Nat → List (PWO T)} {done : List PointId} {c : CSt T}
    (h : RevInv cfg s0 p own done c) (ho : own' = own) : RevInv cfg s0 p own' done c := by
  rw [ho]; exact h

theorem revInner_spec (L : P.Lawful) (h0 : IdxOK cfg s0) (hfr : ∀ v, Stored s0 v → v.pid ≠ p.pid)
    (hL : LegalOn cfg.eval s0 p.data)
    {own : Nat → List (PWO T)} (k : Prog (CSt T) Unit) :
    ∀ (qs : List (PWO T)) (done : List PointId) (c c' : CSt T), RevInv cfg s0 p own done c →
      (∀ q ∈ qs, Stored s0 q.pt ∧ q.dist = cfg.eval p.data q.pt.data) →
      (revInner P cfg p k qs).run c = .ok () c' →
      ∃ c1 : CSt T, k.run c1 = .ok () c' ∧ c1.idx.layers = c.idx.layers ∧
        c1.idx.entry = c.idx.entry ∧ RevInv cfg s0 p own (done ++ qs.map (·.pt.pid)) c1 := by
  intro qs
  induction qs with
  | nil =>
    intro done c c' hR _ h
    simp only [revInner, Prog.run, if_true] at h
    exact ⟨_, h, rfl, rfl, hR.congr (by simp) rfl⟩
  | cons q qs ih =>
    intro done c c' hR hq h
    have hq1 := hq q (by simp)
    have hne : p.pid ≠ q.pt.pid := fun h => hfr _ hq1.1 h.symm
    simp only [revInner, if_neg hne, Prog.run] at h
    split at h
    rotate_left
    · cases h
    generalize hrl : revList P cfg p q (c.idx.nb q.pt.pid p.pid.layer) = rl at h
    split at h
    · simp [Prog.run] at h
    · rename_i hrl2
      have hbound : degreeBound cfg p.pid.layer =
          if 0 < p.pid.layer then cfg.maxNb else 2 * cfg.maxNb := by
        unfold degreeBound
        by_cases h1 : p.pid.layer = 0
        · simp [h1]
        · rw [if_neg h1, if_pos (by omega)]
      have hSnd : (s0.nb q.pt.pid p.pid.layer ++ [(⟨p, cfg.eval p.data q.pt.data⟩ : PWO T)]).Nodup := by
        rw [List.nodup_append]
        refine ⟨List.Pairwise.of_map _ (fun a b hab heq => hab (by rw [heq]))
          (h0.nodup q.pt.pid p.pid.layer), by simp, ?_⟩
        intro a ha b hb
        rw [List.mem_singleton] at hb
        rintro rfl
        exact hfr _ (h0.stored _ _ a ha) (by rw [hb])
      have hSN : NoNaN (s0.nb q.pt.pid p.pid.layer ++ [(⟨p, cfg.eval p.data q.pt.data⟩ : PWO T)]) := by
        intro z hz
        rcases List.mem_append.1 hz with hz | hz
        · exact (h0.legal _ _ z hz).1
        · rw [List.mem_singleton.1 hz]; exact (hL _ hq1.1).1
      have hN : NearestLinks (degreeBound cfg p.pid.layer)
          (s0.nb q.pt.pid p.pid.layer ++ [(⟨p, cfg.eval p.data q.pt.data⟩ : PWO T)]) rl.1 := by
        by_cases hdone : q.pt.pid ∈ done
        · have hU := hR.upd q.pt hq1.1 hdone
          by_cases hin : (c.idx.nb q.pt.pid p.pid.layer).any (fun o => o.pt.pid = p.pid) = true
          · have : rl.1 = c.idx.nb q.pt.pid p.pid.layer := by
              rw [← hrl]; unfold revList; rw [if_pos hin]
            rw [this]; exact hU
          · have hno : ∀ o ∈ c.idx.nb q.pt.pid p.pid.layer, o.pt.pid ≠ p.pid := by simpa using hin
            rw [← hrl]
            refine revList_nearest L hbound hSnd (by rw [hq1.2]; simp) hSN hno hU.sub hU.nodup
              (by have := hU.len; omega) ?_ (by rw [hrl]; exact hrl2)
            intro z hz hzo
            right
            refine ⟨?_, hU.far z hz hzo⟩
            have h1 : (z :: c.idx.nb q.pt.pid p.pid.layer).length ≤
                (s0.nb q.pt.pid p.pid.layer ++ [(⟨p, cfg.eval p.data q.pt.data⟩ : PWO T)]).length := by
              apply length_le_of_nodup_subset (List.nodup_cons.2 ⟨hzo, hU.nodup⟩)
              intro y hy
              rcases List.mem_cons.1 hy with rfl | hy
              · exact hz
              · exact hU.sub y hy
            have h2 := hU.len
            rw [List.length_cons] at h1
            omega
        · have hsame := hR.other q.pt.pid p.pid.layer (fun h => hne h.symm) (Or.inr hdone)
          rw [← hrl]
          rw [hsame] at hrl ⊢
          have hnd : (s0.nb q.pt.pid p.pid.layer).Nodup :=
            List.Pairwise.of_map _ (fun a b hab heq => hab (by rw [heq]))
              (h0.nodup q.pt.pid p.pid.layer)
          refine revList_nearest L hbound hSnd (by rw [hq1.2]; simp) hSN
            (fun o ho => hfr _ (h0.stored _ _ o ho)) (fun o ho => by simp [ho]) hnd
            (h0.bound _ _) ?_ (by rw [hrl]; exact hrl2)
          intro z hz hzo
          left
          rcases List.mem_append.1 hz with h | h
          · exact absurd h hzo
          · rw [hq1.2]; exact List.mem_singleton.1 h
      suffices hR' : RevInv cfg s0 p own (done ++ [q.pt.pid])
          { c with
            idx := c.idx.setNb q.pt.pid p.pid.layer rl.1
            pub := p.pid :: c.pub } by
        obtain ⟨c1, k1, k2, k3, k4⟩ := ih (done ++ [q.pt.pid]) _ c' hR'
          (fun q' hq' => hq q' (by simp [hq'])) h
        exact ⟨c1, k1, k2, k3, k4.congr (by simp) rfl⟩
      · refine ⟨?_, ?_, ?_⟩
        · intro a l ha hal
          simp only [Idx.setNb]
          rw [if_neg]
          · refine hR.other a l ha ?_
            rcases hal with h | h
            · exact Or.inl h
            · exact Or.inr fun h' => h (by simp [h'])
          · rintro ⟨rfl, rfl⟩
            rcases hal with h | h
            · exact h rfl
            · exact h (by simp)
        · intro l
          simp only [Idx.setNb]
          rw [if_neg (fun h => hne h.1)]
          exact hR.own l
        · intro o ho hod
          simp only [Idx.setNb]
          by_cases hoq : o.pid = q.pt.pid
          · rw [if_pos (by simp [hoq])]
            have := h0.tab.unique ho hq1.1 hoq
            subst this
            exact hN
          · rw [if_neg (fun h => hoq h.1)]
            refine hR.upd o ho ?_
            rcases List.mem_append.1 hod with h | h
            · exact h
            · exact absurd (List.mem_singleton.1 h) hoq

theorem reverseP_spec (L : P.Lawful) (h0 : IdxOK cfg s0) (hfr : ∀ v, Stored s0 v → v.pid ≠ p.pid)
    (hL : LegalOn cfg.eval s0 p.data)
    {own : Nat → List (PWO T)} (k : Prog (CSt T) Unit) :
    ∀ (ls : List Nat) (done : List PointId) (c c' : CSt T), RevInv cfg s0 p own done c →
      (∀ l ∈ ls, ∀ q ∈ own l, Stored s0 q.pt ∧ q.dist = cfg.eval p.data q.pt.data) →
      (reverseP P cfg p k ls).run c = .ok () c' →
      ∃ c1 : CSt T, k.run c1 = .ok () c' ∧ c1.idx.layers = c.idx.layers ∧
        c1.idx.entry = c.idx.entry ∧
        RevInv cfg s0 p own (done ++ ls.flatMap (fun l => (own l).map (·.pt.pid))) c1 := by
  intro ls
  induction ls with
  | nil =>
    intro done c c' hR _ h
    exact ⟨c, h, rfl, rfl, by simpa using hR⟩
  | cons l ls ih =>
    intro done c c' hR hq h
    simp only [reverseP, Prog.run, if_true] at h
    rw [hR.own l] at h
    obtain ⟨c1, k1, k2, k3, k4⟩ := revInner_spec L h0 hfr hL _ (own l) done _ c'
      (hR.congr (c' := { c with held := p.pid :: c.held }) (fun _ => Iff.rfl) rfl) (hq l (by simp)) h
    obtain ⟨c2, m1, m2, m3, m4⟩ := ih _ c1 c' k4 (fun l' hl' => hq l' (by simp [hl'])) k1
    refine ⟨c2, m1, m2.trans k2, m3.trans k3, ?_⟩
    simpa [List.flatMap_cons, List.append_assoc] using m4

/-! ## The whole insertion -/

theorem selected_dist {l asked : Nat} {ext kp : Bool} {F v : List (PWO T)}
    (h : Selected cfg s0 p l asked ext kp F v) (hF : ∀ x ∈ F, x.dist = cfg.eval p.data x.pt.data) :
    ∀ x ∈ v, x.dist = cfg.eval p.data x.pt.data := by
  obtain ⟨pool, ⟨extras, e1, -⟩, hv⟩ := h
  have hp : ∀ x ∈ pool, x.dist = cfg.eval p.data x.pt.data := by
    intro x hx
    rcases List.mem_append.1 (e1.mem_iff.1 hx) with h1 | h1
    · exact hF x h1
    · obtain ⟨r, -, rfl⟩ := List.mem_map.1 h1
      rfl
  intro x hx
  rcases hv with ⟨-, -, h1⟩ | ⟨-, -, h1⟩ | ⟨-, -, v0, w, -, -, h1, -⟩
  · exact hp x (h1.mem_iff.1 hx)
  · exact hp x (h1.sub x hx).1
  · exact hp x (h1 x hx)

/-- What a completed insertion does, with an entry point. -/
theorem insert_links (L : P.Lawful) {c0 c : CSt T} (h : GoodC cfg c0) {item : List T × DataId}
    {level : Nat} (hl : level < cfg.maxLayer) {ep : Ref T} (hep : c0.idx.entry = some ep)
    (hL : LegalOn cfg.eval c0.idx item.1) (hins : insert P cfg c0 item level = .ok () c) :
    (∃ piv : Nat → Ref T, piv (max level ep.pid.layer + 1) = ep ∧
      (∀ l, level < l → l ≤ ep.pid.layer →
        UpperStep cfg c0.idx (newRef item level c0.idx) l (piv (l + 1)) (piv l)
          (c.idx.nb (newRef item level c0.idx).pid l)) ∧
      (∀ l, l ≤ level →
        LowerStep cfg c0.idx (newRef item level c0.idx) l (piv (l + 1)) (piv l)
          (c.idx.nb (newRef item level c0.idx).pid l)) ∧
      ∀ l, level < l → ep.pid.layer < l → c.idx.nb (newRef item level c0.idx).pid l = []) ∧
    (∃ done : List PointId, (∀ a, a ∈ done ↔ ∃ l, l ≤ level ∧
        ∃ q ∈ c.idx.nb (newRef item level c0.idx).pid l, q.pt.pid = a) ∧
      RevInv cfg c0.idx (newRef item level c0.idx) (c.idx.nb (newRef item level c0.idx).pid) done c) ∧
    c.idx.entry = some (if ep.pid.layer < level then newRef item level c0.idx else ep) ∧
    c.idx.layers = (addPoint item level c0.idx).layers := by
  have h0 := h.inv.ok
  have hepS := h0.entry ep hep
  have hlen : level < c0.idx.layers.length := by rw [h0.tab.len]; exact hl
  have hfr : ∀ v, Stored c0.idx v → v.pid ≠ (newRef item level c0.idx).pid :=
    fun v hv => newRef_fresh h0.tab item level hv
  have hpl : (newRef item level c0.idx).pid.layer = level := rfl
  have hpd : (newRef item level c0.idx).data = item.1 := rfl
  have hne : c0.idx.points ≠ [] := by
    intro h1; unfold Stored at hepS; rw [h1] at hepS; cases hepS
  have hpos : 0 < c0.idx.points.length := List.length_pos_iff.2 hne
  have hepl : ep.pid.layer < c0.idx.layers.length := by
    have := h0.tab.stored_iff.1 hepS
    unfold Idx.layer at this
    apply Classical.byContradiction
    intro h1
    rw [List.getElem?_eq_none (Nat.le_of_not_lt h1)] at this
    simp at this
  unfold insert at hins
  simp only [insertP, Prog.run, if_true, if_pos hlen, countP] at hins
  rw [show (addPoint item level c0.idx).nbPoint = c0.idx.points.length from h.count] at hins
  generalize hfuel' : c0.idx.points.length + 3 = fuel at hins
  have hfuel : c0.idx.points.length + 2 ≤ fuel := by omega
  simp only [linkP, Prog.read, Prog.run, if_true, id] at hins
  rw [show (addPoint item level c0.idx).entry = some ep from hep] at hins
  simp only at hins
  rw [if_neg (by omega)] at hins
  obtain ⟨c2, hc2⟩ : ∃ c2, c2 = (CSt.mk (Idx.mk (addPoint item level c0.idx).layers
    (addPoint item level c0.idx).nb (c0.idx.points.length + 1) (some ep)) c0.held c0.pub) := ⟨_, rfl⟩
  rw [← hc2] at hins
  have hnb2 : c2.idx.nb = c0.idx.nb := by rw [hc2]; rfl
  have hlay2 : c2.idx.layers = (addPoint item level c0.idx).layers := by rw [hc2]
  have hent2 : c2.idx.entry = some ep := by rw [hc2]
  generalize hp : newRef item level c0.idx = p at *
  have hown0 : OwnOnly c0.idx p.pid c2 := fun a l _ => by rw [hnb2]
  have hemp0 : ∀ l, c2.idx.nb p.pid l = [] := by
    intro l
    rw [hnb2]
    apply Classical.byContradiction
    intro h1
    obtain ⟨o, ho, ho'⟩ := h0.owner _ _ h1
    exact hfr o ho ho'
  have hlayc : ∀ l, l < c0.idx.layers.length → ∃ x, c2.idx.layers[l]? = some x ∧
      (x = [] ↔ c0.idx.layer l = [] ∧ l ≠ p.pid.layer) := by
    intro l hll
    have h1 := layer_addPoint item level c0.idx hlen l
    have h2 : l < c2.idx.layers.length := by
      rw [hlay2]; simp [addPoint]; exact hll
    refine ⟨_, List.getElem?_eq_getElem h2, ?_⟩
    have h3 : (addPoint item level c0.idx).layer l = c2.idx.layers[l] := by
      unfold Idx.layer
      rw [← hlay2, List.getElem?_eq_getElem h2]
      rfl
    rw [← h3, h1, hpl]
    by_cases h4 : l = level
    · rw [if_pos h4]; simp [h4]
    · rw [if_neg h4]; simp [h4]
  rw [hpl, run_bind] at hins
  generalize hu : (upperP P cfg fuel p (layersDown ep.pid.layer (level + 1)) ep
    (cfg.eval p.data ep.data)).run c2 = o at hins
  cases o with
  | panic e s => cases hins
  | blocked s => cases hins
  | ok a c3 =>
    obtain ⟨haS, hown3, hlay3, hent3, hnb3, piv1, hp1, hp2, hp3⟩ := upperP_run L h0 hfr
      (by rw [hpd]; exact hL) hfuel (lo := level + 1) (by omega) (ep.pid.layer + 1 - (level + 1)) ep a
      c2 c3 ⟨hown0, fun l h1 h2 => hlayc l (by omega), fun l _ _ => hemp0 l⟩ hepS hu
    simp only at hins
    rw [run_bind] at hins
    generalize hlo : (lowerP P cfg fuel p (layersDown level 0) a).run c3 = o at hins
    cases o with
    | panic e s => cases hins
    | blocked s => cases hins
    | ok u c4 =>
      obtain ⟨hown4, hlay4, hent4, hnb4, b, piv2, hq1, hq2, hq3⟩ := lowerP_run L h0 hfr
        (by rw [hpd]; exact hL) hfuel (lo := 0) (level + 1 - 0) a
        c3 c4 ⟨hown3, fun l h1 h2 => by rw [hlay3]; exact hlayc l (by omega),
          fun l h1 h2 => by rw [hnb3 l (by omega)]; exact hemp0 l⟩ haS hlo
      simp only at hins
      have hdist : ∀ l, l ≤ level → ∀ q ∈ c4.idx.nb p.pid l,
          Stored c0.idx q.pt ∧ q.dist = cfg.eval p.data q.pt.data := by
        intro l hl' q hq
        obtain ⟨h1, h2⟩ := hq3 l (by omega) (by omega)
        refine ⟨h2 q hq, ?_⟩
        rcases h1 with ⟨-, -, -, h3⟩ | ⟨-, F, v, hB, hSel, hpm, -, -⟩
        · rw [h3] at hq; cases hq
        · exact selected_dist hSel hB.dist q (hpm.mem_iff.1 hq)
      have hmem : ∀ l, l ∈ layersDown level 0 ↔ l ≤ level := by
        intro l
        simp [layersDown, List.mem_range']
        omega
      obtain ⟨c5, k1, k2, k3, k4⟩ := reverseP_spec L h0 hfr (by rw [hpd]; exact hL)
        (own := c4.idx.nb p.pid) (checkEntryP p)
        (layersDown level 0) [] c4 c
        ⟨fun a l ha _ => hown4 a l ha, fun _ => rfl, fun o _ h => by cases h⟩
        (fun l hl' => hdist l ((hmem l).1 hl')) hins
      simp only [checkEntryP, Prog.run, if_true] at k1
      injection k1 with _ k1
      have hcnb : c.idx.nb = c5.idx.nb := by rw [← k1]; rfl
      have hcown : c.idx.nb p.pid = c4.idx.nb p.pid := by
        rw [hcnb]; exact funext k4.own
      refine ⟨⟨fun l => if level < l then piv1 l else piv2 l, ?_, ?_, ?_, ?_⟩, ?_, ?_, ?_⟩
      · simp only
        rw [if_pos (by omega)]
        by_cases h1 : level ≤ ep.pid.layer
        · have : max level ep.pid.layer + 1 = level + 1 + (ep.pid.layer + 1 - (level + 1)) := by omega
          rw [this]; exact hp1
        · have : max level ep.pid.layer + 1 = level + 1 + (ep.pid.layer + 1 - (level + 1)) := by omega
          rw [this]; exact hp1
      · intro l h1 h2
        simp only
        rw [if_pos h1, if_pos (by omega), hcown, hnb4 l (by omega)]
        exact hp3 l (by omega) (by omega)
      · intro l h1
        simp only
        rw [if_neg (by omega : ¬ level < l), hcown]
        by_cases h2 : l = level
        · rw [if_pos (by omega)]
          have := (hq3 l (by omega) (by omega)).1
          rw [h2] at this ⊢
          rw [hp2]
          rw [show level + 1 = 0 + (level + 1 - 0) by omega, hq1] at this
          exact this
        · rw [if_neg (by omega)]
          exact (hq3 l (by omega) (by omega)).1
      · intro l h1 h2
        rw [hcown, hnb4 l (by omega), hnb3 l (by omega), hemp0]
      · refine ⟨_, ?_, (k4.congr (fun _ => Iff.rfl) hcnb).congrOwn hcown⟩
        intro a
        simp only [List.nil_append, List.mem_flatMap, List.mem_map, hcown]
        constructor
        · rintro ⟨l, hl', q, hq, rfl⟩
          exact ⟨l, (hmem l).1 hl', q, hq, rfl⟩
        · rintro ⟨l, hl', q, hq, rfl⟩
          exact ⟨l, (hmem l).2 hl', q, hq, rfl⟩
      · rw [← k1]
        simp only [checkEntry]
        rw [k3, hent4, hent3, hent2]
        simp only
        rw [hpl]
        split <;> rfl
      · rw [← k1]
        simp only [checkEntry]
        rw [k2, hlay4, hlay3, hlay2]

end Verif
