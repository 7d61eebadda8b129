import Verif.IterConcLemmas

set_option autoImplicit false

/-!
# Accessors called at the same time as insertions

The accessors of `PointIndexation` take `&self`: client threads may call them while others insert.  They take a
lock for each thing they look at and release it at once, so that the index changes between two looks.  The comment of
`get_point_data` (/repo/src/hnsw.rs 582-583) advises against it; here is what happens nevertheless.
-/

namespace Verif
variable {T α : Type}

/-! ## Programs -/

/-- `get_nb_point` (/repo/src/hnsw.rs 555-558), `get_max_level_observed` (469-476), `get_data_dimension` (570-578):
one lock, one look. -/
def lookP (f : Idx T → α) : Prog (CSt T) α := .read fun s => .ret (f s.idx)

/-- `get_layer_nb_point` (/repo/src/hnsw.rs 560-568): the table is locked twice. -/
def layerNbP (layer : Nat) : Prog (CSt T) Nat :=
  .read fun s =>
    if layer < s.idx.layers.length then
      .read fun s =>
        match s.idx.layers[layer]? with
        | none => .fail .index
        | some v => .ret v.length
    else .ret 0

/-- `get_point_data` (/repo/src/hnsw.rs 584-595) and `get_point` (602-613), which only differ in what they take of the
point: the entry point is looked at, then, if the layer is not above it, the table, twice, then, if the rank is good, the
table again, where indexing panics if there is nothing. -/
def pointP (g : Ref T → α) (layer : Nat) (rank : Int) : Prog (CSt T) (Option α) :=
  if rank < 0 then .ret none
  else
    (lookP getMaxLevelObserved).bind fun ml =>
      if layer ≤ ml then
        (layerNbP layer).bind fun n =>
          if rank.toNat < n then
            .read fun s =>
              match s.idx.layers[layer]? with
              | none => .fail .index
              | some v =>
                match v[rank.toNat]? with
                | none => .fail .index
                | some p => .ret (some (g p))
          else .ret none
      else .ret none

/-- `get_point_data` (/repo/src/hnsw.rs 584-595) -/
def pointDataP (layer : Nat) (rank : Int) : Prog (CSt T) (Option (List T)) := pointP (·.data) layer rank

/-- `get_point` (/repo/src/hnsw.rs 602-613) -/
def getPointP (layer : Nat) (rank : Int) : Prog (CSt T) (Option (Ref T)) := pointP id layer rank

/-! ## Executions -/

/-- State of a system of insertion threads and of threads calling accessors. -/
structure GSys (T α : Type) where
  st : CSt T
  ins : List (Prog (CSt T) Unit)
  acc : List (Prog (CSt T) α)

/-- one action of the accessor thread `i` -/
def OwnStep (i : Nat) (m m' : GSys T α) : Prop :=
  ∃ g u k, m.acc[i]? = some (.act g u k) ∧ g m.st = true ∧ m' = ⟨u m.st, m.ins, m.acc.set i (k m.st)⟩

/-- one step: an insertion thread or an accessor thread performs its next action -/
inductive GStep : GSys T α → GSys T α → Prop
  | ins {s s' : CSt T} {ts ts' : List (Prog (CSt T) Unit)} {us : List (Prog (CSt T) α)} (h : Step (s, ts) (s', ts')) :
      GStep ⟨s, ts, us⟩ ⟨s', ts', us⟩
  | acc {m m' : GSys T α} (i : Nat) (h : OwnStep i m m') : GStep m m'

/-- any number of steps, any schedule -/
inductive GSteps : GSys T α → GSys T α → Prop
  | refl (m : GSys T α) : GSteps m m
  | step {a b c : GSys T α} : GSteps a b → GStep b c → GSteps a c

/-- the beginning: insertions `jobs`, one thread each, and the accessor threads `us`, from the quiescent state `c0` -/
def accStart (P : Policy T) (cfg : Cfg T) (c0 : CSt T) (jobs : List (Job T)) (us : List (Prog (CSt T) α)) : GSys T α :=
  ⟨c0, jobs.map (Job.prog P cfg (c0.idx.points.length + jobs.length + 2)), us⟩

/-- Between `m0` and `m`, at the moment of some action of the thread `i`, the index was such that `f` gives `a`. -/
def During (i : Nat) (f : Idx T → α) (m0 m : GSys T α) (a : α) : Prop :=
  ∃ m1 m2, GSteps m0 m1 ∧ OwnStep i m1 m2 ∧ GSteps m2 m ∧ f m1.st.idx = a

/-! ## Lemmas -/

theorem During.step {i : Nat} {f : Idx T → α} {m0 m m' : GSys T α} {a : α} (h : During i f m0 m a)
    (hs : GStep m m') : During i f m0 m' a := by
  obtain ⟨m1, m2, h1, h2, h3, h4⟩ := h
  exact ⟨m1, m2, h1, h2, .step h3 hs, h4⟩

/-- how the index evolves -/
structure Grown (s s' : CSt T) : Prop where
  stored : ∀ v, Stored s.idx v → Stored s'.idx v
  entry : ∀ e, s.idx.entry = some e → ∃ e', s'.idx.entry = some e' ∧ e.pid.layer ≤ e'.pid.layer
  count : s.idx.nbPoint ≤ s'.idx.nbPoint

theorem Grown.refl (s : CSt T) : Grown s s := ⟨fun _ h => h, fun e he => ⟨e, he, Nat.le_refl _⟩, Nat.le_refl _⟩

theorem Grown.trans {s s' s'' : CSt T} (h : Grown s s') (h' : Grown s' s'') : Grown s s'' := by
  refine ⟨fun v hv => h'.stored v (h.stored v hv), fun e he => ?_, Nat.le_trans h.count h'.count⟩
  obtain ⟨e1, h1, h2⟩ := h.entry e he
  obtain ⟨e2, h3, h4⟩ := h'.entry e1 h1
  exact ⟨e2, h3, Nat.le_trans h2 h4⟩

theorem Grown.level {s s' : CSt T} (h : Grown s s') : getMaxLevelObserved s.idx ≤ getMaxLevelObserved s'.idx := by
  unfold getMaxLevelObserved
  cases he : s.idx.entry with
  | none => exact Nat.zero_le _
  | some e =>
    obtain ⟨e', h1, h2⟩ := h.entry e he
    rw [h1]
    exact h2

theorem stored_of_nth {s : Idx T} {l r : Nat} {p : Ref T} (h : (s.layer l)[r]? = some p) : Stored s p := by
  unfold Idx.layer at h
  cases hl : s.layers[l]? with
  | none => rw [hl] at h; simp at h
  | some v =>
    rw [hl] at h
    exact List.mem_flatten.2 ⟨v, List.mem_of_getElem? hl, List.mem_of_getElem? h⟩

theorem nth_of_stored {m : Nat} {s : Idx T} (ht : TableOK m s) {p : Ref T} (h : Stored s p) :
    (s.layer p.pid.layer)[p.pid.rank]? = some p := by
  obtain ⟨ps, hps, hp⟩ := List.mem_flatten.1 h
  obtain ⟨l, hl⟩ := List.getElem?_of_mem hps
  obtain ⟨r, hr⟩ := List.getElem?_of_mem hp
  have hr' : (s.layer l)[r]? = some p := by rw [layer_eq hl]; exact hr
  rw [ht.ids l r p hr']
  exact hr'

/-- a place of the table keeps its point -/
theorem Grown.nth {m m' : Nat} {s s' : CSt T} (h : Grown s s') (ht : TableOK m s.idx) (ht' : TableOK m' s'.idx)
    {l r : Nat} {p : Ref T} (hp : (s.idx.layer l)[r]? = some p) : (s'.idx.layer l)[r]? = some p := by
  have := nth_of_stored ht' (h.stored p (stored_of_nth hp))
  rw [ht.ids l r p hp] at this
  exact this

theorem Grown.layer_len {m m' : Nat} {s s' : CSt T} (h : Grown s s') (ht : TableOK m s.idx) (ht' : TableOK m' s'.idx)
    (l : Nat) : (s.idx.layer l).length ≤ (s'.idx.layer l).length := by
  rcases Nat.eq_zero_or_pos (s.idx.layer l).length with h0 | h0
  · omega
  · have h1 : (s.idx.layer l).length - 1 < (s.idx.layer l).length := by omega
    have := (List.getElem?_eq_some_iff.1 (h.nth ht ht' (List.getElem?_eq_getElem h1))).1
    omega

theorem getLayerNb_eq (s : Idx T) (l : Nat) : getLayerNbPoint s l = (s.layer l).length := by
  unfold getLayerNbPoint Idx.layer
  split
  · rename_i h
    rw [List.getElem?_eq_getElem h]; rfl
  · rename_i h
    rw [List.getElem?_eq_none (by omega)]; rfl

section
variable {P : Policy T} {cfg : Cfg T} {B : Base T}

theorem sysInv_grown {fuel N : Nat} {D : List T → Prop} {W : Nat → Prop} {s0 : CSt T} {jobs : List (Job T)}
    {c c' : CSt T × List (Prog (CSt T) Unit)} (hs : Step c c') {ph : List (Phase T)}
    (h : SysInvB B P cfg fuel N D W s0 jobs c.1 c.2 ph) : Grown c.1 c'.1 := by
  refine ⟨(sysInv_mono hs h).stored, fun e he => sysInv_entry hs h he, ?_⟩
  cases hs with
  | mk i hi g u k hact hg =>
  rename_i s ts
  simp only at h ⊢
  have hti : ts[i]? = some (.act g u k) := by rw [List.getElem?_eq_getElem hi, hact]
  have hilt : i < jobs.length := h.tlen ▸ hi
  have hji : jobs[i]? = some jobs[i] := List.getElem?_eq_getElem hilt
  have hplt : i < ph.length := by rw [h.len]; exact hilt
  have hpi : ph[i]? = some ph[i] := List.getElem?_eq_getElem hplt
  generalize jobs[i] = j at hji
  generalize ph[i] = a at hpi
  have hT := h.thr i j a _ hji hpi hti
  cases a with
  | idle =>
    obtain ⟨hprog, -, hlev, -⟩ := hT
    unfold Job.prog insertP at hprog
    cases hprog
    exact Nat.le_refl _
  | added r =>
    obtain ⟨hprog, -⟩ := hT
    unfold countP at hprog
    cases hprog
    exact Nat.le_succ _
  | running r rk =>
    obtain ⟨hsafe, -⟩ := hT
    obtain ⟨hG, -⟩ := (hsafe s h.env (Rel.refl _ _ _)).2 hg
    exact Nat.le_of_eq hG.count.symm

/-- What the program returns is, for each evolution of the index, the value of `f` at the moment of one of its
actions, or in `V`; it does not panic. -/
def Lin (n : Nat) (f : Idx T → α) : (α → Prop) → Prog (CSt T) α → CSt T → Prop
  | V, .ret a, _ => V a
  | _, .fail _, _ => False
  | V, .act _ _ k, s => ∀ s', TableOK n s'.idx → Grown s s' → Lin n f (fun a => V a ∨ f s'.idx = a) (k s') s'

theorem Lin.grown {n : Nat} {f : Idx T → α} {V : α → Prop} {t : Prog (CSt T) α} {s s' : CSt T} (h : Lin n f V t s)
    (hg : Grown s s') : Lin n f V t s' := by
  cases t with
  | ret a => exact h
  | fail e => exact h
  | act g u k => exact fun s'' ht hg' => h s'' ht (hg.trans hg')

/-- the accessor threads have no influence on the insertions, and the index only grows -/
theorem GSteps.facts (L : P.Lawful) {c0 : CSt T} (h : GoodCB B cfg c0) (hB : B.Owned c0.idx) {jobs : List (Job T)}
    (hl : ∀ j ∈ jobs, j.level < cfg.maxLayer) {us : List (Prog (CSt T) α)} (hro : ∀ u ∈ us, ReadOnly u)
    {m : GSys T α} (he : GSteps (accStart P cfg c0 jobs us) m) :
    Exec P cfg c0 jobs m.st m.ins ∧ (∀ u ∈ m.acc, ReadOnly u) ∧ Grown c0 m.st ∧ TableOK cfg.maxLayer m.st.idx := by
  generalize hm0 : accStart P cfg c0 jobs us = m0 at he
  have key : Exec P cfg c0 jobs m.st m.ins ∧ (∀ u ∈ m.acc, ReadOnly u) ∧ Grown c0 m.st := by
    induction he with
    | refl => subst hm0; exact ⟨.refl _, hro, Grown.refl _⟩
    | @step b c hb hs ih =>
      obtain ⟨h1, h2, h3⟩ := ih
      cases hs with
      | @ins s s' ts ts' us' hst =>
        obtain ⟨ph, hi⟩ := Exec.invB L h hB hl h1 (fun _ => True) (fun _ _ => trivial) (fun _ _ => trivial)
        exact ⟨.step h1 hst, h2, h3.trans (sysInv_grown (c := (s, ts)) (c' := (s', ts')) hst hi)⟩
      | acc i hst =>
        obtain ⟨g, u, k, ha, hg, rfl⟩ := hst
        have hr := h2 _ (List.mem_of_getElem? ha)
        refine ⟨?_, ?_, ?_⟩
        · rw [(hr.1 _).2]; exact h1
        · intro v hv
          rcases mem_of_set hv with rfl | hv
          · exact hr.2 _
          · exact h2 v hv
        · rw [(hr.1 _).2]; exact h3
  obtain ⟨h1, h2, h3⟩ := key
  exact ⟨h1, h2, h3, (Exec.factsB L h hB hl h1 (fun _ => True) (fun _ _ => trivial) (fun _ _ => trivial)).ok.tab⟩

theorem GStep.grown (L : P.Lawful) {c0 : CSt T} (h : GoodCB B cfg c0) (hB : B.Owned c0.idx) {jobs : List (Job T)}
    (hl : ∀ j ∈ jobs, j.level < cfg.maxLayer) {us : List (Prog (CSt T) α)} (hro : ∀ u ∈ us, ReadOnly u)
    {m m' : GSys T α} (he : GSteps (accStart P cfg c0 jobs us) m) (hs : GStep m m') : Grown m.st m'.st := by
  obtain ⟨h1, h2, -⟩ := GSteps.facts L h hB hl hro he
  cases hs with
  | @ins s s' ts ts' us' hst =>
    obtain ⟨ph, hi⟩ := Exec.invB L h hB hl h1 (fun _ => True) (fun _ _ => trivial) (fun _ _ => trivial)
    exact sysInv_grown (c := (s, ts)) (c' := (s', ts')) hst hi
  | acc i hst =>
    obtain ⟨g, u, k, ha, hg, rfl⟩ := hst
    have hr := h2 _ (List.mem_of_getElem? ha)
    show Grown m.st (u m.st)
    rw [(hr.1 _).2]; exact Grown.refl _

theorem GSteps.trans {a b c : GSys T α} (h : GSteps a b) (h' : GSteps b c) : GSteps a c := by
  induction h' with
  | refl => exact h
  | step _ hs ih => exact .step ih hs

/-- from any moment of an execution to any later one -/
theorem GSteps.grown (L : P.Lawful) {c0 : CSt T} (h : GoodCB B cfg c0) (hB : B.Owned c0.idx) {jobs : List (Job T)}
    (hl : ∀ j ∈ jobs, j.level < cfg.maxLayer) {us : List (Prog (CSt T) α)} (hro : ∀ u ∈ us, ReadOnly u)
    {m m' : GSys T α} (he : GSteps (accStart P cfg c0 jobs us) m) (hs : GSteps m m') : Grown m.st m'.st := by
  induction hs with
  | refl => exact Grown.refl _
  | step h1 hs ih => exact ih.trans (GStep.grown L h hB hl hro (he.trans h1) hs)

/-- a thread running a program that satisfies `Lin` -/
theorem lin_general (L : P.Lawful) {c0 : CSt T} (h : GoodCB B cfg c0) (hB : B.Owned c0.idx) {jobs : List (Job T)}
    (hl : ∀ j ∈ jobs, j.level < cfg.maxLayer) {us : List (Prog (CSt T) α)} (hro : ∀ u ∈ us, ReadOnly u)
    {i : Nat} {p : Prog (CSt T) α} (hp : us[i]? = some p) {f : Idx T → α}
    (hlin : Lin cfg.maxLayer f (fun _ => False) p c0) {m : GSys T α} (he : GSteps (accStart P cfg c0 jobs us) m)
    {t : Prog (CSt T) α} (ht : m.acc[i]? = some t) :
    ∃ V, (∀ a, V a → During i f (accStart P cfg c0 jobs us) m a) ∧ Lin cfg.maxLayer f V t m.st := by
  generalize hm0 : accStart P cfg c0 jobs us = m0 at he
  induction he generalizing t with
  | refl =>
    subst hm0
    have : us[i]? = some t := ht
    rw [hp] at this
    cases this
    exact ⟨_, fun _ h => h.elim, hlin⟩
  | @step b c hb hs ih =>
    have hb' : GSteps (accStart P cfg c0 jobs us) b := hm0 ▸ hb
    have hgrow := GStep.grown L h hB hl hro hb' hs
    obtain ⟨-, hro', -, htab⟩ := GSteps.facts L h hB hl hro hb'
    have hs' := hs
    cases hs with
    | @ins s s' ts ts' us' hst =>
      obtain ⟨V, h1, h2⟩ := ih ht
      exact ⟨V, fun a ha => (h1 a ha).step hs', h2.grown hgrow⟩
    | acc i' hst =>
      have hst' := hst
      obtain ⟨g, u, k, ha, hg, rfl⟩ := hst
      have hr := hro' _ (List.mem_of_getElem? ha)
      have hus : u b.st = b.st := (hr.1 _).2
      rcases getElem?_set_cases ht with ⟨rfl, rfl, -⟩ | ⟨hne, ht'⟩
      · obtain ⟨V, h1, h2⟩ := ih ha
        refine ⟨fun a => V a ∨ f b.st.idx = a, ?_, ?_⟩
        · rintro a (hv | hv)
          · exact (h1 a hv).step hs'
          · exact ⟨b, _, hb, hst', .refl _, hv⟩
        · simp only [hus]
          exact h2 b.st htab (Grown.refl _)
      · obtain ⟨V, h1, h2⟩ := ih ht'
        exact ⟨V, fun a ha => (h1 a ha).step hs', h2.grown hgrow⟩

end

/-! ## The programs -/

theorem lookP_ro (f : Idx T → α) : ReadOnly (lookP f) := ReadOnly.read fun _ => trivial

theorem layerNbP_ro (l : Nat) : ReadOnly (layerNbP l : Prog (CSt T) Nat) := by
  apply ReadOnly.read
  intro s
  split
  · apply ReadOnly.read
    intro s'
    split <;> trivial
  · trivial

theorem pointP_ro (g : Ref T → α) (l : Nat) (r : Int) : ReadOnly (pointP g l r) := by
  unfold pointP
  split
  · trivial
  · refine (lookP_ro _).bind fun ml => ?_
    split
    · refine (layerNbP_ro _).bind fun n => ?_
      split
      · apply ReadOnly.read
        intro s
        split
        · trivial
        · split <;> trivial
      · trivial
    · trivial

theorem lookP_lin (n : Nat) (f : Idx T → α) (V : α → Prop) (s : CSt T) : Lin n f V (lookP f) s :=
  fun _ _ _ => Or.inr rfl

theorem layerNbP_lin (n l : Nat) (V : Nat → Prop) (s : CSt T) :
    Lin n (fun s => getLayerNbPoint s l) V (layerNbP l) s := by
  intro s1 h1 _
  dsimp only
  by_cases hl : l < s1.idx.layers.length
  · rw [if_pos hl]
    intro s2 h2 _
    have hl' : l < s2.idx.layers.length := by rw [h2.len, ← h1.len]; exact hl
    dsimp only
    rw [List.getElem?_eq_getElem hl']
    refine Or.inr ?_
    unfold getLayerNbPoint
    rw [dif_pos hl']
  · rw [if_neg hl]
    refine Or.inr ?_
    unfold getLayerNbPoint
    rw [dif_neg hl]

/-- `getPoint`, then `g` -/
theorem getPoint_eq {s : Idx T} {l : Nat} {r : Int} (hr : ¬ r < 0) :
    getPoint s l r = if l ≤ getMaxLevelObserved s ∧ r.toNat < (s.layer l).length then (s.layer l)[r.toNat]? else none := by
  unfold getPoint
  rw [if_neg hr, getLayerNb_eq]

theorem pointP_lin (n : Nat) (g : Ref T → α) (l : Nat) (r : Int) (hr : 0 ≤ r) (V : Option α → Prop) (s : CSt T) :
    Lin n (fun s => (getPoint s l r).map g) V (pointP g l r) s := by
  have hr' : ¬ r < 0 := by omega
  unfold pointP
  rw [if_neg hr']
  intro s1 h1 _
  dsimp only [lookP, Prog.read, Prog.bind]
  by_cases hm : l ≤ getMaxLevelObserved s1.idx
  · rw [if_pos hm]
    intro s2 h2 g2
    dsimp only [Prog.bind]
    by_cases hl : l < s2.idx.layers.length
    · rw [if_pos hl]
      intro s3 h3 g3
      have hl3 : l < s3.idx.layers.length := by rw [h3.len, ← h2.len]; exact hl
      have hlay : ∀ s : Idx T, l < s.layers.length → s.layers[l]? = some (s.layer l) := by
        intro s h
        unfold Idx.layer
        rw [List.getElem?_eq_getElem h]; rfl
      dsimp only
      rw [hlay _ hl3]
      dsimp only [Prog.bind]
      by_cases hn : r.toNat < (s3.idx.layer l).length
      · rw [if_pos hn]
        intro s4 h4 g4
        have hl4 : l < s4.idx.layers.length := by rw [h4.len, ← h3.len]; exact hl3
        have hp := List.getElem?_eq_getElem hn
        have hp4 := g4.nth h3 h4 hp
        dsimp only
        rw [hlay _ hl4]
        dsimp only
        rw [hp4]
        refine Or.inr ?_
        rw [getPoint_eq hr', if_pos ⟨Nat.le_trans hm (g2.trans (g3.trans g4)).level,
          Nat.lt_of_lt_of_le hn (g4.layer_len h3 h4 l)⟩, hp4]
        rfl
      · rw [if_neg hn]
        refine Or.inr ?_
        rw [getPoint_eq hr', if_neg (fun h => hn h.2)]
        rfl
    · rw [if_neg hl]
      dsimp only [Prog.bind]
      rw [if_neg (by omega)]
      refine Or.inr ?_
      rw [getPoint_eq hr', if_neg (fun h => ?_)]
      · rfl
      · have := h.2
        unfold Idx.layer at this
        rw [List.getElem?_eq_none (by omega)] at this
        simp at this
  · rw [if_neg hm]
    refine Or.inr ?_
    rw [getPoint_eq hr', if_neg (fun h => hm h.1)]
    rfl

theorem getPointData_map (s : Idx T) (l : Nat) (r : Int) : getPointData s l r = (getPoint s l r).map (·.data) := by
  unfold getPointData getPoint
  split
  · rfl
  · split <;> rfl

end Verif
