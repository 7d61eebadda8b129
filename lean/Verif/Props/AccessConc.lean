import Verif.AccessConc
import Verif.Props.AnyConc

set_option autoImplicit false

/-!
# C128: accessors called during insertions

`accStart P cfg c0 jobs us`: the insertions `jobs`, one thread each, and the threads `us`, which only read; `GSteps`: any
schedule.  `During i f m0 m a`: at the moment of an action of the thread `i` between `m0` and `m`, the index was such that
`f` gives `a`.
-/

namespace Verif
variable {T α : Type} {P : Policy T} {cfg : Cfg T}

/-- general form of C128, for `get_point_data` and `get_point` -/
theorem pointP_general {B : Base T} (L : P.Lawful) {c0 : CSt T} (h : GoodCB B cfg c0) (hB : B.Owned c0.idx)
    {jobs : List (Job T)} (hl : ∀ j ∈ jobs, j.level < cfg.maxLayer) {us : List (Prog (CSt T) (Option α))}
    (hro : ∀ u ∈ us, ReadOnly u) {g : Ref T → α} {i l : Nat} {r : Int} (hi : us[i]? = some (pointP g l r)) (hr : 0 ≤ r)
    {m : GSys T (Option α)} (he : GSteps (accStart P cfg c0 jobs us) m) :
    (∀ e, m.acc[i]? ≠ some (.fail e)) ∧
    ∀ a, m.acc[i]? = some (.ret a) →
      During i (fun s => (getPoint s l r).map g) (accStart P cfg c0 jobs us) m a := by
  refine ⟨fun e hx => ?_, fun a ha => ?_⟩
  · obtain ⟨V, -, h2⟩ := lin_general L h hB hl hro hi (pointP_lin cfg.maxLayer g l r hr _ c0) he hx
    exact h2
  · obtain ⟨V, h1, h2⟩ := lin_general L h hB hl hro hi (pointP_lin cfg.maxLayer g l r hr _ c0) he ha
    exact h1 a h2

/-- general form, in terms of the points of the index -/
theorem pointP_found {B : Base T} (L : P.Lawful) {c0 : CSt T} (h : GoodCB B cfg c0) (hB : B.Owned c0.idx)
    {jobs : List (Job T)} (hl : ∀ j ∈ jobs, j.level < cfg.maxLayer) {us : List (Prog (CSt T) (Option α))}
    (hro : ∀ u ∈ us, ReadOnly u) {g : Ref T → α} {i l : Nat} {r : Int} (hi : us[i]? = some (pointP g l r)) (hr : 0 ≤ r)
    {m : GSys T (Option α)} (he : GSteps (accStart P cfg c0 jobs us) m) {a : Option α}
    (ha : m.acc[i]? = some (.ret a)) :
    (∀ v, a = some v → ∃ p ∈ m.st.idx.points, p.pid = ⟨l, r.toNat⟩ ∧ g p = v) ∧
    ∀ p ∈ c0.idx.points, p.pid = ⟨l, r.toNat⟩ → ∀ e, c0.idx.entry = some e → l ≤ e.pid.layer → a = some (g p) := by
  have hr' : ¬ r < 0 := by omega
  obtain ⟨m1, m2, h1, h2, h3, h4⟩ := (pointP_general L h hB hl hro hi hr he).2 a ha
  obtain ⟨-, -, g1, t1⟩ := GSteps.facts L h hB hl hro h1
  have g2 := GSteps.grown L h hB hl hro h1 (m' := m) ((GSteps.step (.refl _) (.acc i h2)).trans h3)
  have t0 : TableOK cfg.maxLayer c0.idx := h.inv.okB.tab
  dsimp only at h4
  rw [getPoint_eq hr'] at h4
  refine ⟨fun v hv => ?_, fun p hp hpid e hee hle => ?_⟩
  · subst hv
    split at h4
    · obtain ⟨p, hp, hv⟩ := Option.map_eq_some_iff.1 h4
      exact ⟨p, g2.stored p (stored_of_nth hp), t1.ids _ _ _ hp, hv⟩
    · cases h4
  · have hn := nth_of_stored t1 (g1.stored p hp)
    rw [hpid] at hn
    dsimp only at hn
    have hlev : l ≤ getMaxLevelObserved m1.st.idx := by
      refine Nat.le_trans hle (Nat.le_trans (Nat.le_of_eq ?_) g1.level)
      unfold getMaxLevelObserved
      rw [hee]
    rw [if_pos ⟨hlev, (List.getElem?_eq_some_iff.1 hn).1⟩, hn] at h4
    exact h4.symm

/-- **C128** (`get_point_data`) A call of `get_point_data` made while insertions are running, and other threads read the
index, does not panic, though it looks at the index four times; and it returns what it would return on the index as it
was at the moment of one of its own looks, as if it had been alone. -/
theorem C128_point_data (L : P.Lawful) {c0 : CSt T} (h : ReachC P cfg c0) (ext kp : Bool)
    {jobs : List (Job T)} (hl : ∀ j ∈ jobs, j.level < cfg.maxLayer) {us : List (Prog (CSt T) (Option (List T)))}
    (hro : ∀ u ∈ us, ReadOnly u) {i l : Nat} {r : Int} (hi : us[i]? = some (pointDataP l r)) (hr : 0 ≤ r)
    {m : GSys T (Option (List T))} (he : GSteps (accStart P (cfg.withFlags ext kp) c0 jobs us) m) :
    (∀ e, m.acc[i]? ≠ some (.fail e)) ∧
    ∀ a, m.acc[i]? = some (.ret a) →
      During i (fun s => getPointData s l r) (accStart P (cfg.withFlags ext kp) c0 jobs us) m a := by
  have := pointP_general L ((goodC_flags (e := ext) (k := kp)).2 (h.goodC L)) (Base.owned_none _) hl hro hi hr he
  simpa only [getPointData_map] using this

/-- **C128** (`get_point`) The same for `get_point`. -/
theorem C128_point (L : P.Lawful) {c0 : CSt T} (h : ReachC P cfg c0) (ext kp : Bool)
    {jobs : List (Job T)} (hl : ∀ j ∈ jobs, j.level < cfg.maxLayer) {us : List (Prog (CSt T) (Option (Ref T)))}
    (hro : ∀ u ∈ us, ReadOnly u) {i l : Nat} {r : Int} (hi : us[i]? = some (getPointP l r)) (hr : 0 ≤ r)
    {m : GSys T (Option (Ref T))} (he : GSteps (accStart P (cfg.withFlags ext kp) c0 jobs us) m) :
    (∀ e, m.acc[i]? ≠ some (.fail e)) ∧
    ∀ a, m.acc[i]? = some (.ret a) →
      During i (fun s => getPoint s l r) (accStart P (cfg.withFlags ext kp) c0 jobs us) m a := by
  have := pointP_general L ((goodC_flags (e := ext) (k := kp)).2 (h.goodC L)) (Base.owned_none _) hl hro hi hr he
  simpa only [Option.map_id, id] using this

/-- **C128** (negative rank) The answer is `None`, without looking. -/
theorem C128_negative {g : Ref T → α} {l : Nat} {r : Int} (hr : r < 0) : pointP g l r = .ret none := by
  unfold pointP
  rw [if_pos hr]

/-- **C128** (`get_layer_nb_point`) The same for the number of points of a layer, read in two looks. -/
theorem C128_layer_nb (L : P.Lawful) {c0 : CSt T} (h : ReachC P cfg c0) (ext kp : Bool)
    {jobs : List (Job T)} (hl : ∀ j ∈ jobs, j.level < cfg.maxLayer) {us : List (Prog (CSt T) Nat)}
    (hro : ∀ u ∈ us, ReadOnly u) {i l : Nat} (hi : us[i]? = some (layerNbP l))
    {m : GSys T Nat} (he : GSteps (accStart P (cfg.withFlags ext kp) c0 jobs us) m) :
    (∀ e, m.acc[i]? ≠ some (.fail e)) ∧
    ∀ a, m.acc[i]? = some (.ret a) →
      During i (fun s => (s.layer l).length) (accStart P (cfg.withFlags ext kp) c0 jobs us) m a := by
  have hg := (goodC_flags (e := ext) (k := kp)).2 (h.goodC L)
  have hlin := layerNbP_lin (cfg.withFlags ext kp).maxLayer l (fun _ => False) c0
  refine ⟨fun e hx => ?_, fun a ha => ?_⟩
  · obtain ⟨V, -, h2⟩ := lin_general L hg (Base.owned_none _) hl hro hi hlin he hx
    exact h2
  · obtain ⟨V, h1, h2⟩ := lin_general L hg (Base.owned_none _) hl hro hi hlin he ha
    have := h1 a h2
    simpa only [getLayerNb_eq] using this

/-- **C128** (what is found) If `get_point_data` returns a vector during insertions, it is the vector of the point of the
index that has the id asked for.  If the entry point was on the highest layer in use before the insertions (as after a
sequence of insertions, `C19_entry_top`), the vector of each point of that time is found. -/
theorem C128_found (L : P.Lawful) {c0 : CSt T} (h : ReachC P cfg c0) (ext kp : Bool)
    {jobs : List (Job T)} (hl : ∀ j ∈ jobs, j.level < cfg.maxLayer) {us : List (Prog (CSt T) (Option (List T)))}
    (hro : ∀ u ∈ us, ReadOnly u) {i l : Nat} {r : Int} (hi : us[i]? = some (pointDataP l r)) (hr : 0 ≤ r)
    {m : GSys T (Option (List T))} (he : GSteps (accStart P (cfg.withFlags ext kp) c0 jobs us) m) {a : Option (List T)}
    (ha : m.acc[i]? = some (.ret a)) :
    (∀ v, a = some v → ∃ p ∈ m.st.idx.points, p.pid = ⟨l, r.toNat⟩ ∧ p.data = v) ∧
    (TopEntry c0.idx → ∀ p ∈ c0.idx.points, p.pid = ⟨l, r.toNat⟩ → a = some p.data) := by
  have hg := (goodC_flags (e := ext) (k := kp)).2 (h.goodC L)
  obtain ⟨h1, h2⟩ := pointP_found L hg (Base.owned_none _) hl hro hi hr he ha
  refine ⟨h1, fun ht p hp hpid => ?_⟩
  obtain ⟨e, hee, -, htop⟩ := ht
  refine h2 p hp hpid e hee ?_
  have := htop p hp
  rw [hpid] at this
  exact this

/-- general form -/
theorem counters_general {B : Base T} (L : P.Lawful) {c0 : CSt T} (h : GoodCB B cfg c0) (hB : B.Owned c0.idx)
    {jobs : List (Job T)} (hl : ∀ j ∈ jobs, j.level < cfg.maxLayer) {us : List (Prog (CSt T) α)}
    (hro : ∀ u ∈ us, ReadOnly u) {m m' : GSys T α} (he : GSteps (accStart P cfg c0 jobs us) m) (he' : GSteps m m') :
    getNbPoint m.st.idx ≤ getNbPoint m'.st.idx ∧
    getMaxLevelObserved m.st.idx ≤ getMaxLevelObserved m'.st.idx ∧
    (∀ l, getLayerNbPoint m.st.idx l ≤ getLayerNbPoint m'.st.idx l) ∧
    ∀ l r p, getPoint m.st.idx l r = some p → getPoint m'.st.idx l r = some p := by
  have hG := GSteps.grown L h hB hl hro he he'
  obtain ⟨-, -, -, t1⟩ := GSteps.facts L h hB hl hro he
  obtain ⟨-, -, -, t2⟩ := GSteps.facts L h hB hl hro (he.trans he')
  refine ⟨hG.count, hG.level, fun l => ?_, fun l r p hp => ?_⟩
  · rw [getLayerNb_eq, getLayerNb_eq]
    exact hG.layer_len t1 t2 l
  · by_cases hr : r < 0
    · unfold getPoint at hp
      rw [if_pos hr] at hp
      cases hp
    · rw [getPoint_eq hr] at hp ⊢
      split at hp
      · rename_i hc
        have := hG.nth t1 t2 hp
        rw [if_pos ⟨Nat.le_trans hc.1 hG.level, (List.getElem?_eq_some_iff.1 this).1⟩, this]
      · cases hp

/-- **C128** (evolution) Between two moments of an execution, the number of points, the highest level observed and the
number of points of each layer do not decrease, and a point that `get_point` finds is found later under the same id. -/
theorem C128_counters (L : P.Lawful) {c0 : CSt T} (h : ReachC P cfg c0) (ext kp : Bool)
    {jobs : List (Job T)} (hl : ∀ j ∈ jobs, j.level < cfg.maxLayer) {us : List (Prog (CSt T) α)}
    (hro : ∀ u ∈ us, ReadOnly u) {m m' : GSys T α} (he : GSteps (accStart P (cfg.withFlags ext kp) c0 jobs us) m)
    (he' : GSteps m m') :
    getNbPoint m.st.idx ≤ getNbPoint m'.st.idx ∧
    getMaxLevelObserved m.st.idx ≤ getMaxLevelObserved m'.st.idx ∧
    (∀ l, getLayerNbPoint m.st.idx l ≤ getLayerNbPoint m'.st.idx l) ∧
    ∀ l r p, getPoint m.st.idx l r = some p → getPoint m'.st.idx l r = some p :=
  counters_general L ((goodC_flags (e := ext) (k := kp)).2 (h.goodC L)) (Base.owned_none _) hl hro he he'

/-! ## After a reload -/

section
variable {ty : Ty T} {defScale : Nat → F64} {dist0 : Dist T} {io0 : HnswIo} {fs0 : Dir} {x : Loaded T} {c0 : CSt T}
  {ext kp : Bool} {jobs : List (Job T)}

theorem accStart_layersOf {s : Idx T} {us : List (Prog (CSt T) α)} :
    accStart P (cfg.layersOf s) c0 jobs us = accStart P cfg c0 jobs us := by
  unfold accStart; rw [prog_layersOf]

/-- **C128** (reloaded index; partial: levels that the reloaded table has) The same when the insertions are made in an index
reloaded from any files: no panic, an answer of the index at the moment of one of the looks, the vector of the point with
the id asked for; and points that are not above the entry point the index had before the insertions are found. -/
theorem C128_resumed_partial (L : P.Lawful) (hx : LoadsOk P ty defScale dist0 io0 fs0 x)
    (hc : Resumed P x.hnsw c0) (hl : ∀ j ∈ jobs, j.level < x.hnsw.idx.layers.length)
    {us : List (Prog (CSt T) (Option (List T)))} (hro : ∀ u ∈ us, ReadOnly u) {i l : Nat} {r : Int}
    (hi : us[i]? = some (pointDataP l r)) (hr : 0 ≤ r) {m : GSys T (Option (List T))}
    (he : GSteps (accStart P (x.hnsw.cfg.withFlags ext kp) c0 jobs us) m) :
    (∀ e, m.acc[i]? ≠ some (.fail e)) ∧
    ∀ a, m.acc[i]? = some (.ret a) →
      During i (fun s => getPointData s l r) (accStart P (x.hnsw.cfg.withFlags ext kp) c0 jobs us) m a ∧
      (∀ v, a = some v → ∃ p ∈ m.st.idx.points, p.pid = ⟨l, r.toNat⟩ ∧ p.data = v) ∧
      ∃ e, c0.idx.entry = some e ∧
        ∀ p ∈ c0.idx.points, p.pid = ⟨l, r.toNat⟩ → l ≤ e.pid.layer → a = some p.data := by
  obtain ⟨hg, ho, -⟩ := hc.good L hx
  have hg' : GoodCB (Base.of x.hnsw.idx) ((x.hnsw.cfg.layersOf x.hnsw.idx).withFlags ext kp) c0 :=
    (goodC_flags (e := ext) (k := kp)).2 hg
  have hst : accStart P ((x.hnsw.cfg.layersOf x.hnsw.idx).withFlags ext kp) c0 jobs us =
      accStart P (x.hnsw.cfg.withFlags ext kp) c0 jobs us :=
    accStart_layersOf (cfg := x.hnsw.cfg.withFlags ext kp) (s := x.hnsw.idx)
  rw [← hst] at he
  have h1 := pointP_general L hg' ho hl hro hi hr he
  rw [hst] at h1
  refine ⟨h1.1, fun a ha => ⟨by simpa only [getPointData_map] using h1.2 a ha, ?_⟩⟩
  obtain ⟨h2, h3⟩ := pointP_found L hg' ho hl hro hi hr he ha
  obtain ⟨e, hee⟩ := Option.ne_none_iff_exists'.mp (hc.entry L hx)
  exact ⟨h2, e, hee, fun p hp hpid hle => h3 p hp hpid e hee hle⟩

end

/-! ## Concrete executions -/

/-- run a schedule: `.inl i` is the insertion `i`, `.inr i` the accessor thread `i` -/
def runAcc : List (Nat ⊕ Nat) → GSys T α → Option (GSys T α)
  | [], m => some m
  | .inl i :: is, m =>
    match runSched [i] (m.st, m.ins) with
    | some (s, ts) => runAcc is ⟨s, ts, m.acc⟩
    | none => none
  | .inr i :: is, m =>
    match m.acc[i]? with
    | some (.act g u k) => if g m.st = true then runAcc is ⟨u m.st, m.ins, m.acc.set i (k m.st)⟩ else none
    | _ => none

theorem runAcc_steps : ∀ (is : List (Nat ⊕ Nat)) (m m' : GSys T α), runAcc is m = some m' → GSteps m m' := by
  intro is
  induction is with
  | nil => intro m m' h; cases h; exact .refl _
  | cons x is ih =>
    intro m m' h
    cases x with
    | inl i =>
      simp only [runAcc] at h
      split at h
      · rename_i s ts hr
        exact (GSteps.step (.refl _) (.ins (runSched_one hr))).trans (ih _ _ h)
      · cases h
    | inr i =>
      simp only [runAcc] at h
      split at h
      · rename_i g u k ha
        split at h
        · rename_i hg
          exact (GSteps.step (.refl _) (.acc i ⟨g, u, k, ha, hg, rfl⟩)).trans (ih _ _ h)
        · cases h
      · cases h

/-- three calls made during the insertion of a point of level 1, id ⟨1, 1⟩ -/
def accCalls : List (Prog (CSt Nat) (Option (List Nat))) := [pointDataP 1 1, pointDataP 1 1, pointDataP 1 0]

/-- the index before: a point on layer 0, one on layer 1 -/
def accBefore : CSt Nat := exSt (exCfg 3) [(10, 0), (20, 1)]

/-- the results of the calls -/
def accGot (m : GSys Nat (Option (List Nat))) : List (Option (Option (List Nat))) :=
  m.acc.map fun | .ret a => some a | _ => none

/-- the first call counts the points of the layer before the new point is there and gives `None`; the second one, which
looked at the entry point before that, counts after and gives its vector; the third one finds the old point -/
example : ∃ m, GSteps (accStart (listPolicy Nat) (exCfg 3) accBefore [⟨[30], 30, 1⟩] accCalls) m ∧
    (∀ u ∈ accCalls, ReadOnly u) ∧ ReachC (listPolicy Nat) (exCfg 3) accBefore ∧
    accGot m = [some none, some (some [30]), some (some [20])] := by
  have h : (runAcc [.inr 1, .inr 0, .inr 0, .inr 0, .inr 2, .inr 1, .inl 0, .inr 1, .inr 2, .inr 2, .inl 0, .inr 1, .inr 2]
      (accStart (listPolicy Nat) (exCfg 3) accBefore [⟨[30], 30, 1⟩] accCalls)).any
      (fun m => accGot m == [some none, some (some [30]), some (some [20])]) = true := by decide +kernel
  rw [Option.any_eq_true] at h
  obtain ⟨m, hm, hq⟩ := h
  refine ⟨m, runAcc_steps _ _ _ hm, ?_, exSt_reach _ _ (by decide), beq_iff_eq.1 hq⟩
  intro u hu
  simp only [accCalls, List.mem_cons, List.not_mem_nil, or_false] at hu
  rcases hu with rfl | rfl | rfl <;> exact pointP_ro _ _ _

/-- the hypotheses of C128 for the reloaded file with a wrong link -/
example : ∃ x m, LoadsOk (listPolicy UInt8) u8Ty exScale u8Dist (HnswIo.new "a" .default) (damaged 137 0) x ∧
    NumLinks x.hnsw.idx ∧ (∀ j ∈ [dmJob], j.level < x.hnsw.idx.layers.length) ∧
    GSteps (accStart (listPolicy UInt8) (x.hnsw.cfg.withFlags true false) (CSt.ofIdx x.hnsw.idx) [dmJob]
      [pointDataP 0 2, pointDataP 0 0]) m ∧
    m.acc.map (fun | .ret a => some a.isSome | _ => none) = [some true, some true] := by
  obtain ⟨x, hx⟩ : ∃ x, selfIdx = some x := Option.isSome_iff_exists.1 (by decide +kernel)
  have hL : LoadsOk (listPolicy UInt8) u8Ty exScale u8Dist (HnswIo.new "a" .default) (damaged 137 0) x :=
    loadsOk_toOption hx
  have hk : selfIdx.all (fun x => dmTest x &&
      (runAcc [.inr 0, .inl 0, .inr 0, .inr 0, .inr 0, .inr 1, .inr 1, .inr 1, .inr 1]
        (⟨CSt.ofIdx x.hnsw.idx, dmProgs x, [pointDataP 0 2, pointDataP 0 0]⟩ : GSys UInt8 (Option (List UInt8)))).any fun m =>
          m.acc.map (fun | .ret a => some a.isSome | _ => none) == [some true, some true]) = true := by
    decide +kernel
  rw [hx] at hk
  simp only [Option.all_some, Bool.and_eq_true, beq_iff_eq, dmTest] at hk
  obtain ⟨⟨⟨⟨h1, h2⟩, -⟩, -⟩, h3⟩ := hk
  rw [Option.any_eq_true] at h3
  obtain ⟨m, hm, h3⟩ := h3
  exact ⟨x, m, hL, hL.num listPolicy_lawful h1, by rw [h2]; decide, runAcc_steps _ _ _ hm, beq_iff_eq.1 h3⟩

end Verif
