import Verif.FlatConc
import Verif.DumpConcLemmas
import Verif.Props.Flat
import Verif.Props.Linked

set_option autoImplicit false

/-!
# C126: insertions of level 0 in parallel, no list being full in the end
-/

namespace Verif
variable {T : Type} {P : Policy T} {cfg : Cfg T}

theorem reaches_back {s : Idx T} (hn : Navig s) (hB : BothWays s) {a b : Ref T} (ha : a ∈ s.points)
    (h : Reaches (links s 0) a b) : Reaches (links s 0) b a := by
  induction h with
  | refl => exact .refl
  | @step b e hr he ih =>
    have hb := hr.stored hn ha
    have hes := (Reaches.step hr he).stored hn ha
    obtain ⟨e', he', hp⟩ := hB b hb e.pt hes ⟨e, he, rfl⟩
    have h1 : Reaches (links s 0) e.pt e'.pt := .step .refl he'
    rw [hp] at h1
    exact h1.trans ih

theorem flat_batch (L : P.Lawful) {c0 c : CSt T} (hG : GoodC cfg c0) (hne : c0.idx.points ≠ [])
    {jobs : List (Job T)} (hl : ∀ j ∈ jobs, j.level = 0) {ts : List (Prog (CSt T) Unit)}
    (he : Exec P cfg c0 jobs c ts) (hf : ∀ t ∈ ts, t = .ret ()) (hN : NoneFull cfg c.idx)
    (hB : BothWays c0.idx) (hC : Connected c0.idx) : BothWays c.idx ∧ Connected c.idx := by
  obtain ⟨e0, he0⟩ := List.exists_mem_of_ne_nil _ hne
  have hml : 0 < cfg.maxLayer := by
    rw [← hG.inv.ok.tab.len]
    refine Nat.pos_of_ne_zero fun h0 => ?_
    have hp := he0
    unfold Idx.points at hp
    rw [List.length_eq_zero_iff.1 h0] at hp
    cases hp
  have hl' : ∀ j ∈ jobs, j.level < cfg.maxLayer := fun j hj => by rw [hl j hj]; exact hml
  have hi := sysInv_init (P := P) hG.inv hG.held hl' (fun j hj => ⟨j, hj, rfl⟩) (D := fun _ => True) (by simp)
    (by simp) (N := c0.idx.points.length + jobs.length) (fuel := c0.idx.points.length + jobs.length + 2)
    (W := fun l => ∃ j ∈ jobs, j.level = l) (Nat.le_refl _)
  have hGc := Exec.goodC L hG hl' he (fun t ht => by rw [hf t ht]; trivial)
  have hok := hGc.inv.ok
  have hnn : ∀ p, (c.idx.nb p 0).length < 2 * cfg.maxNb := by
    intro p
    by_cases h0 : c.idx.nb p 0 = []
    · have : 0 < 2 * cfg.maxNb := by
        have := hN e0 (Exec.stored_mono L hG hl' he e0 he0)
        omega
      rw [h0]
      exact this
    · obtain ⟨o, ho, rfl⟩ := hok.owner p 0 h0
      exact hN o ho
  have hsub : ∀ p, ∀ e ∈ c0.idx.nb p 0, e ∈ c.idx.nb p 0 := by
    intro p e hp
    have himp := (steps_improves L (Nat.le_succ _) (Base.owned_none _) he hi p 0).resolve_left id
    refine Classical.byContradiction fun hx => ?_
    have h3 := (himp.lost e hp hx).1
    simp only [degreeBound, if_true] at h3
    have := hnn p
    omega
  have hmono : ∀ {a b : Ref T}, Reaches (links c0.idx 0) a b → Reaches (links c.idx 0) a b := by
    intro a b h
    induction h with
    | refl => exact .refl
    | step _ he ih => exact .step ih (hsub _ _ he)
  obtain ⟨ph, hS, hw, hF⟩ := flatInv_steps (e0 := e0) L (Nat.le_succ _) (hG.entry hne)
    (by rw [hG.count]; exact fun h => hne (List.length_eq_zero_iff.1 h)) hl hnn he (.refl _) hi
    ⟨by
      intro i a t r ha _ hr
      have := List.mem_of_getElem? ha
      simp only [List.mem_map] at this
      obtain ⟨j, -, rfl⟩ := this
      exact (nomatch hr), .refl _⟩
    ⟨by
      intro a e hae
      obtain ⟨o, ho, rfl⟩ := hG.inv.ok.owner a 0 (List.ne_nil_of_mem hae)
      obtain ⟨e', h1, h2⟩ := hB o ho e.pt (hG.inv.ok.stored _ _ e hae) ⟨e, hae, rfl⟩
      exact Or.inl ⟨e', hsub _ _ h1, by rw [h2]⟩, by
      intro i b r t ha _ hr
      have := List.mem_of_getElem? ha
      simp only [List.mem_map] at this
      obtain ⟨j, -, rfl⟩ := this
      exact (nomatch hr), by
      intro q hq
      obtain ⟨o, ho, rfl⟩ := hG.inv.pubStored q hq
      exact ⟨o, rfl, hmono (hC e0 he0 o ho)⟩⟩
  simp only at hS hw hF
  have hback : ∀ a, ∀ e ∈ c.idx.nb a 0, Back c.idx a e := by
    intro a e hae
    rcases hF.link a e hae with h1 | ⟨i, b, r, t, -, h2, -, rfl, h3⟩
    · exact h1
    · rw [hf t (List.mem_of_getElem? h2)] at h3
      exact h3
  have hBc : BothWays c.idx := by
    rintro a ha b hb ⟨e, hae, rfl⟩
    obtain ⟨e', h1, h2⟩ := hback _ e hae
    exact ⟨e', h1, points_pid_inj hok (hok.stored _ _ e' h1) ha h2⟩
  have he0c : e0 ∈ c.idx.points := Exec.stored_mono L hG hl' he e0 he0
  have hj : ∀ b ∈ c.idx.points, Joined c.idx e0 b.pid := by
    intro b hb
    by_cases hb0 : b ∈ c0.idx.points
    · exact ⟨b, rfl, hmono (hC e0 he0 b hb0)⟩
    · obtain ⟨hlen, refs, hrl, href, hperm, -⟩ := Exec.finished L hG hl' he (fun t ht => by rw [hf t ht]; trivial)
      have hlay : b.pid.layer = 0 := by
        have := (List.mem_append.1 (hperm.mem_iff.1 hb)).resolve_left hb0
        obtain ⟨i, hi⟩ := List.getElem?_of_mem this
        have hij : i < jobs.length := by rw [← hrl]; exact (List.getElem?_eq_some_iff.1 hi).1
        have := (href i _ b (List.getElem?_eq_getElem hij) hi).2.2
        rw [this]
        exact hl _ (List.getElem_mem hij)
      obtain ⟨refs', hlen', hperm', hall⟩ := Exec.linkedB L (by have := hnn ⟨0, 0⟩; omega) hG (Base.owned_none _)
        (hG.entry hne) (by rw [hG.count]; exact fun h => hne (List.length_eq_zero_iff.1 h)) hl' he
      have hnb := linked_points hlen hf hlen' hperm' hall b hb hb0 _ (Nat.le_refl _) (Or.inr rfl)
      rw [hlay] at hnb
      obtain ⟨e, hbe⟩ := List.exists_mem_of_ne_nil _ hnb
      obtain ⟨e', h1, h2⟩ := hback _ e hbe
      rw [← h2]
      exact (hF.pub _ (hGc.inv.pubLink _ _ e hbe)).step h1
  have hto : ∀ b ∈ c.idx.points, Reaches (links c.idx 0) e0 b := by
    intro b hb
    obtain ⟨v, hv, hr⟩ := hj b hb
    rw [← points_pid_inj hok (hr.stored hGc.good.nav he0c) hb hv]
    exact hr
  exact ⟨hBc, fun a ha b hb => (reaches_back hGc.good.nav hBc he0c (hto a ha)).trans (hto b hb)⟩

/-- **C126** Insertions of level 0 made in parallel, under any schedule, in an index that has points, whose links of
layer 0 go both ways and lead from every point to every other one.  If all the threads have returned and no list of
layer 0 has reached its bound, then links go both ways and every point can be reached from every other one. -/
theorem C126_batch (L : P.Lawful) {c0 c : CSt T} (h : ReachC P cfg c0) (hne : c0.idx.points ≠ []) (ext kp : Bool)
    {jobs : List (Job T)} (hl : ∀ j ∈ jobs, j.level = 0) {ts : List (Prog (CSt T) Unit)}
    (he : Exec P (cfg.withFlags ext kp) c0 jobs c ts) (hf : ∀ t ∈ ts, t = .ret ())
    (hN : ∀ p ∈ c.idx.points, (c.idx.nb p.pid 0).length < 2 * cfg.maxNb)
    (hB : ∀ a ∈ c0.idx.points, ∀ b ∈ c0.idx.points,
      (∃ e ∈ c0.idx.nb a.pid 0, e.pt = b) → ∃ e ∈ c0.idx.nb b.pid 0, e.pt = a)
    (hC : ∀ a ∈ c0.idx.points, ∀ b ∈ c0.idx.points, Reaches (links c0.idx 0) a b) :
    (∀ a ∈ c.idx.points, ∀ b ∈ c.idx.points,
      (∃ e ∈ c.idx.nb a.pid 0, e.pt = b) ↔ ∃ e ∈ c.idx.nb b.pid 0, e.pt = a) ∧
    ∀ a ∈ c.idx.points, ∀ b ∈ c.idx.points, Reaches (links c.idx 0) a b := by
  obtain ⟨h1, h2⟩ := flat_batch (cfg := cfg.withFlags ext kp) L (goodC_flags.2 (h.goodC L)) hne hl he hf hN hB hC
  exact ⟨fun a ha b hb => ⟨h1 a ha b hb, h1 b hb a ha⟩, h2⟩

/-- What an index may become by insertions of level 0, one by one or in parallel, none of which panics, and by dumps
followed by a reload. -/
inductive GrownFlat (P : Policy T) (cfg : Cfg T) (c0 : CSt T) : CSt T → Prop
  | now : GrownFlat P cfg c0 c0
  | batch {c c' : CSt T} (ext kp : Bool) (jobs : List (Job T)) {ts : List (Prog (CSt T) Unit)} :
      GrownFlat P cfg c0 c → (∀ j ∈ jobs, j.level = 0) → Exec P (cfg.withFlags ext kp) c jobs c' ts →
      (∀ t ∈ ts, t = .ret ()) → GrownFlat P cfg c0 c'
  | reload {c : CSt T} : GrownFlat P cfg c0 c → GrownFlat P cfg c0 { c with idx := c.idx.resort P }

theorem GrownFlat.later {c0 c : CSt T} (h : GrownFlat P cfg c0 c) (hm : 0 < cfg.maxLayer) : Later P cfg c0 c := by
  induction h with
  | now => exact .now
  | batch ext kp jobs _ hl he hf ih =>
    exact .batch ext kp jobs ih (fun j hj => by rw [hl j hj]; exact hm) he (fun t ht => by rw [hf t ht]; trivial)
  | reload _ ih => exact .reload ih

theorem GrownFlat.oneLayer (L : P.Lawful) {c0 c : CSt T} (h0 : ReachC P cfg c0) (h : GrownFlat P cfg c0 c)
    (hm : 0 < cfg.maxLayer) (h1 : OneLayer c0.idx) : OneLayer c.idx := by
  induction h with
  | now => exact h1
  | batch ext kp jobs hg hl he hf ih =>
    obtain ⟨-, refs, hrl, href, hperm, -⟩ := Exec.finished (cfg := cfg.withFlags ext kp) L
      (goodC_flags.2 (((hg.later hm).reachC h0).goodC L)) (fun j hj => by rw [hl j hj]; exact hm) he
      (fun t ht => by rw [hf t ht]; trivial)
    intro p hp
    rcases List.mem_append.1 (hperm.mem_iff.1 hp) with hp | hp
    · exact ih p hp
    · obtain ⟨i, hi⟩ := List.getElem?_of_mem hp
      have hij : i < jobs.length := by rw [← hrl]; exact (List.getElem?_eq_some_iff.1 hi).1
      rw [(href i _ p (List.getElem?_eq_getElem hij) hi).2.2]
      exact hl _ (List.getElem_mem hij)
  | reload _ ih => exact ih

theorem resort_bothWays (L : P.Lawful) {s : Idx T} (h : BothWays s) : BothWays (s.resort P) := by
  rintro a ha b hb ⟨e, he, hp⟩
  obtain ⟨e', he', hp'⟩ := h a ha b hb ⟨e, (L.sort_perm _).mem_iff.1 he, hp⟩
  exact ⟨e', (L.sort_perm _).mem_iff.2 he', hp'⟩

theorem resort_connected (L : P.Lawful) {s : Idx T} (h : Connected s) : Connected (s.resort P) := by
  intro a ha b hb
  have := h a ha b hb
  clear hb
  induction this with
  | refl => exact .refl
  | step _ he ih => exact .step ih ((L.sort_perm _).mem_iff.2 he)

/-- **C126** The same over the life of the index. -/
theorem C126_history (L : P.Lawful) {c0 c : CSt T} (h0 : ReachC P cfg c0) (hne : c0.idx.points ≠ [])
    (hm : 0 < cfg.maxLayer) (h : GrownFlat P cfg c0 c)
    (hN : ∀ p ∈ c.idx.points, (c.idx.nb p.pid 0).length < 2 * cfg.maxNb)
    (hB : ∀ a ∈ c0.idx.points, ∀ b ∈ c0.idx.points,
      (∃ e ∈ c0.idx.nb a.pid 0, e.pt = b) → ∃ e ∈ c0.idx.nb b.pid 0, e.pt = a)
    (hC : ∀ a ∈ c0.idx.points, ∀ b ∈ c0.idx.points, Reaches (links c0.idx 0) a b) :
    (∀ a ∈ c.idx.points, ∀ b ∈ c.idx.points,
      (∃ e ∈ c.idx.nb a.pid 0, e.pt = b) ↔ ∃ e ∈ c.idx.nb b.pid 0, e.pt = a) ∧
    ∀ a ∈ c.idx.points, ∀ b ∈ c.idx.points, Reaches (links c.idx 0) a b := by
  have key : NoneFull cfg c.idx → BothWays c.idx ∧ Connected c.idx := by
    clear hN
    induction h with
    | now => exact fun _ => ⟨hB, hC⟩
    | @batch c1 c ext kp jobs ts hg hl he hf ih =>
      intro hN
      have hr1 := (hg.later hm).reachC h0
      have hG1 : GoodC (cfg.withFlags ext kp) c1 := goodC_flags.2 (hr1.goodC L)
      have hl' : ∀ j ∈ jobs, j.level < cfg.maxLayer := fun j hj => by rw [hl j hj]; exact hm
      have hne1 : c1.idx.points ≠ [] := by
        obtain ⟨o, ho⟩ := List.exists_mem_of_ne_nil _ hne
        exact List.ne_nil_of_mem ((hg.later hm).stored L h0 o ho)
      obtain ⟨h1, h2⟩ := ih fun p hp => by
        have h3 := (C110_lists L hr1 ext kp hl' (.refl _) he p.pid 0).len
        have h4 := hN p (Exec.stored_mono (cfg := cfg.withFlags ext kp) L hG1 hl' he p hp)
        omega
      exact flat_batch (cfg := cfg.withFlags ext kp) L hG1 hne1 hl he hf hN h1 h2
    | @reload c1 _ ih =>
      intro hN
      obtain ⟨h1, h2⟩ := ih fun p hp => by
        rw [← (L.sort_perm (c1.idx.nb p.pid 0)).length_eq]
        exact hN p hp
      exact ⟨resort_bothWays L h1, resort_connected L h2⟩
  obtain ⟨h1, h2⟩ := key hN
  exact ⟨fun a ha b hb => ⟨h1 a ha b hb, h1 b hb a ha⟩, h2⟩

/-- **C126** (consequence) An index whose first point was inserted alone and all whose points have level 0, inserted
one by one or in parallel: if no list is full, links go both ways; a search returns as many answers as asked for, or
all points; with `ef` or `knbn` at least the number of points it returns the nearest ones of the whole index. -/
theorem C126_search (L : P.Lawful) (hm : 0 < cfg.maxLayer) (x : List T × DataId) {c0 c : CSt T}
    (hc0 : insert P cfg (CSt.new cfg.maxLayer) x 0 = .ok () c0) (h : GrownFlat P cfg c0 c)
    (hN : ∀ p ∈ c.idx.points, (c.idx.nb p.pid 0).length < 2 * cfg.maxNb) (q : List T)
    (hq : ∀ v ∈ c.idx.points, (cfg.eval q v.data).Legal) (knbn ef : Nat) :
    (∀ a ∈ c.idx.points, ∀ b ∈ c.idx.points,
      (∃ e ∈ c.idx.nb a.pid 0, e.pt = b) ↔ ∃ e ∈ c.idx.nb b.pid 0, e.pt = a) ∧
    ∃ ns, search P cfg c.idx q knbn ef = .ok ns ∧ ns.length = min knbn c.idx.points.length ∧
      (c.idx.points.length ≤ max ef knbn → IsKNearest cfg.eval q knbn (· ∈ c.idx.points) ns) := by
  have hr0 : ReachC P cfg c0 := by
    have := (ReachC.new (P := P) (cfg := cfg)).insert L cfg.extend cfg.keepPruned (j := ⟨x.1, x.2, 0⟩) hm
    have hcfg : cfg.withFlags cfg.extend cfg.keepPruned = cfg := rfl
    simp only [hcfg] at this
    rw [hc0] at this
    exact this
  obtain ⟨p, -, hp2, -, hp4⟩ := one_layer_insert L .new hm x hc0
  have h0 : (CSt.new (T := T) cfg.maxLayer).idx.points = [] := by
    simp [CSt.new, Idx.new, Idx.points]
  have hall : ∀ v, v ∈ c0.idx.points → v = p := by
    intro v hv
    rcases (hp4 v).1 hv with hv | hv
    · rw [h0] at hv; cases hv
    · exact hv
  have hne : c0.idx.points ≠ [] := List.ne_nil_of_mem ((hp4 p).2 (Or.inr rfl))
  obtain ⟨h1, h2⟩ := C126_history L hr0 hne hm h hN (by
    intro a ha b hb hab
    rw [hall a ha, hall b hb] at *
    exact hab) (by
    intro a ha b hb
    rw [hall a ha, hall b hb]
    exact .refl)
  have hne' : c.idx.points ≠ [] := by
    obtain ⟨o, ho⟩ := List.exists_mem_of_ne_nil _ hne
    exact List.ne_nil_of_mem ((h.later hm).stored L hr0 o ho)
  exact ⟨h1, flat_search L ((h.later hm).reachC hr0) hne'
    (h.oneLayer L hr0 hm fun v hv => by rw [hall v hv]; exact hp2) h2 q hq knbn ef⟩

/-- start of the example: 10, inserted alone -/
def flatStart : CSt Nat := exSt (exCfg 3) [(10, 0)]

/-- three insertions of level 0 at the same time -/
def flatJobs : List (Job Nat) := [⟨[20], 20, 0⟩, ⟨[21], 21, 0⟩, ⟨[14], 14, 0⟩]

/-- their actions in turn: not all the points get linked to each other -/
def flatSched : List Nat :=
  (List.replicate 5 [0, 0, 1, 2, 2]).flatten ++ List.replicate 9 1

/-- the state reached: all the threads have returned, the lists hold at most three links of the six allowed -/
theorem flat_example : exHolds flatStart flatJobs flatSched (fun c ts =>
    ts.all isRet && c.idx.points.all (fun p => (c.idx.nb p.pid 0).length < 6) &&
      c.idx.points.map (fun p => (p.data, (c.idx.nb p.pid 0).map (·.pt.data))) ==
        [([10], [[14], [20], [21]]), ([20], [[21], [10]]), ([21], [[20], [14], [10]]), ([14], [[10], [21]])]) =
    true := by
  decide +kernel

/-- the hypotheses of C126: the threads above -/
example : insert (listPolicy Nat) (exCfg 3) (CSt.new 16) (item 10) 0 = .ok () flatStart ∧
    (∃ c, GrownFlat (listPolicy Nat) (exCfg 3) flatStart c ∧ c.idx.points.length = 4 ∧
      ∀ p ∈ c.idx.points, (c.idx.nb p.pid 0).length < 2 * (exCfg 3).maxNb) ∧
    ∀ a b : List Nat, ((exCfg 3).eval a b).Legal := by
  refine ⟨rfl, ?_, absDist_legal⟩
  obtain ⟨c, ts, he, hp⟩ := exHolds_exec flat_example
  simp only [Bool.and_eq_true] at hp
  obtain ⟨⟨h1, h2⟩, h3⟩ := hp
  refine ⟨c, .batch false false flatJobs .now (by decide) he (isRet_finished h1), ?_, fun p hp => ?_⟩
  · have := congrArg List.length (beq_iff_eq.1 h3)
    simpa using this
  · exact of_decide_eq_true (List.all_eq_true.1 h2 p hp)

/-- **C126** the level of the new points matters: 20 inserted at level 1 after 10 at level 0. In layer 0 the new
point has a link that does not lead back, and nobody leads to it. -/
theorem C126_level_refuted : ∃ c, insertAll (listPolicy Nat) (exCfg 3) (CSt.new 16)
      [(item 10, 0), (item 20, 1)] = some c ∧
    (∀ p ∈ c.idx.points, (c.idx.nb p.pid 0).length < 6) ∧
    ∃ a ∈ c.idx.points, c.idx.nb a.pid 0 ≠ [] ∧ ∀ o ∈ c.idx.points, ∀ e ∈ c.idx.nb o.pid 0, e.pt ≠ a := by
  refine ⟨_, rfl, ?_, ?_⟩ <;> decide +kernel

/-- **C126** the first insertion has to be made alone: two insertions in an empty index at the same time leave two
points that no link joins. -/
theorem C126_first_refuted : ∃ c ts, Exec (listPolicy Nat) (exCfg 3) (CSt.new 16) [⟨[20], 20, 0⟩, ⟨[21], 21, 0⟩] c ts ∧
    (∀ t ∈ ts, t = .ret ()) ∧ (∀ p ∈ c.idx.points, (c.idx.nb p.pid 0).length < 6) ∧
    ∃ a ∈ c.idx.points, ∃ b ∈ c.idx.points, a ≠ b ∧ ¬ Reaches (links c.idx 0) a b := by
  obtain ⟨c, ts, he, hp⟩ := exHolds_exec (c0 := CSt.new 16) (jobs := [⟨[20], 20, 0⟩, ⟨[21], 21, 0⟩])
    (sched := [0, 0, 1, 1, 1, 1, 0])
    (p := fun c ts => ts.all isRet && c.idx.points.all (fun p => (c.idx.nb p.pid 0).isEmpty) &&
      c.idx.points.map (·.origin) == [20, 21])
    (by decide +kernel)
  simp only [Bool.and_eq_true] at hp
  obtain ⟨⟨h1, h2⟩, h3⟩ := hp
  have hnil : ∀ p ∈ c.idx.points, c.idx.nb p.pid 0 = [] := fun p hp =>
    List.isEmpty_iff.1 (List.all_eq_true.1 h2 p hp)
  have h3 := beq_iff_eq.1 h3
  refine ⟨c, ts, he, isRet_finished h1, fun p hp => by rw [hnil p hp]; decide, ?_⟩
  obtain ⟨a, b, hps⟩ : ∃ a b, c.idx.points = [a, b] := by
    have hlen := congrArg List.length h3
    rw [List.length_map] at hlen
    obtain ⟨a, l, hl⟩ := List.exists_cons_of_length_eq_add_one hlen
    rw [hl] at hlen
    obtain ⟨b, rfl⟩ := List.length_eq_one_iff.1 (Nat.succ.inj hlen)
    exact ⟨a, b, hl⟩
  · rw [hps] at h3 ⊢
    have ha : a.origin = 20 := by simpa using congrArg List.head? h3
    have hb : b.origin = 21 := by simpa using congrArg List.getLast? h3
    have hab : a ≠ b := fun h => by rw [h, hb] at ha; exact absurd ha (by decide)
    refine ⟨a, by simp, b, by simp, hab, fun hr => ?_⟩
    have : ∀ v, Reaches (links c.idx 0) a v → v = a := by
      intro v hv
      induction hv with
      | refl => rfl
      | step _ he ih =>
        rw [ih] at he
        have := hnil a (by rw [hps]; simp)
        unfold links at he
        rw [this] at he
        cases he
    exact hab (this b hr).symm

end Verif
