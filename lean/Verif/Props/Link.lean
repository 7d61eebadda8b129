import Verif.InsertSpec
import Verif.Props.Insert

set_option autoImplicit false

/-!
# What one insertion does to the graph (C69 - C71)

`c0` is any state without running insertion, `insert … = .ok () c`: one call of `insert` that
returned, with any flags.  `ep` is the entry point before the call, `newRef … c0.idx` the new point.  The
distances from the new vector to the stored ones are legal.
-/

namespace Verif
variable {T : Type} {P : Policy T} {cfg : Cfg T}

/-- **C69** The links of a new point, layer by layer: `piv (l + 1)` is the point from which layer `l` is
searched.  Above the level of the new point the search has width 1; at and below it the list of the new
point is selected (C24, C25) among the points found by a search of width `ef_construction`, which starts
at the nearest point selected in the layer above. -/
theorem C69_own_links (L : P.Lawful) {c0 c : CSt T} (h : ReachC P cfg c0) (ext kp : Bool) (j : Job T)
    (hl : j.level < cfg.maxLayer) (ep : Ref T) (hep : c0.idx.entry = some ep)
    (hL : LegalOn cfg.eval c0.idx j.data)
    (hins : insert P (cfg.withFlags ext kp) c0 (j.data, j.id) j.level = .ok () c) :
    ∃ p, p.data = j.data ∧ p.origin = j.id ∧ c.idx.layer j.level = c0.idx.layer j.level ++ [p] ∧
    ∃ piv : Nat → Ref T, piv (max j.level ep.pid.layer + 1) = ep ∧
      (∀ l, j.level < l → l ≤ ep.pid.layer →
        UpperStep cfg c0.idx p l (piv (l + 1)) (piv l) (c.idx.nb p.pid l)) ∧
      (∀ l, l ≤ j.level →
        LowerStep (cfg.withFlags ext kp) c0.idx p l (piv (l + 1)) (piv l) (c.idx.nb p.pid l)) ∧
      ∀ l, j.level < l → ep.pid.layer < l → c.idx.nb p.pid l = [] := by
  have hG : GoodC (cfg.withFlags ext kp) c0 := goodC_flags.2 (h.goodC L)
  obtain ⟨h1, -, -, h4⟩ := insert_links L hG (item := (j.data, j.id)) hl hep hL hins
  refine ⟨newRef (j.data, j.id) j.level c0.idx, rfl, rfl, ?_, h1⟩
  have := layer_addPoint (j.data, j.id) j.level c0.idx (by rw [hG.inv.ok.tab.len]; exact hl) j.level
  rw [if_pos rfl] at this
  rw [← this]
  unfold Idx.layer
  rw [h4]

/-- the pivots come nearer and nearer -/
theorem pivots_decrease {s : Idx T} {p ep : Ref T} {level : Nat} {piv : Nat → Ref T}
    {own : Nat → List (PWO T)} {e k : Bool} (h1 : piv (max level ep.pid.layer + 1) = ep)
    (h2 : ∀ l, level < l → l ≤ ep.pid.layer → UpperStep cfg s p l (piv (l + 1)) (piv l) (own l))
    (h3 : ∀ l, l ≤ level → LowerStep (cfg.withFlags e k) s p l (piv (l + 1)) (piv l) (own l))
    (hd : ∀ l, l ≤ level → ∀ a, (cfg.eval p.data (piv (l + 1)).data).key ≤ a → ∀ n rest,
      own l = n :: rest → n.dist.key ≤ a ∧ n.dist = cfg.eval p.data n.pt.data) :
    ∀ n l, l + n = max level ep.pid.layer + 1 →
      (cfg.eval p.data (piv l).data).key ≤ (cfg.eval p.data ep.data).key := by
  intro n
  induction n with
  | zero => intro l hl; rw [show l = max level ep.pid.layer + 1 by omega, h1]; exact Int.le_refl _
  | succ n ih =>
    intro l hl
    have h4 := ih (l + 1) (by omega)
    by_cases hlv : l ≤ level
    · rcases h3 l hlv with ⟨-, -, h5, -⟩ | ⟨-, F, v, -, -, -, -, h5⟩
      · rw [h5]; exact h4
      · rcases h5 with ⟨-, h5⟩ | ⟨m, rest, h5, h6⟩
        · rw [h5]; exact h4
        · obtain ⟨h7, h8⟩ := hd l hlv _ h4 m rest h5
          rw [h6, ← h8]; exact h7
    · rcases h2 l (by omega) (by omega) with ⟨-, h5, -⟩ | ⟨-, m, hB, -, h5⟩
      · rw [h5]; exact h4
      · rcases h5 with ⟨h5, h6⟩ | ⟨-, h6⟩
        · rw [h6, ← hB.dist m (by simp)]; omega
        · rw [h6]; exact h4

/-- the nearest found point is selected -/
theorem selected_first {s : Idx T} {p : Ref T} {l asked : Nat} {ext kp : Bool} {F v own : List (PWO T)}
    (h : Selected cfg s p l asked ext kp F v) (ha : 0 < asked) (hF : F ≠ []) (hp : own.Perm v)
    (hs : own.Pairwise (fun a b => a.dist.key ≤ b.dist.key)) :
    ∃ n rest, own = n :: rest ∧ ∀ x ∈ F, n.dist.key ≤ x.dist.key := by
  obtain ⟨pool, ⟨extras, e1, -⟩, hv⟩ := h
  have hFp : ∀ x ∈ F, x ∈ pool := fun x hx => e1.mem_iff.2 (List.mem_append_left _ hx)
  have hne : pool ≠ [] := by
    intro h
    obtain ⟨x, hx⟩ := List.exists_mem_of_ne_nil F hF
    have := hFp x hx
    rw [h] at this; cases this
  have key : ∃ y ∈ v, ∀ x ∈ pool, y.dist.key ≤ x.dist.key := by
    rcases hv with ⟨-, -, h1⟩ | ⟨-, -, h1⟩ | ⟨-, -, v0, w, rfl, h1, -⟩
    · have hvs : own.Perm pool := hp.trans h1
      cases ho : own with
      | nil => rw [ho] at hvs; exact absurd hvs.nil_eq.symm hne
      | cons n rest =>
        refine ⟨n, hp.mem_iff.1 (by rw [ho]; simp), ?_⟩
        intro x hx
        have := hvs.mem_iff.2 hx
        rw [ho] at this hs
        rcases List.mem_cons.1 this with rfl | h
        · exact Int.le_refl _
        · exact (List.pairwise_cons.1 hs).1 x h
    · obtain ⟨y, hy, h2⟩ := h1.first ha hne
      exact ⟨y, List.mem_of_mem_head? hy, h2⟩
    · obtain ⟨y, hy, h2⟩ := h1.first ha hne
      exact ⟨y, List.mem_append_left _ (List.mem_of_mem_head? hy), h2⟩
  obtain ⟨y, hy, h2⟩ := key
  have hyo := hp.mem_iff.2 hy
  cases ho : own with
  | nil => rw [ho] at hyo; cases hyo
  | cons n rest =>
    refine ⟨n, rest, rfl, fun x hx => ?_⟩
    rw [ho] at hyo hs
    have h3 := h2 x (hFp x hx)
    rcases List.mem_cons.1 hyo with rfl | h
    · exact h3
    · have := (List.pairwise_cons.1 hs).1 y h
      omega

/-- **C69** (consequence) A new point is linked: in every populated layer up to its level, and in any
case in its own layer, its list is not empty and its first link is at most as far as the entry point. -/
theorem C69_linked (L : P.Lawful) {c0 c : CSt T} (h : ReachC P cfg c0) (ext kp : Bool) (j : Job T)
    (hl : j.level < cfg.maxLayer) (hm : 0 < cfg.maxNb) (ep : Ref T) (hep : c0.idx.entry = some ep)
    (hL : LegalOn cfg.eval c0.idx j.data)
    (hins : insert P (cfg.withFlags ext kp) c0 (j.data, j.id) j.level = .ok () c) :
    ∃ p, p.data = j.data ∧ p.origin = j.id ∧ c.idx.layer j.level = c0.idx.layer j.level ++ [p] ∧
    ∀ l, l ≤ j.level →
      (c0.idx.layer l ≠ [] ∨ l = j.level →
        ∃ n rest, c.idx.nb p.pid l = n :: rest ∧ n.dist = cfg.eval p.data n.pt.data ∧
          n.dist.key ≤ (cfg.eval p.data ep.data).key) ∧
      (c0.idx.layer l = [] → l ≠ j.level → c.idx.nb p.pid l = []) := by
  have hG : GoodC (cfg.withFlags ext kp) c0 := goodC_flags.2 (h.goodC L)
  obtain ⟨⟨piv, k1, k2, k3, -⟩, -, -, h4⟩ := insert_links L hG (item := (j.data, j.id)) hl hep hL hins
  refine ⟨newRef (j.data, j.id) j.level c0.idx, rfl, rfl, ?_, ?_⟩
  · have := layer_addPoint (j.data, j.id) j.level c0.idx (by rw [hG.inv.ok.tab.len]; exact hl) j.level
    rw [if_pos rfl] at this
    rw [← this]
    unfold Idx.layer
    rw [h4]
  generalize hp : newRef (j.data, j.id) j.level c0.idx = p at *
  have hpl : p.pid.layer = j.level := by rw [← hp]; rfl
  have hask : ∀ l, 0 < degreeBound (cfg.withFlags ext kp) l := by
    intro l
    unfold degreeBound
    have : 0 < (cfg.withFlags ext kp).maxNb := hm
    split <;> omega
  have hfirst : ∀ l, l ≤ j.level → c0.idx.layer l ≠ [] ∨ l = j.level →
      ∃ n rest, c.idx.nb p.pid l = n :: rest ∧ n.dist = cfg.eval p.data n.pt.data ∧
        n.dist.key ≤ (cfg.eval p.data (piv (l + 1)).data).key := by
    intro l hlv hpop
    rcases k3 l hlv with ⟨h1, h2, -, -⟩ | ⟨-, F, v, hB, hSel, hpm, hso, -⟩
    · rcases hpop with h3 | h3
      · exact absurd h1 h3
      · exact absurd (h3.trans hpl.symm) h2
    · obtain ⟨x, hx, hxb⟩ := hB.best
      obtain ⟨n, rest, hn, hmin⟩ := selected_first hSel (hask l) (List.ne_nil_of_mem hx) hpm hso
      refine ⟨n, rest, hn, ?_, ?_⟩
      · exact selected_dist hSel hB.dist n (hpm.mem_iff.1 (by rw [hn]; simp))
      · have := hmin x hx
        exact Int.le_trans this hxb
  have hd : ∀ l, l ≤ j.level → ∀ a, (cfg.eval p.data (piv (l + 1)).data).key ≤ a → ∀ n rest,
      c.idx.nb p.pid l = n :: rest → n.dist.key ≤ a ∧ n.dist = cfg.eval p.data n.pt.data := by
    intro l hlv a ha n rest hn
    have hpop : c0.idx.layer l ≠ [] ∨ l = j.level := by
      rcases k3 l hlv with ⟨-, -, -, h4⟩ | ⟨h1, -⟩
      · rw [h4] at hn; cases hn
      · rw [hpl] at h1; exact h1
    obtain ⟨n', rest', h1, h2, h3⟩ := hfirst l hlv hpop
    rw [hn] at h1
    injection h1 with h1 _
    subst h1
    exact ⟨Int.le_trans h3 ha, h2⟩
  intro l hlv
  constructor
  · intro hpop
    obtain ⟨n, rest, h1, h2, h3⟩ := hfirst l hlv hpop
    refine ⟨n, rest, h1, h2, Int.le_trans h3 ?_⟩
    exact pivots_decrease k1 k2 k3 hd (max j.level ep.pid.layer + 1 - (l + 1)) (l + 1) (by omega)
  · intro he hne
    rcases k3 l hlv with ⟨-, -, -, h4⟩ | ⟨h1, -⟩
    · exact h4
    · rw [hpl] at h1
      rcases h1 with h1 | h1
      · exact absurd he h1
      · exact absurd h1 hne

/-- **C70** Links back: every point `q` that the new point `p` links to in a layer `l` up to its level
gets, in layer `p.level`, the nearest of its former links and of the link to `p`, as many as the bound
allows. -/
theorem C70_back_links_partial (L : P.Lawful) {c0 c : CSt T} (h : ReachC P cfg c0) (ext kp : Bool)
    (j : Job T) (hl : j.level < cfg.maxLayer) (ep : Ref T) (hep : c0.idx.entry = some ep)
    (hL : LegalOn cfg.eval c0.idx j.data)
    (hins : insert P (cfg.withFlags ext kp) c0 (j.data, j.id) j.level = .ok () c) :
    ∃ p, p.data = j.data ∧ p.origin = j.id ∧ c.idx.layer j.level = c0.idx.layer j.level ++ [p] ∧
    ∀ l, l ≤ j.level → ∀ q ∈ c.idx.nb p.pid l, q.pt ∈ c0.idx.points ∧
      NearestLinks (degreeBound cfg j.level)
        (c0.idx.nb q.pt.pid j.level ++ [⟨p, cfg.eval p.data q.pt.data⟩])
        (c.idx.nb q.pt.pid j.level) := by
  have hG : GoodC (cfg.withFlags ext kp) c0 := goodC_flags.2 (h.goodC L)
  obtain ⟨-, ⟨done, hd, hR⟩, -, h4⟩ := insert_links L hG (item := (j.data, j.id)) hl hep hL hins
  obtain ⟨r, hr, hGc, hfr, hlay, hperm, -, -⟩ := insert_spec L (h.goodC L) hl ext kp
    (c := c) (congrArg Outcome.state hins)
  refine ⟨newRef (j.data, j.id) j.level c0.idx, rfl, rfl, ?_, ?_⟩
  · have := layer_addPoint (j.data, j.id) j.level c0.idx (by rw [hG.inv.ok.tab.len]; exact hl) j.level
    rw [if_pos rfl] at this
    rw [← this]
    unfold Idx.layer
    rw [h4]
  · intro l hlv q hq
    have hqS : Stored c0.idx q.pt := by
      have h1 : Stored c.idx q.pt := hGc.inv.ok.stored _ _ q hq
      have h2 : Stored (addPoint (j.data, j.id) j.level c0.idx) q.pt := by
        unfold Stored Idx.points at h1 ⊢
        rw [← h4]; exact h1
      rcases (stored_addPoint _ _ _ (by rw [hG.inv.ok.tab.len]; exact hl) _).1 h2 with h3 | h3
      · exact h3
      · exact absurd (by rw [h3]) (hGc.inv.ok.noSelf _ _ q hq)
    exact ⟨hqS, hR.upd q.pt hqS ((hd _).2 ⟨l, hlv, q, hq, rfl⟩)⟩

/-- **C70** is false as stated: the back link of a link of layer 0 made by a point of level 1 is not in
layer 0, although there is room. -/
theorem C70_refuted : ∃ (c0 c : CSt Nat) (p q : Ref Nat), ReachC (listPolicy Nat) (exCfg 3) c0 ∧
    insert (listPolicy Nat) (exCfg 3) c0 ([20], 20) 1 = .ok () c ∧
    p.data = [20] ∧ (∃ e ∈ c.idx.nb p.pid 0, e.pt = q) ∧ q ∈ c0.idx.points ∧
    c.idx.nb q.pid 0 = [] ∧ (∃ e ∈ c.idx.nb q.pid 1, e.pt = p) := by
  refine ⟨exSt (exCfg 3) [(10, 0)], (exSt (exCfg 3) [(10, 0), (20, 1)]), ⟨⟨1, 0⟩, 20, [20]⟩,
    ⟨⟨0, 0⟩, 10, [10]⟩, exSt_reach _ _ (by decide), rfl, rfl, ?_, by decide +kernel, ?_, ?_⟩
  · exact ⟨⟨⟨⟨0, 0⟩, 10, [10]⟩, ⟨false, 10⟩⟩, by decide +kernel, rfl⟩
  · decide +kernel
  · exact ⟨⟨⟨⟨1, 0⟩, 20, [20]⟩, ⟨false, 10⟩⟩, by decide +kernel, rfl⟩

/-- **C71** What an insertion changes in the lists of the other points: only lists of the layer of the
new point's level, only of points it links to; a link can only be added for the new point; at most one link
is lost, only from a list that is full, and none of the remaining ones is farther. -/
theorem C71_only_farthest_lost (L : P.Lawful) {c0 c : CSt T} (h : ReachC P cfg c0) (ext kp : Bool)
    (j : Job T) (hl : j.level < cfg.maxLayer) (ep : Ref T) (hep : c0.idx.entry = some ep)
    (hL : LegalOn cfg.eval c0.idx j.data)
    (hins : insert P (cfg.withFlags ext kp) c0 (j.data, j.id) j.level = .ok () c) :
    ∃ p, p.data = j.data ∧ p.origin = j.id ∧ c.idx.layer j.level = c0.idx.layer j.level ++ [p] ∧
    ∀ o ∈ c0.idx.points, ∀ l,
      (c.idx.nb o.pid l ≠ c0.idx.nb o.pid l →
        l = j.level ∧ ∃ l' ≤ j.level, ∃ q ∈ c.idx.nb p.pid l', q.pt = o) ∧
      (∀ e ∈ c.idx.nb o.pid l, e ∈ c0.idx.nb o.pid l ∨ e.pt = p) ∧
      (∀ e ∈ c0.idx.nb o.pid l, e ∉ c.idx.nb o.pid l →
        (c.idx.nb o.pid l).length = degreeBound cfg l ∧
        (∀ e' ∈ c.idx.nb o.pid l, e'.dist.key ≤ e.dist.key) ∧
        ∀ e' ∈ c0.idx.nb o.pid l, e' ∉ c.idx.nb o.pid l → e' = e) := by
  have hG : GoodC (cfg.withFlags ext kp) c0 := goodC_flags.2 (h.goodC L)
  have h0 := hG.inv.ok
  obtain ⟨-, ⟨done, hd, hR⟩, -, h4⟩ := insert_links L hG (item := (j.data, j.id)) hl hep hL hins
  obtain ⟨r, hr, hGc, hfr, hlay, hperm, -, -⟩ := insert_spec L (h.goodC L) hl ext kp
    (c := c) (congrArg Outcome.state hins)
  have hlay : c.idx.layer j.level =
      c0.idx.layer j.level ++ [newRef (j.data, j.id) j.level c0.idx] := by
    have := layer_addPoint (j.data, j.id) j.level c0.idx (by rw [h0.tab.len]; exact hl) j.level
    rw [if_pos rfl] at this
    rw [← this]
    unfold Idx.layer
    rw [h4]
  refine ⟨newRef (j.data, j.id) j.level c0.idx, rfl, rfl, hlay, ?_⟩
  have hst : ∀ v, Stored c.idx v → Stored c0.idx v ∨ v = newRef (j.data, j.id) j.level c0.idx := by
    intro v hv
    apply (stored_addPoint _ _ _ (by rw [h0.tab.len]; exact hl) _).1
    unfold Stored Idx.points at hv ⊢
    rw [← h4]; exact hv
  have hne : ∀ o, Stored c0.idx o → o.pid ≠ (newRef (j.data, j.id) j.level c0.idx).pid :=
    fun o ho => newRef_fresh h0.tab _ _ ho
  intro o ho l
  by_cases hcase : l = j.level ∧ o.pid ∈ done
  · obtain ⟨rfl, hod⟩ := hcase
    have hN : NearestLinks (degreeBound cfg j.level) (c0.idx.nb o.pid j.level ++
      [⟨newRef (j.data, j.id) j.level c0.idx, cfg.eval j.data o.data⟩]) (c.idx.nb o.pid j.level) :=
      hR.upd o ho hod
    refine ⟨fun _ => ⟨rfl, ?_⟩, ?_, ?_⟩
    · obtain ⟨l', hl', q, hq, hqo⟩ := (hd _).1 hod
      refine ⟨l', hl', q, hq, ?_⟩
      rcases hst _ (hGc.inv.ok.stored _ _ q hq) with h1 | h1
      · exact h0.tab.unique h1 ho hqo
      · exact absurd (by rw [h1]) (hGc.inv.ok.noSelf _ _ q hq)
    · intro e he
      rcases List.mem_append.1 (hN.sub e he) with h1 | h1
      · exact Or.inl h1
      · rw [List.mem_singleton] at h1
        exact Or.inr (by rw [h1])
    · intro e he hlost
      have hnd0 : (c0.idx.nb o.pid j.level).Nodup :=
        List.Pairwise.of_map _ (fun a b hab heq => hab (by rw [heq])) (h0.nodup o.pid j.level)
      have h1 : (c.idx.nb o.pid j.level).length + 1 ≤ (c0.idx.nb o.pid j.level).length + 1 := by
        have := length_le_of_nodup_subset (l₁ := e :: c.idx.nb o.pid j.level)
          (List.nodup_cons.2 ⟨hlost, hN.nodup⟩) (l₂ := c0.idx.nb o.pid j.level ++
            [⟨newRef (j.data, j.id) j.level c0.idx, cfg.eval j.data o.data⟩]) (by
            intro y hy
            rcases List.mem_cons.1 hy with rfl | hy
            · exact List.mem_append_left _ he
            · exact hN.sub y hy)
        simpa using this
      have hb := h0.bound o.pid j.level
      have hb : (c0.idx.nb o.pid j.level).length ≤ degreeBound cfg j.level := hb
      have hlen := hN.len
      rw [List.length_append] at hlen
      simp only [List.length_cons, List.length_nil] at hlen
      refine ⟨by omega, hN.far e (List.mem_append_left _ he) hlost, ?_⟩
      intro e' he' hlost'
      apply Classical.byContradiction
      intro hee
      have := length_le_of_nodup_subset (l₁ := e' :: e :: c.idx.nb o.pid j.level)
        (List.nodup_cons.2 ⟨by simp [hee, hlost'], List.nodup_cons.2 ⟨hlost, hN.nodup⟩⟩)
        (l₂ := c0.idx.nb o.pid j.level ++
          [⟨newRef (j.data, j.id) j.level c0.idx, cfg.eval j.data o.data⟩]) (by
          intro y hy
          rcases List.mem_cons.1 hy with rfl | hy
          · exact List.mem_append_left _ he'
          · rcases List.mem_cons.1 hy with rfl | hy
            · exact List.mem_append_left _ he
            · exact hN.sub y hy)
      simp at this
      omega
  · have hsame : c.idx.nb o.pid l = c0.idx.nb o.pid l := by
      apply hR.other _ _ (hne o ho)
      by_cases h1 : l = j.level
      · exact Or.inr fun h2 => hcase ⟨h1, h2⟩
      · exact Or.inl h1
    rw [hsame]
    exact ⟨fun h => absurd rfl h, fun e he => Or.inl he, fun e he hl => absurd he hl⟩

/-- hypotheses of C69 and C70: 24 of level 1 inserted after 10, 20 (level 1), 30, 25; its links in layers
0 and 1, and the lists of 25 before and after: the back link is in layer 1 -/
example :
    let c0 := exSt (exCfg 3) [(10, 0), (20, 1), (30, 0), (25, 0)]
    let s := (insert (listPolicy Nat) (exCfg 3) c0 ([24], 24) 1).state.idx
    (s.nb ⟨1, 1⟩ 0).map (·.pt.data) = [[25], [20], [30], [10]] ∧
    (s.nb ⟨1, 1⟩ 1).map (·.pt.data) = [[20], [10]] ∧
    (c0.idx.nb ⟨0, 2⟩ 0).map (·.pt.data) = [[30], [20], [10]] ∧
    (s.nb ⟨0, 2⟩ 0).map (·.pt.data) = [[30], [20], [10]] ∧
    (c0.idx.nb ⟨0, 2⟩ 1).map (·.pt.data) = [[20]] ∧
    (s.nb ⟨0, 2⟩ 1).map (·.pt.data) = [[24], [20]] := by decide +kernel

/-- C71 with `max_nb_connection = 1`: 16 inserted after 10, 20, 30, 15 is linked to 15 and 20, whose lists
are full: both lose their link to 10, the farthest one -/
example :
    let c0 := exSt (exCfg 1) [(10, 0), (20, 0), (30, 0), (15, 0)]
    let s := (insert (listPolicy Nat) (exCfg 1) c0 ([16], 16) 0).state.idx
    (c0.idx.nb ⟨0, 1⟩ 0).map (·.pt.data) = [[15], [10]] ∧
    (s.nb ⟨0, 1⟩ 0).map (·.pt.data) = [[16], [15]] ∧
    (c0.idx.nb ⟨0, 3⟩ 0).map (·.pt.data) = [[20], [10]] ∧
    (s.nb ⟨0, 3⟩ 0).map (·.pt.data) = [[16], [20]] ∧
    (s.nb ⟨0, 0⟩ 0) = (c0.idx.nb ⟨0, 0⟩ 0) := by decide +kernel

end Verif
