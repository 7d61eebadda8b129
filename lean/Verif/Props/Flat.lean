import Verif.Props.Link
import Verif.Props.Small
import Verif.Props.Concurrent

set_option autoImplicit false

/-!
# C100: indexes with one layer whose lists are not full
-/

namespace Verif
variable {T : Type} {P : Policy T} {cfg : Cfg T}

/-- all points are in layer 0 -/
def OneLayer (s : Idx T) : Prop := ∀ p ∈ s.points, p.pid.layer = 0

/-- no list of layer 0 has reached its bound -/
def NoneFull (cfg : Cfg T) (s : Idx T) : Prop :=
  ∀ p ∈ s.points, (s.nb p.pid 0).length < 2 * cfg.maxNb

/-- links of layer 0 go both ways -/
def BothWays (s : Idx T) : Prop :=
  ∀ a ∈ s.points, ∀ b ∈ s.points, (∃ e ∈ s.nb a.pid 0, e.pt = b) → ∃ e ∈ s.nb b.pid 0, e.pt = a

/-- every point can be reached from every other one -/
def Connected (s : Idx T) : Prop := ∀ a ∈ s.points, ∀ b ∈ s.points, Reaches (links s 0) a b

theorem Reaches.trans {nbf : PointId → List (PWO T)} {a b d : Ref T} (h1 : Reaches nbf a b)
    (h2 : Reaches nbf b d) : Reaches nbf a d := by
  induction h2 with
  | refl => exact h1
  | step _ he ih => exact .step ih he

theorem one_layer_insert (L : P.Lawful) {c0 c : CSt T} (h : ReachC P cfg c0) (hm : 0 < cfg.maxLayer)
    (x : List T × DataId) (hins : insert P cfg c0 x 0 = .ok () c) :
    ∃ p, c.idx.layer 0 = c0.idx.layer 0 ++ [p] ∧ p.pid.layer = 0 ∧ p ∉ c0.idx.points ∧
      ∀ v, v ∈ c.idx.points ↔ v ∈ c0.idx.points ∨ v = p := by
  obtain ⟨c1, t, he, hf, ho⟩ := insert_exec (cfg := cfg) L (h.goodC L) (j := ⟨x.1, x.2, 0⟩) hm
  have hc : c1 = c := by
    rw [hins] at ho
    rcases ho with ⟨h1, -⟩ | ⟨e, h1, -⟩
    · injection h1 with _ h1
      exact h1.symm
    · cases h1
  subst hc
  have hcfg : cfg.withFlags cfg.extend cfg.keepPruned = cfg := rfl
  obtain ⟨h1, h2, h3, -⟩ := C29_exactly_once L h cfg.extend cfg.keepPruned (jobs := [⟨x.1, x.2, 0⟩])
    (by simpa using hm) (by rw [hcfg]; exact he) (by simpa using hf)
  obtain ⟨news, h4, h5⟩ := h1 0
  have hlen : news.length = 1 := by simpa using h5.length_eq
  obtain ⟨p, rfl⟩ := List.length_eq_one_iff.1 hlen
  have hp := h2 0 (c0.idx.layer 0).length p (by rw [h4]; simp)
  refine ⟨p, h4, by rw [hp], ?_, ?_⟩
  · intro hmem
    obtain ⟨l, hl⟩ := stored_iff.1 hmem
    obtain ⟨r, hr⟩ := List.mem_iff_getElem?.1 hl
    have h6 := (h.goodC L).inv.ok.tab.ids l r p hr
    rw [hp] at h6
    injection h6 with h6 h7
    subst h6
    have := (List.getElem?_eq_some_iff.1 hr).1
    omega
  · intro v
    change Stored c1.idx v ↔ Stored c0.idx v ∨ v = p
    rw [stored_iff, stored_iff]
    constructor
    · rintro ⟨l, hl⟩
      by_cases h0 : l = 0
      · subst h0
        rw [h4, List.mem_append] at hl
        rcases hl with hl | hl
        · exact Or.inl ⟨0, hl⟩
        · exact Or.inr (List.mem_singleton.1 hl)
      · obtain ⟨news, h6, h7⟩ := h1 l
        have : news.length = 0 := by
          have := h7.length_eq
          simpa [Ne.symm h0] using this
        rw [List.length_eq_zero_iff.1 this, List.append_nil] at h6
        rw [h6] at hl
        exact Or.inl ⟨l, hl⟩
    · rintro (⟨l, hl⟩ | rfl)
      · obtain ⟨news, h6, -⟩ := h1 l
        exact ⟨l, by rw [h6]; exact List.mem_append_left _ hl⟩
      · exact ⟨0, by rw [h4]; simp⟩

theorem flat_step (L : P.Lawful) {c0 c : CSt T} (h : ReachC P cfg c0) (hm : 0 < cfg.maxLayer)
    (x : List T × DataId) (hL : LegalOn cfg.eval c0.idx x.1) (h0 : OneLayer c0.idx)
    (hins : insert P cfg c0 x 0 = .ok () c) :
    OneLayer c.idx ∧ (NoneFull cfg c.idx → NoneFull cfg c0.idx ∧
      (BothWays c0.idx → BothWays c.idx) ∧ (Connected c0.idx → Connected c.idx)) := by
  obtain ⟨p, hp1, hp2, hp3, hp4⟩ := one_layer_insert L h hm x hins
  refine ⟨fun v hv => ?_, fun hN => ?_⟩
  · rcases (hp4 v).1 hv with hv | rfl
    · exact h0 v hv
    · exact hp2
  have hcfg : cfg.withFlags cfg.extend cfg.keepPruned = cfg := rfl
  have hnb : 0 < cfg.maxNb := by
    have := hN p ((hp4 p).2 (Or.inr rfl))
    omega
  cases hep : c0.idx.entry with
  | none =>
    have he : c0.idx.points = [] := by
      refine Classical.byContradiction fun hne => ?_
      exact (h.goodC L).entry hne hep
    have hall : ∀ v, v ∈ c.idx.points → v = p := by
      intro v hv
      rcases (hp4 v).1 hv with hv | hv
      · rw [he] at hv; cases hv
      · exact hv
    refine ⟨?_, ?_, ?_⟩
    · intro v hv; rw [he] at hv; cases hv
    · intro _ a ha b hb hab
      rw [hall a ha, hall b hb] at *
      exact hab
    · intro _ a ha b hb
      rw [hall a ha, hall b hb]
      exact .refl
  | some ep =>
    obtain ⟨p1, -, -, e1, own⟩ := C69_linked L h cfg.extend cfg.keepPruned ⟨x.1, x.2, 0⟩ hm hnb ep hep hL
      (by rw [hcfg]; exact hins)
    obtain ⟨p2, -, -, e2, back⟩ := C70_back_links_partial L h cfg.extend cfg.keepPruned ⟨x.1, x.2, 0⟩ hm ep
      hep hL (by rw [hcfg]; exact hins)
    obtain ⟨p3, -, -, e3, lost⟩ := C71_only_farthest_lost L h cfg.extend cfg.keepPruned ⟨x.1, x.2, 0⟩ hm ep
      hep hL (by rw [hcfg]; exact hins)
    have u : ∀ {q : Ref T}, c.idx.layer 0 = c0.idx.layer 0 ++ [q] → q = p := by
      intro q hq
      rw [hp1] at hq
      have := List.append_cancel_left hq
      injection this with this
      exact this.symm
    rw [u e1] at own
    rw [u e2] at back
    rw [u e3] at lost
    clear e1 e2 e3
    -- old links stay
    have hkeep : ∀ o ∈ c0.idx.points, ∀ e ∈ c0.idx.nb o.pid 0, e ∈ c.idx.nb o.pid 0 := by
      intro o ho e he
      refine Classical.byContradiction fun hne => ?_
      have h1 := ((lost o ho 0).2.2 e he hne).1
      have h2 := hN o ((hp4 o).2 (Or.inl ho))
      simp only [degreeBound, if_true] at h1
      omega
    -- links back
    have hback : ∀ q ∈ c.idx.nb p.pid 0, q.pt ∈ c0.idx.points ∧ ∃ e ∈ c.idx.nb q.pt.pid 0, e.pt = p := by
      intro q hq
      obtain ⟨hq1, hq2⟩ := back 0 (Nat.le_refl _) q hq
      refine ⟨hq1, ⟨p, cfg.eval p.data q.pt.data⟩, ?_, rfl⟩
      have h2 := hN q.pt ((hp4 _).2 (Or.inl hq1))
      have h3 := hq2.len
      simp only [degreeBound, if_true, List.length_append, List.length_singleton] at h3
      refine Classical.byContradiction fun hnot => ?_
      have := length_le_of_nodup_subset hq2.nodup (l₂ := c0.idx.nb q.pt.pid 0) (fun y hy => by
        rcases List.mem_append.1 (hq2.sub y hy) with h4 | h4
        · exact h4
        · rw [List.mem_singleton.1 h4] at hy
          exact absurd hy hnot)
      simp only [] at this h3
      omega
    have nd : ∀ o, (c0.idx.nb o 0).Nodup := fun o =>
      List.Pairwise.of_map _ (fun a b hab heq => hab (by rw [heq])) ((h.goodC L).inv.ok.nodup o 0)
    have hmono : ∀ {a b : Ref T}, a ∈ c0.idx.points → Reaches (links c0.idx 0) a b →
        Reaches (links c.idx 0) a b := by
      intro a b ha hab
      induction hab with
      | refl => exact .refl
      | step hr he ih => exact .step ih (hkeep _ (hr.stored (h.goodC L).good.nav ha) _ he)
    refine ⟨?_, ?_, ?_⟩
    · intro o ho
      have h2 := hN o ((hp4 o).2 (Or.inl ho))
      have := length_le_of_nodup_subset (nd o.pid) (hkeep o ho)
      omega
    · rintro hB a ha b hb ⟨e, he, rfl⟩
      rcases (hp4 a).1 ha with ha' | rfl
      · by_cases hold : e ∈ c0.idx.nb a.pid 0
        · have hs := (h.goodC L).inv.ok.stored _ _ e hold
          obtain ⟨e', he', hpt⟩ := hB a ha' e.pt hs ⟨e, hold, rfl⟩
          exact ⟨e', hkeep _ hs _ he', hpt⟩
        · have hne : c.idx.nb a.pid 0 ≠ c0.idx.nb a.pid 0 := fun heq => hold (heq ▸ he)
          obtain ⟨-, l', hl', q, hq, hqa⟩ := (lost a ha' 0).1 hne
          have hl0 : l' = 0 := Nat.le_zero.1 hl'
          subst hl0
          rcases (lost a ha' 0).2.1 e he with h1 | h1
          · exact absurd h1 hold
          · rw [h1]
            exact ⟨q, hq, hqa⟩
      · exact (hback e he).2
    · intro hC
      obtain ⟨n, rest, hn, -, -⟩ := (own 0 (Nat.le_refl _)).1 (Or.inr rfl)
      have hnm : n ∈ c.idx.nb p.pid 0 := by rw [hn]; simp
      obtain ⟨hns, e, he, hep⟩ := hback n hnm
      have hfrom : ∀ b ∈ c0.idx.points, Reaches (links c.idx 0) p b := fun b hb =>
        Reaches.trans (.step .refl hnm) (hmono hns (hC _ hns _ hb))
      have hto : ∀ b ∈ c0.idx.points, Reaches (links c.idx 0) b p := fun b hb =>
        hep ▸ .step (hmono hb (hC _ hb _ hns)) he
      intro a ha b hb
      rcases (hp4 a).1 ha with ha' | rfl
      · rcases (hp4 b).1 hb with hb' | rfl
        · exact hmono ha' (hC _ ha' _ hb')
        · exact hto _ ha'
      · rcases (hp4 b).1 hb with hb' | rfl
        · exact hfrom _ hb'
        · exact .refl

theorem flat_all (L : P.Lawful) (hm : 0 < cfg.maxLayer) (hleg : ∀ a b, (cfg.eval a b).Legal) :
    ∀ (items : List (List T × DataId)) {c0 c : CSt T}, ReachC P cfg c0 → OneLayer c0.idx →
      insertAll P cfg c0 (items.map fun x => (x, 0)) = some c →
      ReachC P cfg c ∧ OneLayer c.idx ∧ c.idx.points.length = c0.idx.points.length + items.length ∧
      (NoneFull cfg c.idx → NoneFull cfg c0.idx ∧
        (BothWays c0.idx → BothWays c.idx) ∧ (Connected c0.idx → Connected c.idx)) := by
  intro items
  induction items with
  | nil =>
    intro c0 c hr hl h
    simp [insertAll] at h
    subst h
    exact ⟨hr, hl, rfl, fun h => ⟨h, id, id⟩⟩
  | cons x xs ih =>
    intro c0 c hr hl h
    simp only [List.map_cons, insertAll] at h
    split at h
    · rename_i u c1 hins
      have hr1 : ReachC P cfg c1 := by
        have := hr.insert L cfg.extend cfg.keepPruned (j := ⟨x.1, x.2, 0⟩) hm
        have hcfg : cfg.withFlags cfg.extend cfg.keepPruned = cfg := rfl
        simp only [hcfg] at this
        rw [hins] at this
        exact this
      obtain ⟨s1, s2⟩ := flat_step L hr hm x (fun v _ => hleg x.1 v.data) hl hins
      obtain ⟨h1, h2, h3, h4⟩ := ih hr1 s1 h
      obtain ⟨p, -, -, p3, p4⟩ := one_layer_insert L hr hm x hins
      have nd : ∀ {s : Idx T}, TableOK cfg.maxLayer s → s.points.Nodup := fun ht =>
        List.Pairwise.of_map _ (fun a b hab heq => hab (by rw [heq])) (pids_points_nodup ht)
      have hperm : c1.idx.points.Perm (p :: c0.idx.points) := by
        rw [List.perm_ext_iff_of_nodup (nd (hr1.goodC L).inv.ok.tab)
          (List.nodup_cons.2 ⟨p3, nd (hr.goodC L).inv.ok.tab⟩)]
        intro v
        rw [List.mem_cons]
        exact (p4 v).trans Or.comm
      have hlen := hperm.length_eq
      refine ⟨h1, h2, by rw [h3, hlen]; simp only [List.length_cons]; omega, fun hN => ?_⟩
      obtain ⟨n1, b1, d1⟩ := h4 hN
      obtain ⟨n0, b0, d0⟩ := s2 n1
      exact ⟨n0, fun h => b1 (b0 h), fun h => d1 (d0 h)⟩
    · cases h

/-- **C100** An index built by successive insertions at level 0 -- any parameters, any flags -- in which no
list of layer 0 has reached its bound: links go both ways and every point can be reached from every other
one. -/
theorem C100_flat (L : P.Lawful) (hm : 0 < cfg.maxLayer) (hleg : ∀ a b, (cfg.eval a b).Legal)
    (items : List (List T × DataId)) {c : CSt T}
    (hc : insertAll P cfg (CSt.new cfg.maxLayer) (items.map fun x => (x, 0)) = some c)
    (hN : ∀ p ∈ c.idx.points, (c.idx.nb p.pid 0).length < 2 * cfg.maxNb) :
    (∀ a ∈ c.idx.points, ∀ b ∈ c.idx.points,
      (∃ e ∈ c.idx.nb a.pid 0, e.pt = b) ↔ ∃ e ∈ c.idx.nb b.pid 0, e.pt = a) ∧
    ∀ a ∈ c.idx.points, ∀ b ∈ c.idx.points, Reaches (links c.idx 0) a b := by
  have h0 : (CSt.new (T := T) cfg.maxLayer).idx.points = [] := by
    simp [CSt.new, Idx.new, Idx.points]
  obtain ⟨-, -, -, h⟩ := flat_all L hm hleg items .new (fun v hv => by rw [h0] at hv; cases hv) hc
  obtain ⟨-, h1, h2⟩ := h hN
  have hB := h1 (fun a ha => by rw [h0] at ha; cases ha)
  exact ⟨fun a ha b hb => ⟨hB a ha b hb, hB b hb a ha⟩,
    h2 (fun a ha => by rw [h0] at ha; cases ha)⟩

/-- searches in an index with one layer in which every point can be reached from every other one -/
theorem flat_search (L : P.Lawful) {c : CSt T} (hr : ReachC P cfg c) (hpne : c.idx.points ≠ [])
    (hl : OneLayer c.idx) (hC : Connected c.idx) (q : List T) (hq : LegalOn cfg.eval c.idx q) (knbn ef : Nat) :
    ∃ ns, search P cfg c.idx q knbn ef = .ok ns ∧ ns.length = min knbn c.idx.points.length ∧
      (c.idx.points.length ≤ max ef knbn → IsKNearest cfg.eval q knbn (· ∈ c.idx.points) ns) := by
  have hG := hr.goodC L
  have key : ∀ {ep pivot : Ref T} {ps : List (Ref T)} {l : Nat}, c.idx.entry = some ep →
      Descent cfg.eval q c.idx ep.pid.layer ep (ps ++ [pivot]) → IsLowest c.idx l →
      Reaches (links c.idx l) pivot = (· ∈ c.idx.points) := by
    intro ep pivot ps l hep hd hlow
    have hepS := hG.inv.ok.entry ep hep
    have hl0 : l = 0 := by
      obtain ⟨a, as, hla⟩ := layer_of_lowest hlow
      have hst : Stored c.idx a := by
        rw [stored_iff]; exact ⟨l, by unfold Idx.layer; rw [hla]; simp⟩
      have h1 := hG.inv.ok.tab.ids l 0 a (by unfold Idx.layer; rw [hla]; rfl)
      have h2 := hl a hst
      rw [h1] at h2
      exact h2
    subst hl0
    have hpiv : Stored c.idx pivot := by
      rw [hl ep hepS] at hd
      cases ps with
      | nil => cases hd; exact hepS
      | cons p ps =>
        exfalso
        generalize hz : (p :: ps) ++ [pivot] = z at hd
        cases hd
        simp at hz
    exact funext fun v => propext ⟨fun h => h.stored hG.good.nav hpiv, fun h => hC _ hpiv _ h⟩
  obtain ⟨ep, pivot, ps, l, ns, hep, hd, hlow, hsr, hcount⟩ := C67_count L ⟨c, hr, rfl⟩ hpne q
    hq knbn ef
  have nd : c.idx.points.Nodup :=
    List.Pairwise.of_map _ (fun a b hab heq => hab (by rw [heq])) (pids_points_nodup hG.inv.ok.tab)
  refine ⟨ns, hsr, ?_, fun hef => ?_⟩
  · exact hcount _ nd (fun v => by rw [key hep hd hlow])
  · obtain ⟨ep', pivot', ps', l', ns', hep', hd', hlow', hsr', hk⟩ := C07_exact L ⟨c, hr, rfl⟩ hpne q
      hq knbn ef (by omega)
    rw [hsr] at hsr'
    injection hsr' with hsr'
    rw [hsr']
    rw [key hep' hd' hlow'] at hk
    exact hk

/-- **C100** (consequence) In such an index a search returns as many answers as asked for, or all points;
with `ef` or `knbn` at least the number of points it returns the nearest ones of the whole index. -/
theorem C100_search (L : P.Lawful) (hm : 0 < cfg.maxLayer) (hleg : ∀ a b, (cfg.eval a b).Legal)
    (items : List (List T × DataId)) (hne : items ≠ []) {c : CSt T}
    (hc : insertAll P cfg (CSt.new cfg.maxLayer) (items.map fun x => (x, 0)) = some c)
    (hN : ∀ p ∈ c.idx.points, (c.idx.nb p.pid 0).length < 2 * cfg.maxNb) (q : List T) (knbn ef : Nat) :
    ∃ ns, search P cfg c.idx q knbn ef = .ok ns ∧ ns.length = min knbn items.length ∧
      (items.length ≤ max ef knbn → IsKNearest cfg.eval q knbn (· ∈ c.idx.points) ns) := by
  have h0 : (CSt.new (T := T) cfg.maxLayer).idx.points = [] := by
    simp [CSt.new, Idx.new, Idx.points]
  obtain ⟨hr, hl, hn, -⟩ := flat_all L hm hleg items .new (fun v hv => by rw [h0] at hv; cases hv) hc
  have hC := (C100_flat L hm hleg items hc hN).2
  have hn' : c.idx.points.length = items.length := by rw [hn, h0]; simp
  have hpos : 0 < items.length := List.length_pos_iff.2 hne
  rw [← hn']
  exact flat_search L hr (List.length_pos_iff.1 (by omega)) hl hC q (fun v _ => hleg q v.data) knbn ef

/-- `max_nb_connection = 3`, `ef_construction = 2`: six points on a line, not all linked to each other, no
list full; a search of width 6 from the far end finds the nearest points at the other end -/
example : (∀ a b : List Nat, ((exCfg 3).eval a b).Legal) ∧
    ∃ c, insertAll (listPolicy Nat) { exCfg 3 with efC := 2 } (CSt.new 16)
      ([item 0, item 10, item 21, item 33, item 46, item 60].map fun x => (x, 0)) = some c ∧
    (∀ p ∈ c.idx.points, (c.idx.nb p.pid 0).length < 6) ∧
    (∃ a ∈ c.idx.points, ∃ b ∈ c.idx.points, a ≠ b ∧ ∀ e ∈ c.idx.nb a.pid 0, e.pt ≠ b) ∧
    ∃ ns, search (listPolicy Nat) { exCfg 3 with efC := 2 } c.idx [60] 2 6 = .ok ns ∧
      ns.map (·.dId) = [60, 46] := by
  refine ⟨absDist_legal, _, rfl, by decide +kernel, ?_, _, rfl, by decide +kernel⟩
  decide +kernel

/-- **C100** the condition on the lists is needed: `max_nb_connection = 2`, six points of level 0, lists of
four links; the last point has a link that does not lead back, and nobody leads to it. -/
theorem C100_full_refuted : ∃ c, insertAll (listPolicy Nat) (exCfg 2) (CSt.new 16)
      ([item 0, item 1, item 2, item 3, item 4, item 100].map fun x => (x, 0)) = some c ∧
    (∃ p ∈ c.idx.points, (c.idx.nb p.pid 0).length = 4) ∧
    ∃ a ∈ c.idx.points, c.idx.nb a.pid 0 ≠ [] ∧ ∀ o ∈ c.idx.points, ∀ e ∈ c.idx.nb o.pid 0, e.pt ≠ a := by
  refine ⟨_, rfl, ?_, ?_⟩ <;> decide +kernel

end Verif
