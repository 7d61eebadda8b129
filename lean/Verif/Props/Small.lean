import Verif.SmallLemmas
import Verif.Props.Search

set_option autoImplicit false

/-!
# Completeness of the answers (C14, C15)

Both claims fail in general: an insertion writes the reverse links in the layer of the new point
only, and a full neighbour list forgets its farthest element, so that stored points may be
impossible to reach.
-/

namespace Verif
variable {T : Type} {P : Policy T} {cfg : Cfg T}

/-- number of answers of a search, `none` if it panics -/
def nbAnswers (r : Except Panic (List Neighbour)) : Option Nat := r.toOption.map (·.length)

/-- distances of the answers -/
def answerIds (r : Except Panic (List Neighbour)) : Option (List DataId) :=
  r.toOption.map fun ns => ns.map (·.dId)

/-- **C14** refuted: two points, the second one of level 1, `ef = 10`: the search from the first point
asks for 2 answers and gets 1. -/
theorem C14_refuted : ¬ ∀ (s : Idx Nat), Reach (listPolicy Nat) (exCfg 3) s →
    ∀ (q : List Nat) (knbn ef : Nat), knbn ≤ s.points.length → s.points.length ≤ ef →
      nbAnswers (search (listPolicy Nat) (exCfg 3) s q knbn ef) = some knbn := by
  intro h
  have := h (exIdx (exCfg 3) [(10, 0), (20, 1)]) (exIdx_reach _ _ (by decide)) [10] 2 10
    (by decide +kernel) (by decide +kernel)
  revert this
  decide +kernel

/-- **C15** refuted: `max_nb_connection = 2`, the six points 0, 1, 2, 3, 4, 100 all of level 0; the point
inserted last is not found again, although `ef` is larger than the number of points. -/
theorem C15_refuted : ∃ s : Idx Nat, Reach (listPolicy Nat) (exCfg 2) s ∧ s.points.length = 6 ∧
    (⟨⟨0, 5⟩, 100, [100]⟩ : Ref Nat) ∈ s.points ∧
    answerIds (search (listPolicy Nat) (exCfg 2) s [100] 1 10) = some [4] := by
  refine ⟨exIdx (exCfg 2) [(0, 0), (1, 0), (2, 0), (3, 0), (4, 0), (100, 0)],
    exIdx_reach _ _ (by decide), ?_, ?_, ?_⟩ <;> decide +kernel

/-- The index built by inserting `items` one after the other, all at level 0. -/
theorem insertAll_complete (L : P.Lawful) (hm : 0 < cfg.maxLayer) (hext : cfg.extend = false) :
    ∀ (items : List (List T × DataId)) {c0 c : CSt T}, ReachC P cfg c0 →
      (∀ v, Stored c0.idx v → v.pid.layer = 0) → Complete c0.idx →
      c0.idx.points.length + items.length ≤ 2 * cfg.maxNb + 1 →
      c0.idx.points.length + items.length ≤ cfg.efC →
      (∀ x ∈ items, ∀ v, (cfg.eval x.1 v).Legal) →
      insertAll P cfg c0 (items.map fun x => (x, 0)) = some c →
      ReachC P cfg c ∧ Complete c.idx ∧ (∀ v, Stored c.idx v → v.pid.layer = 0) ∧
        c.idx.points.length = c0.idx.points.length + items.length ∧
        (∀ v, Stored c0.idx v → Stored c.idx v) ∧
        ∀ x ∈ items, ∃ v, Stored c.idx v ∧ v.data = x.1 ∧ v.origin = x.2 := by
  intro items
  induction items with
  | nil =>
    intro c0 c hr hl hC _ _ _ h
    simp [insertAll] at h
    subst h
    exact ⟨hr, hC, hl, rfl, fun _ h => h, by simp⟩
  | cons x xs ih =>
    intro c0 c hr hl hC hs he hleg h
    simp only [List.map_cons, insertAll] at h
    split at h
    · rename_i u c1 hins
      have hG := hr.goodC L
      simp only [List.length_cons] at hs he
      obtain ⟨hC1, hst⟩ := complete_insert L hG hl hC hm hext (by omega) (by omega)
        (fun v _ => hleg x (by simp) v.data) hins
      have hr1 : ReachC P cfg c1 := by
        have := hr.insert L cfg.extend cfg.keepPruned (j := ⟨x.1, x.2, 0⟩) hm
        have hcfg : cfg.withFlags cfg.extend cfg.keepPruned = cfg := rfl
        simp only [hcfg] at this
        rw [hins] at this
        exact this
      have hl1 : ∀ v, Stored c1.idx v → v.pid.layer = 0 := by
        intro v hv
        rcases (hst v).1 hv with hv | rfl
        · exact hl v hv
        · rfl
      have hn1 : c1.idx.points.length = c0.idx.points.length + 1 := by
        have hperm : c1.idx.points.Perm (newRef x 0 c0.idx :: c0.idx.points) := by
          have nd : ∀ {s : Idx T}, TableOK cfg.maxLayer s → s.points.Nodup := fun ht =>
            List.Pairwise.of_map _ (fun a b hab heq => hab (by rw [heq])) (pids_points_nodup ht)
          rw [List.perm_ext_iff_of_nodup (nd (hr1.goodC L).inv.ok.tab)]
          · intro v
            rw [List.mem_cons]
            exact (hst v).trans (Or.comm)
          · rw [List.nodup_cons]
            exact ⟨fun hm => newRef_fresh hG.inv.ok.tab x 0 hm rfl, nd hG.inv.ok.tab⟩
        rw [hperm.length_eq]; rfl
      obtain ⟨h1, h2, h3, h4, h5, h6⟩ := ih hr1 hl1 hC1 (by omega) (by omega)
        (fun y hy => hleg y (by simp [hy])) h
      refine ⟨h1, h2, h3, by rw [h4, hn1, List.length_cons]; omega,
        fun v hv => h5 v ((hst v).2 (Or.inl hv)), ?_⟩
      intro y hy
      rcases List.mem_cons.1 hy with rfl | hy
      · exact ⟨_, h5 _ ((hst _).2 (Or.inr rfl)), rfl, rfl⟩
      · exact h6 y hy
    · cases h

/-- **C14 / C15** (part) As long as no list is ever full -- at most `2 * max_nb_connection + 1` points, all
of level 0, `ef_construction` at least the number of points, no candidate extension -- a search with
`ef` or `knbn` at least the number of points is exact over the *whole* index. -/
theorem C14_small_exact (L : P.Lawful) (hm : 0 < cfg.maxLayer) (hext : cfg.extend = false)
    (items : List (List T × DataId)) (hs : items.length ≤ 2 * cfg.maxNb + 1)
    (he : items.length ≤ cfg.efC) (hleg : ∀ a b, (cfg.eval a b).Legal) {c : CSt T}
    (hc : insertAll P cfg (CSt.new cfg.maxLayer) (items.map fun x => (x, 0)) = some c)
    (hne : items ≠ []) (q : List T) (knbn ef : Nat) (hef : items.length ≤ max ef knbn) :
    ∃ ns, search P cfg c.idx q knbn ef = .ok ns ∧ ns.length = min knbn items.length ∧
      IsKNearest cfg.eval q knbn (· ∈ c.idx.points) ns := by
  obtain ⟨hr, hC, hl, hn, -, -⟩ := insertAll_complete L hm hext items .new
    (by intro v hv; simp [Stored, CSt.new, Idx.new, Idx.points] at hv)
    (by intro a b ha; simp [Stored, CSt.new, Idx.new, Idx.points] at ha)
    (by simpa [CSt.new, Idx.new, Idx.points] using hs)
    (by simpa [CSt.new, Idx.new, Idx.points] using he) (fun x _ v => hleg x.1 v) hc
  have hn' : c.idx.points.length = items.length := by
    rw [hn]; simp [CSt.new, Idx.new, Idx.points]
  have hpos : 0 < items.length := List.length_pos_iff.2 hne
  have hpne : c.idx.points ≠ [] := List.length_pos_iff.1 (by omega)
  have hG := hr.goodC L
  obtain ⟨ep, pivot, ps, l, ns, hep, hd, hlow, hsr, hk⟩ := C07_exact L ⟨c, hr, rfl⟩ hpne q
    (fun v _ => hleg q v.data) knbn ef (by omega)
  have hepS := hG.inv.ok.entry ep hep
  have hl0 : l = 0 := by
    obtain ⟨a, as, hla⟩ := layer_of_lowest hlow
    have hst : Stored c.idx a := by
      rw [stored_iff]; exact ⟨l, by unfold Idx.layer; rw [hla]; simp⟩
    have h1 := hG.inv.ok.tab.ids l 0 a (by unfold Idx.layer; rw [hla]; rfl)
    have h2 := hl a hst
    rw [h1] at h2
    exact h2
  subst hl0
  have hpiv : Stored c.idx pivot := by
    rw [hl ep hepS] at hd
    cases ps with
    | nil => cases hd; exact hepS
    | cons p ps =>
      exfalso
      generalize hz : (p :: ps) ++ [pivot] = z at hd
      cases hd
      simp at hz
  have hS : ∀ v, Reaches (links c.idx 0) pivot v ↔ v ∈ c.idx.points := fun v =>
    ⟨fun h => h.stored hG.good.nav hpiv, fun h => hC.reaches hpiv h⟩
  have hS' : Reaches (links c.idx 0) pivot = (· ∈ c.idx.points) := funext fun v => propext (hS v)
  rw [hS'] at hk
  refine ⟨ns, hsr, ?_, hk⟩
  obtain ⟨v, rfl, -, -, -, h5, -⟩ := hk
  rw [List.length_map, ← hn']
  exact h5 c.idx.points (List.Pairwise.of_map _ (fun a b hab heq => hab (by rw [heq]))
    (pids_points_nodup hG.inv.ok.tab)) (fun _ => Iff.rfl)

/-- **C14** (part) in the same regime the search returns `knbn` answers. -/
theorem C14_small_partial (L : P.Lawful) (hm : 0 < cfg.maxLayer) (hext : cfg.extend = false)
    (items : List (List T × DataId)) (hs : items.length ≤ 2 * cfg.maxNb + 1)
    (he : items.length ≤ cfg.efC) (hleg : ∀ a b, (cfg.eval a b).Legal) {c : CSt T}
    (hc : insertAll P cfg (CSt.new cfg.maxLayer) (items.map fun x => (x, 0)) = some c)
    (q : List T) (knbn ef : Nat) (hk : 0 < knbn) (hkn : knbn ≤ items.length)
    (hef : items.length ≤ ef) :
    nbAnswers (search P cfg c.idx q knbn ef) = some knbn := by
  obtain ⟨ns, h1, h2, -⟩ := C14_small_exact L hm hext items hs he hleg hc
    (List.length_pos_iff.1 (by omega)) q knbn ef (by omega)
  rw [h1]
  simp [nbAnswers, Except.toOption, h2]
  omega

/-- **C15** (part) in the same regime every inserted vector that is at distance 0 (or at least as near as
any other one) of itself is found again, at this distance. -/
theorem C15_small_partial (L : P.Lawful) (hm : 0 < cfg.maxLayer) (hext : cfg.extend = false)
    (items : List (List T × DataId)) (hs : items.length ≤ 2 * cfg.maxNb + 1)
    (he : items.length ≤ cfg.efC) (hleg : ∀ a b, (cfg.eval a b).Legal) {c : CSt T}
    (hc : insertAll P cfg (CSt.new cfg.maxLayer) (items.map fun x => (x, 0)) = some c)
    (x : List T × DataId) (hx : x ∈ items)
    (hself : ∀ b, (cfg.eval x.1 x.1).key ≤ (cfg.eval x.1 b).key) (ef : Nat)
    (hef : items.length ≤ ef) :
    ∃ n, search P cfg c.idx x.1 1 ef = .ok [n] ∧ n.distance.key = (cfg.eval x.1 x.1).key := by
  have hne : items ≠ [] := by intro h; rw [h] at hx; cases hx
  obtain ⟨ns, h1, h2, hk⟩ := C14_small_exact L hm hext items hs he hleg hc hne x.1 1 ef (by omega)
  obtain ⟨-, -, -, -, -, hin⟩ := insertAll_complete L hm hext items .new
    (by intro v hv; simp [Stored, CSt.new, Idx.new, Idx.points] at hv)
    (by intro a b ha; simp [Stored, CSt.new, Idx.new, Idx.points] at ha)
    (by simpa [CSt.new, Idx.new, Idx.points] using hs)
    (by simpa [CSt.new, Idx.new, Idx.points] using he) (fun x _ v => hleg x.1 v) hc
  obtain ⟨w, hw, hwd, -⟩ := hin x hx
  have hpos : 0 < items.length := List.length_pos_iff.2 hne
  rw [Nat.min_eq_left (by omega)] at h2
  match ns, h2 with
  | [n], _ =>
    refine ⟨n, h1, ?_⟩
    obtain ⟨v, hv, -, -, -, -, hfar⟩ := hk
    match v, hv with
    | [y], hv =>
      simp only [List.map_cons, List.map_nil, List.cons.injEq, and_true] at hv
      rw [hv]
      apply Int.le_antisymm ?_ (hself _)
      show (cfg.eval x.1 y.data).key ≤ _
      by_cases hyw : w = y
      · rw [← hyw, hwd]; exact Int.le_refl _
      · have := hfar w hw (by simpa using hyw) y (by simp)
        rw [hwd] at this
        exact this

/-- five points with `max_nb_connection = 2` (at most 5 allowed): hypotheses met -/
example : (insertAll (listPolicy Nat) (exCfg 2) (CSt.new 16)
      ([item 0, item 7, item 30, item 31, item 90].map fun x => (x, 0))).isSome = true ∧
    (∀ a b : List Nat, ((exCfg 2).eval a b).Legal) ∧
    ∀ b, ((exCfg 2).eval [30] [30]).key ≤ ((exCfg 2).eval [30] b).key := by
  refine ⟨by decide +kernel, absDist_legal, ?_⟩
  intro b
  have h : ((exCfg 2).eval [30] [30]).key = 0 := by decide +kernel
  rw [h]
  exact (absDist_legal [30] b).2

end Verif
