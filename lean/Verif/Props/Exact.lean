import Verif.SearchNav
import Verif.Props.Small
import Verif.Props.Search

set_option autoImplicit false

/-!
# C96: graphs in which every search is exact
-/

namespace Verif
variable {T : Type} {P : Policy T} {cfg : Cfg T} {s : Idx T}

/-- **C96** The first answer is a nearest point of the whole index, whatever `ef`, if in the searched layer
every point that is not one has a link to a strictly nearer point. -/
theorem C96_navigable (L : P.Lawful) (hr : Reach P cfg s) (hne : s.points ≠ []) (q : List T)
    (hL : LegalOn cfg.eval s q) (l : Nat) (hl : IsLowest s l)
    (hnav : ∀ p ∈ s.points, (∀ b ∈ s.points, (cfg.eval q p.data).key ≤ (cfg.eval q b.data).key) ∨
      ∃ e ∈ s.nb p.pid l, (cfg.eval q e.pt.data).key < (cfg.eval q p.data).key)
    (knbn efArg : Nat) (hk : 1 ≤ knbn) :
    ∃ n ns, search P cfg s q knbn efArg = .ok (n :: ns) ∧
      ∃ p ∈ s.points, n = answer cfg.eval q p ∧
        ∀ b ∈ s.points, n.distance.key ≤ (cfg.eval q b.data).key :=
  nav96_navigable L (hr.good L).nav hne q hL l hl hnav knbn efArg hk

/-- **C96** If all pairs of points are linked in the searched layer, every search answers the nearest points
of the whole index, whatever `ef`. -/
theorem C96_complete (L : P.Lawful) (hr : Reach P cfg s) (hne : s.points ≠ []) (q : List T)
    (hL : LegalOn cfg.eval s q) (l : Nat) (hl : IsLowest s l)
    (hC : ∀ a ∈ s.points, ∀ b ∈ s.points, a ≠ b → ∃ e ∈ s.nb a.pid l, e.pt = b) (knbn efArg : Nat) :
    ∃ ns, search P cfg s q knbn efArg = .ok ns ∧ ns.length = min knbn s.points.length ∧
      IsKNearest cfg.eval q knbn (· ∈ s.points) ns :=
  nav96_complete L (hr.good L).nav hne q hL l hl hC knbn efArg

/-- **C96** (consequence) At most `2 * max_nb_connection + 1` points, all of level 0, inserted one after
the other with `ef_construction` at least their number and without candidate extension: every search is
exact over the whole index, whatever `ef`. -/
theorem C96_small (L : P.Lawful) (hm : 0 < cfg.maxLayer) (hext : cfg.extend = false)
    (items : List (List T × DataId)) (hs : items.length ≤ 2 * cfg.maxNb + 1)
    (he : items.length ≤ cfg.efC) (hleg : ∀ a b, (cfg.eval a b).Legal) {c : CSt T}
    (hc : insertAll P cfg (CSt.new cfg.maxLayer) (items.map fun x => (x, 0)) = some c)
    (hne : items ≠ []) (q : List T) (knbn ef : Nat) :
    ∃ ns, search P cfg c.idx q knbn ef = .ok ns ∧ ns.length = min knbn items.length ∧
      IsKNearest cfg.eval q knbn (· ∈ c.idx.points) ns := by
  obtain ⟨hr, hC, hl, hn, -, -⟩ := insertAll_complete L hm hext items .new
    (by intro v hv; simp [Stored, CSt.new, Idx.new, Idx.points] at hv)
    (by intro a b ha; simp [Stored, CSt.new, Idx.new, Idx.points] at ha)
    (by simpa [CSt.new, Idx.new, Idx.points] using hs)
    (by simpa [CSt.new, Idx.new, Idx.points] using he) (fun x _ v => hleg x.1 v) hc
  have hn' : c.idx.points.length = items.length := by
    rw [hn]; simp [CSt.new, Idx.new, Idx.points]
  have hpos : 0 < items.length := List.length_pos_iff.2 hne
  have hpne : c.idx.points ≠ [] := List.length_pos_iff.1 (by omega)
  have hl0 : IsLowest c.idx 0 := by
    refine ⟨?_, fun l hl => absurd hl (by omega)⟩
    obtain ⟨a, ha⟩ := List.exists_mem_of_ne_nil _ hpne
    obtain ⟨l, hal⟩ := stored_iff.1 ha
    obtain ⟨r, hr1⟩ := List.mem_iff_getElem?.1 hal
    have h1 := (hr.goodC L).inv.ok.tab.ids l r a hr1
    have h2 := hl a ha
    rw [h1] at h2
    simp only at h2
    subst h2
    exact List.ne_nil_of_mem hal
  have := C96_complete L ⟨c, hr, rfl⟩ hpne q (fun v _ => hleg q v.data) 0 hl0
    (fun a ha b hb hab => hC a b ha hb hab) knbn ef
  rw [hn'] at this
  exact this

/-! ## Concrete cases -/

/-- seven points with `max_nb_connection = 3`, `ef = 0`: the four nearest ones of the query -/
example : ∃ c, insertAll (listPolicy Nat) (exCfg 3) (CSt.new 16)
      ([item 50, item 10, item 70, item 20, item 60, item 30, item 40].map fun x => (x, 0)) = some c ∧
    ∃ ns, search (listPolicy Nat) (exCfg 3) c.idx [33] 4 0 = .ok ns ∧ ns.map (·.dId) = [30, 40, 20, 50] :=
  ⟨_, rfl, _, rfl, by decide +kernel⟩

/-- an index that is not completely linked, and a query for which it is navigable -/
example : IsLowest (exIdx (exCfg 1) [(10, 0), (20, 0), (30, 0), (40, 0), (50, 0)]) 0 ∧
    (∀ p ∈ (exIdx (exCfg 1) [(10, 0), (20, 0), (30, 0), (40, 0), (50, 0)]).points,
      (∀ b ∈ (exIdx (exCfg 1) [(10, 0), (20, 0), (30, 0), (40, 0), (50, 0)]).points,
        (absDist [33] p.data).key ≤ (absDist [33] b.data).key) ∨
      ∃ e ∈ (exIdx (exCfg 1) [(10, 0), (20, 0), (30, 0), (40, 0), (50, 0)]).nb p.pid 0,
        (absDist [33] e.pt.data).key < (absDist [33] p.data).key) ∧
    (∀ p ∈ (exIdx (exCfg 1) [(10, 0), (20, 0), (30, 0), (40, 0), (50, 0)]).points,
      ((exIdx (exCfg 1) [(10, 0), (20, 0), (30, 0), (40, 0), (50, 0)]).nb p.pid 0).length ≤ 2) := by
  refine ⟨⟨by decide +kernel, fun l hl => absurd hl (by omega)⟩, by decide +kernel, by decide +kernel⟩

/-- The condition is needed: in the index of `C15_refuted` the query `[100]` has a point at distance 0, and
the search answers another one. -/
example : ∃ s : Idx Nat, Reach (listPolicy Nat) (exCfg 2) s ∧ IsLowest s 0 ∧
    (⟨⟨0, 5⟩, 100, [100]⟩ : Ref Nat) ∈ s.points ∧
    ∃ n ns, search (listPolicy Nat) (exCfg 2) s [100] 1 10 = .ok (n :: ns) ∧ n.distance.key = 96 :=
  ⟨exIdx (exCfg 2) [(0, 0), (1, 0), (2, 0), (3, 0), (4, 0), (100, 0)], exIdx_reach _ _ (by decide),
    ⟨by decide +kernel, fun l hl => absurd hl (by omega)⟩, by decide +kernel, _, _, rfl, by decide +kernel⟩

end Verif
