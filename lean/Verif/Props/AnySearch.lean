import Verif.SearchNav
import Verif.Props.AnyCost
import Verif.Props.AnyDump

set_option autoImplicit false

/-!
# C133: the quality of the answers in an index that was reloaded from any files

The files may be damaged: lists of links of any length, in any direction, to the point itself, with distances that are not
those of the points. `Resumed P x.hnsw c` (Verif/Inherit.lean): `c` is reached from the reloaded index `x.hnsw` by any number
of batches of concurrent insertions. A search uses the links only to walk, and the distances it computes itself.
-/

namespace Verif
variable {T : Type} {P : Policy T} {ty : Ty T} {defScale : Nat → F64} {dist : Dist T} {io : HnswIo} {fs : Dir}
  {x : Loaded T} {c : CSt T}

/-- an index obtained from a reload can be searched, and is not empty -/
theorem Resumed.navig (L : P.Lawful) (hx : LoadsOk P ty defScale dist io fs x) (h : Resumed P x.hnsw c) :
    Navig c.idx ∧ c.idx.points ≠ [] := by
  obtain ⟨hg, -, hs, -⟩ := h.good L hx
  have hok := hg.inv.okB
  obtain ⟨d, b, dm, o, s1, m, s2, hld, -⟩ := hx.parts
  obtain ⟨-, -, ⟨e0, -, he0⟩, -⟩ := loadIndexation_ok L hld
  exact ⟨⟨⟨rfl, hok.tab.ids⟩, hok.stored, hok.entry, hg.entry⟩, List.ne_nil_of_mem (hs _ he0)⟩

/-- **C133** (partial: no distance of the query is a NaN) In the searched layer, a neighbour of a returned point is returned
or is at least as far as every returned point; with a filter and `2 ≤ max ef knbn`, this holds for the neighbours that the
filter accepts. -/
theorem C133_local_optimum_partial (L : P.Lawful) (hx : LoadsOk P ty defScale dist io fs x) (h : Resumed P x.hnsw c)
    (q : List T) (hN : ∀ p ∈ c.idx.points, (dist.eval q p.data).isNaN = false) (knbn ef : Nat) (ns : List Neighbour)
    (l : Nat) (hl : IsLowest c.idx l) :
    (search P x.hnsw.cfg c.idx q knbn ef = .ok ns → ∀ n ∈ ns, ∀ e ∈ c.idx.nb n.pId l,
      answer dist.eval q e.pt ∈ ns ∨ ∀ m ∈ ns, m.distance.key ≤ (dist.eval q e.pt.data).key) ∧
    ∀ φ, 2 ≤ max ef knbn → searchFilter P x.hnsw.cfg c.idx q knbn ef (some φ) = .ok ns →
      ∀ n ∈ ns, ∀ e ∈ c.idx.nb n.pId l, φ e.pt.origin = true →
        answer dist.eval q e.pt ∈ ns ∨ ∀ m ∈ ns, m.distance.key ≤ (dist.eval q e.pt.data).key := by
  obtain ⟨hnav, -⟩ := h.navig L hx
  rw [← hx.eval] at hN ⊢
  exact ⟨fun hs => nav06_local_optimum_partial L hnav q hN knbn ef ns hs l hl,
    fun φ h2 hs => nav68_filter_local_optimum L hnav q hN knbn ef h2 φ ns hs l hl⟩

/-- **C133** With legal distances a search returns: the number of answers is the smallest of `knbn` and of the number of
points that can be reached, in the searched layer, from the point where the descent ends; the first answer is not farther
than any point of the descent; and if `ef` or `knbn` is at least the number of points, the answers are the nearest of the
points that can be reached. -/
theorem C133_exact (L : P.Lawful) (hx : LoadsOk P ty defScale dist io fs x) (h : Resumed P x.hnsw c)
    (q : List T) (hL : ∀ p ∈ c.idx.points, (dist.eval q p.data).Legal) (knbn ef : Nat) :
    ∃ ns, search P x.hnsw.cfg c.idx q knbn ef = .ok ns ∧
    (∃ (ep pivot : Ref T) (ps : List (Ref T)) (l : Nat),
      c.idx.entry = some ep ∧ Descent dist.eval q c.idx ep.pid.layer ep (ps ++ [pivot]) ∧ IsLowest c.idx l ∧
      ∀ R : List (Ref T), R.Nodup → (∀ p, p ∈ R ↔ Reaches (links c.idx l) pivot p) → ns.length = min knbn R.length) ∧
    (1 ≤ knbn → ∃ (ep : Ref T) (ps : List (Ref T)) (n : Neighbour) (ns' : List Neighbour),
      c.idx.entry = some ep ∧ Descent dist.eval q c.idx ep.pid.layer ep ps ∧ ep ∈ ps ∧ ns = n :: ns' ∧
      ∀ p ∈ ps, n.distance.key ≤ (dist.eval q p.data).key) ∧
    (c.idx.points.length ≤ max ef knbn → ∃ (ep pivot : Ref T) (ps : List (Ref T)) (l : Nat),
      c.idx.entry = some ep ∧ Descent dist.eval q c.idx ep.pid.layer ep (ps ++ [pivot]) ∧ IsLowest c.idx l ∧
      IsKNearest dist.eval q knbn (Reaches (links c.idx l) pivot) ns) := by
  obtain ⟨hnav, hne⟩ := h.navig L hx
  rw [← hx.eval] at hL ⊢
  obtain ⟨ep, pivot, ps, l, ns, h1, h2, h3, h4, h5⟩ := nav67_count L hnav hne q hL knbn ef
  have hN : ∀ p ∈ c.idx.points, (x.hnsw.cfg.eval q p.data).isNaN = false := fun p hp => (hL p hp).1
  exact ⟨ns, h4, ⟨ep, pivot, ps, l, h1, h2, h3, h5⟩,
    fun hk => nav08_not_worse_partial L hnav hne q hN knbn ef hk ns h4,
    fun hef => nav07_exact_partial L hnav hne q hN knbn ef hef ns h4⟩

/-- **C133** (filters) With legal distances, a filter and `2 ≤ max ef knbn`, a search returns; if the filter accepts a point
that can be reached, all answers are accepted and their number is the smallest of `knbn` and of the number of accepted points
that can be reached; if moreover `ef` or `knbn` is at least the number of points, they are the nearest of these points. -/
theorem C133_filter_exact (L : P.Lawful) (hx : LoadsOk P ty defScale dist io fs x) (h : Resumed P x.hnsw c)
    (q : List T) (hL : ∀ p ∈ c.idx.points, (dist.eval q p.data).Legal) (knbn ef : Nat) (h2 : 2 ≤ max ef knbn)
    (φ : DataId → Bool) :
    ∃ ns, searchFilter P x.hnsw.cfg c.idx q knbn ef (some φ) = .ok ns ∧
    ((∀ n ∈ ns, φ n.dId = true) ∨ ∃ (ep pivot : Ref T) (ps : List (Ref T)) (l : Nat),
      c.idx.entry = some ep ∧ Descent dist.eval q c.idx ep.pid.layer ep (ps ++ [pivot]) ∧ IsLowest c.idx l ∧
      ns = [answer dist.eval q pivot] ∧ ∀ p, Reaches (links c.idx l) pivot p → φ p.origin = false) ∧
    (∃ (ep pivot : Ref T) (ps : List (Ref T)) (l : Nat),
      c.idx.entry = some ep ∧ Descent dist.eval q c.idx ep.pid.layer ep (ps ++ [pivot]) ∧ IsLowest c.idx l ∧
      ∀ R : List (Ref T), R.Nodup → (∀ p, p ∈ R ↔ Reaches (links c.idx l) pivot p ∧ φ p.origin = true) → R ≠ [] →
        ns.length = min knbn R.length) ∧
    (c.idx.points.length ≤ max ef knbn → ∃ (ep pivot : Ref T) (ps : List (Ref T)) (l : Nat),
      c.idx.entry = some ep ∧ Descent dist.eval q c.idx ep.pid.layer ep (ps ++ [pivot]) ∧ IsLowest c.idx l ∧
      ((∃ p, Reaches (links c.idx l) pivot p ∧ φ p.origin = true) →
        IsKNearest dist.eval q knbn (fun p => Reaches (links c.idx l) pivot p ∧ φ p.origin = true) ns)) := by
  obtain ⟨hnav, hne⟩ := h.navig L hx
  rw [← hx.eval] at hL ⊢
  obtain ⟨ep, pivot, ps, l, ns, h1, hd, h3, h4, h5⟩ := nav67_filter_count L hnav hne q hL knbn ef h2 φ
  have hN : ∀ p ∈ c.idx.points, (x.hnsw.cfg.eval q p.data).isNaN = false := fun p hp => (hL p hp).1
  refine ⟨ns, h4, ?_, ⟨ep, pivot, ps, l, h1, hd, h3, h5⟩,
    fun hef => nav10_exact_partial L hnav hne q hN knbn ef hef h2 φ ns h4⟩
  rcases nav09_filter_partial L hnav q hN knbn ef (by omega) φ ns h4 with h | ⟨e, p, ps, l, a1, a2, a3, a4, -, a6⟩
  · exact .inl h
  · exact .inr ⟨e, p, ps, l, a1, a2, a3, a4, a6 h2⟩

/-- **C133** (larger requests) With larger `knbn` and `ef` there are at least as many answers, and the answer at each rank is
at most as far, if the points are at different legal distances from the query. -/
theorem C133_larger_ef (L : P.Lawful) (hx : LoadsOk P ty defScale dist io fs x) (h : Resumed P x.hnsw c)
    (q : List T) (hL : ∀ p ∈ c.idx.points, (dist.eval q p.data).Legal)
    (hT : ∀ p ∈ c.idx.points, ∀ p' ∈ c.idx.points, (dist.eval q p.data).key = (dist.eval q p'.data).key → p = p')
    (knbn ef knbn' ef' : Nat) (hk : knbn ≤ knbn') (he : ef ≤ ef') :
    ∃ ns ns', search P x.hnsw.cfg c.idx q knbn ef = .ok ns ∧ search P x.hnsw.cfg c.idx q knbn' ef' = .ok ns' ∧
      ns.length ≤ ns'.length ∧ ∀ (i : Nat) (a b : Neighbour), ns[i]? = some a → ns'[i]? = some b →
        b.distance.key ≤ a.distance.key := by
  obtain ⟨ns, h1, -⟩ := C133_exact L hx h q hL knbn ef
  obtain ⟨ns', h2, -⟩ := C133_exact L hx h q hL knbn' ef'
  obtain ⟨hnav, -⟩ := h.navig L hx
  rw [← hx.eval] at hL hT
  exact ⟨ns, ns', h1, h2, nav91_larger_ef L hnav q hL hT knbn ef knbn' ef' hk he ns ns' h1 h2⟩

/-- **C133** (filters that agree) Only the values of the filter on the ids of the points matter; a filter that accepts all of
them changes nothing, if no distance of the query is a NaN. -/
theorem C133_filter_values_partial (L : P.Lawful) (hx : LoadsOk P ty defScale dist io fs x) (h : Resumed P x.hnsw c)
    (q : List T) (knbn ef : Nat) (φ : DataId → Bool) :
    (∀ ψ : DataId → Bool, (∀ p ∈ c.idx.points, φ p.origin = ψ p.origin) →
      searchFilter P x.hnsw.cfg c.idx q knbn ef (some φ) = searchFilter P x.hnsw.cfg c.idx q knbn ef (some ψ)) ∧
    ((∀ p ∈ c.idx.points, φ p.origin = true) → (∀ p ∈ c.idx.points, (dist.eval q p.data).isNaN = false) →
      searchFilter P x.hnsw.cfg c.idx q knbn ef (some φ) = search P x.hnsw.cfg c.idx q knbn ef) := by
  obtain ⟨hnav, -⟩ := h.navig L hx
  rw [← hx.eval]
  exact ⟨fun ψ hψ => nav92_extensional L hnav φ ψ hψ q knbn ef,
    fun hφ hN => nav92_accept_all_partial L hnav φ hφ q hN knbn ef⟩

/-- **C133** (graphs that lead everywhere) Whatever `ef`: the first answer is a nearest point of the whole index if, in the
searched layer, every point that is not one has a link to a strictly nearer point; all answers are the nearest points if all
pairs of points are linked there. -/
theorem C133_navigable (L : P.Lawful) (hx : LoadsOk P ty defScale dist io fs x) (h : Resumed P x.hnsw c)
    (q : List T) (hL : ∀ p ∈ c.idx.points, (dist.eval q p.data).Legal) (l : Nat) (hl : IsLowest c.idx l) (knbn ef : Nat) :
    ((∀ p ∈ c.idx.points, (∀ b ∈ c.idx.points, (dist.eval q p.data).key ≤ (dist.eval q b.data).key) ∨
        ∃ e ∈ c.idx.nb p.pid l, (dist.eval q e.pt.data).key < (dist.eval q p.data).key) → 1 ≤ knbn →
      ∃ n ns, search P x.hnsw.cfg c.idx q knbn ef = .ok (n :: ns) ∧ ∃ p ∈ c.idx.points, n = answer dist.eval q p ∧
        ∀ b ∈ c.idx.points, n.distance.key ≤ (dist.eval q b.data).key) ∧
    ((∀ a ∈ c.idx.points, ∀ b ∈ c.idx.points, a ≠ b → ∃ e ∈ c.idx.nb a.pid l, e.pt = b) →
      ∃ ns, search P x.hnsw.cfg c.idx q knbn ef = .ok ns ∧ ns.length = min knbn c.idx.points.length ∧
        IsKNearest dist.eval q knbn (· ∈ c.idx.points) ns) := by
  obtain ⟨hnav, hne⟩ := h.navig L hx
  rw [← hx.eval] at hL ⊢
  exact ⟨fun hn hk => nav96_navigable L hnav hne q hL l hl hn knbn ef hk,
    fun hC => nav96_complete L hnav hne q hL l hl hC knbn ef⟩

/-! ## A damaged file -/

theorem u8Dist_legal (a b : List UInt8) : (u8Dist.eval a b).Legal := absDist_legal _ _

/-- what a test finds in the index reloaded from the damaged file (`selfIdx`) -/
theorem self_loads {f : Loaded UInt8 → Bool} (h : selfIdx.any f = true) :
    ∃ x, LoadsOk (listPolicy UInt8) u8Ty exScale u8Dist (HnswIo.new "a" .default) (damaged 137 0) x ∧ f x = true := by
  cases hx : selfIdx with
  | none => rw [hx] at h; cases h
  | some x =>
    rw [hx] at h
    exact ⟨x, loadsOk_toOption hx, h⟩

/-- the ids that a search answers -/
def idsOf (r : Except Panic (List Neighbour)) : Option (List DataId) := r.toOption.map fun ns => ns.map (·.dId)

/-- **C133** The points that cannot be reached are missed, whatever `ef`: in the index reloaded from the damaged file a
search for the four nearest points, with `ef` 10, gives one. -/
theorem C133_whole_refuted : ∃ (fs : Dir) (x : Loaded UInt8) (q : List UInt8) (ns : List Neighbour),
    LoadsOk (listPolicy UInt8) u8Ty exScale u8Dist (HnswIo.new "a" .default) fs x ∧
    (∀ p ∈ x.hnsw.idx.points, (u8Dist.eval q p.data).Legal) ∧ x.hnsw.idx.points.length = 4 ∧
    search (listPolicy UInt8) x.hnsw.cfg x.hnsw.idx q 4 10 = .ok ns ∧ ns.map (·.dId) = [7] := by
  obtain ⟨x, hx, h⟩ := self_loads (f := fun x => x.hnsw.idx.points.length == 4 &&
    idsOf (search (listPolicy UInt8) x.hnsw.cfg x.hnsw.idx [10, 1] 4 10) == some [7]) (by decide +kernel)
  rw [Bool.and_eq_true, beq_iff_eq, beq_iff_eq] at h
  obtain ⟨h1, h2⟩ := h
  cases hs : search (listPolicy UInt8) x.hnsw.cfg x.hnsw.idx [10, 1] 4 10 with
  | error e => rw [hs] at h2; cases h2
  | ok ns =>
    rw [hs] at h2
    exact ⟨_, x, [10, 1], ns, hx, fun _ _ => u8Dist_legal _ _, h1, hs, Option.some.inj h2⟩

/-- The hypotheses are met after an insertion in the index reloaded from the damaged file: all searches are with legal
distances, and those below differ with `knbn`, `ef` and the filter. -/
example : ∃ x, LoadsOk (listPolicy UInt8) u8Ty exScale u8Dist (HnswIo.new "a" .default) (damaged 137 0) x ∧
    Resumed (listPolicy UInt8) x.hnsw (selfNext x) ∧
    (∀ p ∈ (selfNext x).idx.points, (u8Dist.eval [26, 0] p.data).Legal) ∧
    (∀ p ∈ (selfNext x).idx.points, ∀ p' ∈ (selfNext x).idx.points,
      (u8Dist.eval [26, 0] p.data).key = (u8Dist.eval [26, 0] p'.data).key → p = p') ∧
    IsLowest (selfNext x).idx 0 ∧
    idsOf (search (listPolicy UInt8) x.hnsw.cfg (selfNext x).idx [26, 0] 1 1) = some [5] ∧
    idsOf (search (listPolicy UInt8) x.hnsw.cfg (selfNext x).idx [26, 0] 4 10) = some [5, 9, 8, 3] ∧
    idsOf (searchFilter (listPolicy UInt8) x.hnsw.cfg (selfNext x).idx [26, 0] 3 10 (some fun i => i != 9)) =
      some [5, 8, 3] := by
  obtain ⟨x, hx, h⟩ := self_loads (f := fun x => x.hnsw.idx.layers.length == 16 &&
    decide (∀ p ∈ (selfNext x).idx.points, ∀ p' ∈ (selfNext x).idx.points,
      (u8Dist.eval [26, 0] p.data).key = (u8Dist.eval [26, 0] p'.data).key → p = p') &&
    decide ((selfNext x).idx.layer 0 ≠ []) &&
    idsOf (search (listPolicy UInt8) x.hnsw.cfg (selfNext x).idx [26, 0] 1 1) == some [5] &&
    idsOf (search (listPolicy UInt8) x.hnsw.cfg (selfNext x).idx [26, 0] 4 10) == some [5, 9, 8, 3] &&
    idsOf (searchFilter (listPolicy UInt8) x.hnsw.cfg (selfNext x).idx [26, 0] 3 10 (some fun i => i != 9)) ==
      some [5, 8, 3]) (by decide +kernel)
  simp only [Bool.and_eq_true, beq_iff_eq, decide_eq_true_eq] at h
  obtain ⟨⟨⟨⟨⟨h1, h2⟩, h3⟩, h4⟩, h5⟩, h6⟩ := h
  exact ⟨x, hx, (C111_insert_partial (ext := true) (kp := false) listPolicy_lawful hx .start ⟨[11, 1], 3, 0⟩
    (by rw [h1]; decide)).2.1, fun _ _ => u8Dist_legal _ _, h2, ⟨h3, fun l hl => absurd hl (Nat.not_lt_zero l)⟩, h4, h5, h6⟩

/-- The links of that index lead to the point nearest to the query [9, 0]: each other point has a link to a nearer one. -/
example : ∃ x, LoadsOk (listPolicy UInt8) u8Ty exScale u8Dist (HnswIo.new "a" .default) (damaged 137 0) x ∧
    ∀ p ∈ (selfNext x).idx.points,
      (∀ b ∈ (selfNext x).idx.points, (u8Dist.eval [9, 0] p.data).key ≤ (u8Dist.eval [9, 0] b.data).key) ∨
      ∃ e ∈ (selfNext x).idx.nb p.pid 0, (u8Dist.eval [9, 0] e.pt.data).key < (u8Dist.eval [9, 0] p.data).key := by
  obtain ⟨x, hx, h⟩ := self_loads (f := fun x => decide (∀ p ∈ (selfNext x).idx.points,
      (∀ b ∈ (selfNext x).idx.points, (u8Dist.eval [9, 0] p.data).key ≤ (u8Dist.eval [9, 0] b.data).key) ∨
      ∃ e ∈ (selfNext x).idx.nb p.pid 0, (u8Dist.eval [9, 0] e.pt.data).key < (u8Dist.eval [9, 0] p.data).key))
    (by decide +kernel)
  exact ⟨x, hx, of_decide_eq_true h⟩

end Verif
