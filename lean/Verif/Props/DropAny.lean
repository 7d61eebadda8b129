import Verif.AccessLemmas
import Verif.Props.AnyInsert

set_option autoImplicit false

/-!
# C118: dropping an index that was reloaded from any files

The destructor (/repo/src/hnsw.rs 409-445) empties the lists of the points up to the level of the entry point. In an
index built by insertions that is all the points with links (C60). In a reloaded index the entry point is what the
file says.
-/

namespace Verif
variable {T : Type} {P : Policy T} {ty : Ty T} {defScale : Nat → F64} {dist : Dist T} {io : HnswIo} {fs : Dir}
  {x : Loaded T} {c : CSt T}

/-- what the loop of drop does to the lists, exactly -/
theorem dropLayers_nb : ∀ (ls : List Nat) (s s' : Idx T), dropLayers s ls = .ok s' → ls.Nodup →
    ∀ q l, (∀ l' ∈ ls, q ∉ (s.layer l').map (·.pid)) → s'.nb q l = s.nb q l := by
  intro ls
  induction ls with
  | nil => intro s s' h _ q l _; cases h; rfl
  | cons l0 ls ih =>
    intro s s' h hnd q l hq
    rw [List.nodup_cons] at hnd
    unfold dropLayers at h
    cases hl : s.layers[l0]? with
    | none => rw [hl] at h; cases h
    | some v =>
      rw [hl] at h
      have hv : s.layer l0 = v := by unfold Idx.layer; rw [hl]; rfl
      have hq0 := hq l0 (by simp)
      rw [hv] at hq0
      rw [ih _ s' h hnd.2 q l ?_]
      · simp only [foldl_clear, if_neg hq0]
      · intro l' hl'
        have hne : l0 ≠ l' := by rintro rfl; exact hnd.1 hl'
        show q ∉ ((s.layers.set l0 [])[l']?.getD []).map (·.pid)
        rw [List.getElem?_set_ne hne]
        exact hq l' (List.mem_cons_of_mem _ hl')

/-- effect of drop on a table whose points are at their places and contain the entry point -/
theorem dropIdx_exact {s : Idx T} (hids : ∀ l r (p : Ref T), (s.layer l)[r]? = some p → p.pid = ⟨l, r⟩) {e : Ref T}
    (he : s.entry = some e) (hs : e ∈ s.points) :
    ∃ s', dropIdx s = .ok s' ∧ (∀ l, s'.layer l = if l ≤ e.pid.layer then [] else s.layer l) ∧
      (∀ p ∈ s.points, p.pid.layer ≤ e.pid.layer → ∀ l, s'.nb p.pid l = []) ∧
      (∀ p ∈ s.points, e.pid.layer < p.pid.layer → ∀ l, s'.nb p.pid l = s.nb p.pid l) ∧
      (∀ q l, s'.nb q l = [] ∨ s'.nb q l = s.nb q l) := by
  have htab : TableOK s.layers.length s := ⟨rfl, hids⟩
  have hlt : e.pid.layer < s.layers.length := htab.layer_lt hs
  have hd : dropIdx s = dropLayers { s with nb := clearNb e.pid s.nb } (List.range (e.pid.layer + 1)) := by
    unfold dropIdx getMaxLevelObserved
    rw [he]
  obtain ⟨s', h1, h2, h3, h4⟩ := dropLayers_spec (List.range (e.pid.layer + 1))
    { s with nb := clearNb e.pid s.nb } (by
      intro l hl
      have := List.mem_range.1 hl
      show l < s.layers.length
      omega) List.nodup_range
  refine ⟨s', hd ▸ h1, ?_, ?_, ?_, ?_⟩
  · intro l
    rw [h4]
    simp only [List.mem_range, Nat.lt_succ_iff]
    rfl
  · intro p hp hle l
    refine h2 _ _ ⟨p.pid.layer, List.mem_range.2 (by omega), List.mem_map.2 ⟨p, ?_, rfl⟩⟩
    exact (mem_layer_iff htab).2 ⟨hp, rfl⟩
  · intro p hp hgt l
    rw [dropLayers_nb _ _ _ h1 List.nodup_range]
    · show clearNb e.pid s.nb p.pid l = s.nb p.pid l
      unfold clearNb
      rw [if_neg]
      intro h
      rw [h] at hgt
      omega
    · intro l' hl' hm
      obtain ⟨p', hp', hpp⟩ := List.mem_map.1 hm
      have h5 := ((mem_layer_iff htab).1 hp').2
      have := List.mem_range.1 hl'
      have h6 : p.pid.layer = l' := by rw [← hpp]; exact h5
      omega
  · intro q l
    rcases h3 q l with h | h
    · exact Or.inl h
    · rw [h]
      show clearNb e.pid s.nb q l = [] ∨ clearNb e.pid s.nb q l = s.nb q l
      unfold clearNb
      split
      · exact Or.inl rfl
      · exact Or.inr rfl

/-- the point with id `q` has the point with id `q'` in one of its lists, and so keeps it alive -/
def KeepsAlive (s : Idx T) (q q' : PointId) : Prop := ∃ l, ∃ e ∈ s.nb q l, e.pt.pid = q'

/-- **C118** (exact effect, partial: see `C118_refuted`) Whatever the files, dropping the index that `load_hnsw` or
`load_hnsw_with_dist` returned does not panic. It removes all the points up to the level of the entry point that the
file names and all their links; it leaves the points above, and their links. -/
theorem C118_drop_partial (L : P.Lawful) (hx : LoadsOk P ty defScale dist io fs x) :
    ∃ e s', x.hnsw.idx.entry = some e ∧ dropIdx x.hnsw.idx = .ok s' ∧
      (∀ l, s'.layer l = if l ≤ e.pid.layer then [] else x.hnsw.idx.layer l) ∧
      (∀ p ∈ x.hnsw.idx.points, p.pid.layer ≤ e.pid.layer → ∀ l, s'.nb p.pid l = []) ∧
      (∀ p ∈ x.hnsw.idx.points, e.pid.layer < p.pid.layer → ∀ l, s'.nb p.pid l = x.hnsw.idx.nb p.pid l) := by
  obtain ⟨d, b, dm, o, s1, m, s2, hld, -⟩ := hx.parts
  obtain ⟨-, hids, ⟨e, he, hs⟩, -⟩ := loadIndexation_ok L hld
  obtain ⟨s', h1, h2, h3, h4, -⟩ := dropIdx_exact hids he hs
  exact ⟨e, s', he, h1, h2, h3, h4⟩

/-- **C118** (no cycle, partial: the entry point is of the highest level) If no point of the files is above their entry
point, as in the dump of any index built by completed insertions (C19, C62), no link is left. -/
theorem C118_no_link_partial (L : P.Lawful) (hx : LoadsOk P ty defScale dist io fs x)
    (ht : ∀ p ∈ x.hnsw.idx.points, p.pid.layer ≤ getMaxLevelObserved x.hnsw.idx) :
    ∃ s', dropIdx x.hnsw.idx = .ok s' ∧ s'.points = [] ∧ ∀ p l, s'.nb p l = [] := by
  obtain ⟨d, b, dm, o, s1, m, s2, hld, -⟩ := hx.parts
  obtain ⟨-, hids, ⟨e, he, hs⟩, -, -, -, hown, -⟩ := loadIndexation_ok L hld
  obtain ⟨s', h1, h2, h3, -, h5⟩ := dropIdx_exact hids he hs
  simp only [getMaxLevelObserved, he] at ht
  refine ⟨s', h1, ?_, ?_⟩
  · apply List.eq_nil_iff_forall_not_mem.2
    intro o ho
    obtain ⟨l, hl⟩ := stored_iff.1 ho
    rw [h2] at hl
    split at hl
    · cases hl
    · have h7 := ht o (stored_iff.2 ⟨l, hl⟩)
      have h8 := ((mem_layer_iff (m := x.hnsw.idx.layers.length) ⟨rfl, hids⟩).1 hl).2
      omega
  · intro p l
    rcases h5 p l with h | h
    · exact h
    · apply Classical.byContradiction
      intro hne
      obtain ⟨-, q, hq, rfl⟩ := hown p l (h ▸ hne)
      exact hne (h3 q hq (ht q hq) l)

/-- **C118** (what can be left, also after insertions; partial: levels that the reloaded table has) Dropping an index to which
points were added after its reload does not panic either, and a reference cycle that is left goes only through points
above the level of the entry point. -/
theorem C118_cycles_partial (L : P.Lawful) (hx : LoadsOk P ty defScale dist io fs x)
    (h : Resumed P x.hnsw c) :
    ∃ s', dropIdx c.idx = .ok s' ∧
      ∀ q, Relation.TransGen (KeepsAlive s') q q → ∃ p ∈ c.idx.points, p.pid = q ∧ getMaxLevelObserved c.idx < q.layer := by
  obtain ⟨hg, ho, hs, -⟩ := h.good L hx
  obtain ⟨d, b, dm, o, s1, m, s2, hld, -⟩ := hx.parts
  obtain ⟨-, -, ⟨e0, -, he0⟩, -⟩ := loadIndexation_ok L hld
  have hok := hg.inv.okB
  obtain ⟨e, he⟩ := Option.ne_none_iff_exists'.1 (hg.entry (List.ne_nil_of_mem (hs _ he0)))
  obtain ⟨s', h1, h2, h3, h4, h5⟩ := dropIdx_exact hok.tab.ids he (hok.entry e he)
  refine ⟨s', h1, fun q hq => ?_⟩
  have hstep : ∃ q', KeepsAlive s' q q' := by
    clear h2 h3 h4 h5 h1
    suffices hh : ∀ a b, Relation.TransGen (KeepsAlive s') a b → ∃ q', KeepsAlive s' a q' from hh q q hq
    intro a b hab
    induction hab with
    | single h => exact ⟨_, h⟩
    | tail _ _ ih => exact ih
  obtain ⟨q', l, y, hy, -⟩ := hstep
  have hne : s'.nb q l ≠ [] := List.ne_nil_of_mem hy
  obtain ⟨p, hp, rfl⟩ := hok.owner q l (((h5 q l).resolve_left hne) ▸ hne)
  refine ⟨p, hp, rfl, ?_⟩
  simp only [getMaxLevelObserved, he]
  apply Classical.byContradiction
  intro hle
  exact hne (h3 p hp (by omega) l)

/-! ## A file whose entry point is too low -/

/-- the lists of two points lead to each other after the drop of the reload of a damaged dump -/
def leaks (i : Nat) (v : UInt8) (q q' : PointId) (l l' : Nat) : Bool :=
  match ((HnswIo.new "a" .default).loadHnsw (listPolicy UInt8) u8Ty exScale u8Dist (damaged i v)).2 with
  | .ok x =>
    match dropIdx x.hnsw.idx with
    | .ok s => (s.nb q l).any (fun e => e.pt.pid == q') && (s.nb q' l').any (fun e => e.pt.pid == q)
    | .error _ => false
  | .error _ => false

/-- **C118 is false**: in the dump of `io4` the byte 1160 of the graph file is the level, 2, of the entry point. If it is
cleared the reload still accepts the files, and after the drop of the index the points `⟨1, 0⟩` and `⟨2, 0⟩` keep
each other alive: their memory is never freed. -/
theorem C118_refuted : ∃ (x : Loaded UInt8) (s' : Idx UInt8),
    LoadsOk (listPolicy UInt8) u8Ty exScale u8Dist (HnswIo.new "a" .default) (damaged 1160 0) x ∧
    dropIdx x.hnsw.idx = .ok s' ∧ Relation.TransGen (KeepsAlive s') ⟨1, 0⟩ ⟨1, 0⟩ := by
  have hk : leaks 1160 0 ⟨1, 0⟩ ⟨2, 0⟩ 2 2 = true := by decide +kernel
  unfold leaks at hk
  split at hk
  · rename_i x hx
    split at hk
    · rename_i s hs
      rw [Bool.and_eq_true, List.any_eq_true, List.any_eq_true] at hk
      obtain ⟨⟨e, he, h1⟩, e', he', h2⟩ := hk
      exact ⟨x, s, loadsOk_toOption (by rw [hx]; rfl), hs,
        .tail (.single ⟨2, e, he, beq_iff_eq.1 h1⟩) ⟨2, e', he', beq_iff_eq.1 h2⟩⟩
    · cases hk
  · cases hk

/-- the hypotheses of the positive theorems are met by the undamaged dump (byte 1160 is 2 already), which has links -/
example : ∃ x, LoadsOk (listPolicy UInt8) u8Ty exScale u8Dist (HnswIo.new "a" .default) (damaged 1160 2) x ∧
    NumLinks x.hnsw.idx ∧ (∀ p ∈ x.hnsw.idx.points, p.pid.layer ≤ getMaxLevelObserved x.hnsw.idx) ∧
    x.hnsw.idx.points.length = 4 ∧ x.hnsw.idx.nb ⟨1, 0⟩ 2 ≠ [] := by
  have h : ∃ x, ((HnswIo.new "a" .default).loadHnsw (listPolicy UInt8) u8Ty exScale u8Dist
      (damaged 1160 2)).2.toOption = some x := Option.isSome_iff_exists.1 (by decide +kernel)
  obtain ⟨x, hx⟩ := h
  have hL := loadsOk_toOption hx
  have hk : (((HnswIo.new "a" .default).loadHnsw (listPolicy UInt8) u8Ty exScale u8Dist
      (damaged 1160 2)).2.toOption).all (fun x =>
      (x.hnsw.idx.points.all fun p => (List.range 16).all fun l =>
        (x.hnsw.idx.nb p.pid l).all fun e => !e.dist.isNaN) &&
      (x.hnsw.idx.points.all fun p => p.pid.layer ≤ getMaxLevelObserved x.hnsw.idx) &&
      x.hnsw.idx.points.length == 4 && !(x.hnsw.idx.nb ⟨1, 0⟩ 2).isEmpty) = true := by decide +kernel
  rw [hx] at hk
  simp only [Option.all_some, Bool.and_eq_true, beq_iff_eq] at hk
  obtain ⟨⟨⟨h1, h2⟩, h3⟩, h4⟩ := hk
  refine ⟨x, hL, hL.num listPolicy_lawful h1, fun p hp => ?_, h3, ?_⟩
  · exact of_decide_eq_true (List.all_eq_true.1 h2 p hp)
  · intro h; rw [h] at h4; cases h4

end Verif
