import Verif.CapInsert
import Verif.Props.Capacity

set_option autoImplicit false

/-!
# C136: insertions whatever `ef_construction`

`ef_construction` is given at the creation of the index, or read from its files, and is not checked.  `insertCapP` is the
insertion of the model with the reservation of the heaps of `search_layer`.
-/

namespace Verif
variable {T : Type} {P : Policy T} {cfg : Cfg T}

/-- **C136** (partial: `ef_construction < 2^60`) The reservations change nothing: the insertion is the one that the other
theorems are about.  Missing: larger values (`C136_panics`). -/
theorem C136_same_partial (hef : cfg.efC < 2 ^ 60) (fuel : Nat) (item : List T × DataId) (level : Nat) :
    insertCapP P cfg fuel item level = insertP P cfg fuel item level :=
  insertCapP_eq hef fuel item level

example : (exCfg 3).efC < 2 ^ 60 := by decide

/-- **C136** (first point) An insertion in an empty index succeeds whatever `ef_construction`. -/
theorem C136_first (L : P.Lawful) {c : CSt T} (h : ReachC P cfg c) (hc : c.idx.points = []) (fuel : Nat)
    (item : List T × DataId) (level : Nat) (hl : level < cfg.maxLayer) :
    ∃ s, (insertCapP P cfg fuel item level).run c = .ok () s ∧ s.idx.points = [⟨⟨level, 0⟩, item.2, item.1⟩] ∧
      s.idx.entry = some ⟨⟨level, 0⟩, item.2, item.1⟩ := by
  have hg := h.goodC L
  have he : c.idx.entry = none := by
    cases he : c.idx.entry with
    | none => rfl
    | some e =>
      have := hg.inv.okB.entry e he
      unfold Stored at this
      rw [hc] at this
      cases this
  have hlay : level < c.idx.layers.length := by rw [hg.inv.okB.tab.len]; exact hl
  have hemp : c.idx.layer level = [] := by
    cases hq : c.idx.layer level with
    | nil => rfl
    | cons a as =>
      have : Stored c.idx a := stored_iff.2 ⟨level, by rw [hq]; exact List.mem_cons_self⟩
      unfold Stored at this
      rw [hc] at this
      cases this
  have href : newRef item level c.idx = ⟨⟨level, 0⟩, item.2, item.1⟩ := by
    unfold newRef
    rw [hemp]
    rfl
  refine ⟨⟨{ addPoint item level c.idx with nbPoint := c.idx.nbPoint + 1, entry := some (newRef item level c.idx) }, c.held,
    (newRef item level c.idx).pid :: c.pub⟩, ?_, ?_, ?_⟩
  · simp [insertCapP, countCapP, linkCapP, Prog.run, Prog.read, hlay, he, checkEntryP, checkEntry, addPoint]
  · have h1 : (addPoint item level c.idx).points.length = 1 := by
      rw [points_addPoint_length item level c.idx hlay, hc]
      rfl
    have h2 : newRef item level c.idx ∈ (addPoint item level c.idx).points :=
      stored_iff.2 ⟨level, by rw [layer_addPoint item level c.idx hlay, if_pos rfl]; simp⟩
    obtain ⟨a, ha⟩ := List.length_eq_one_iff.1 h1
    rw [ha, List.mem_singleton] at h2
    rw [← href, h2]
    exact ha
  · rw [← href]

/-- a new index, `ef_construction` being `2^60` -/
example : ReachC (listPolicy Nat) (exCfg 3 (2 ^ 60)) (CSt.new (exCfg 3).maxLayer) ∧
    (CSt.new (exCfg 3).maxLayer : CSt Nat).idx.points = [] := ⟨.new, by decide +kernel⟩

/-- for any index whose ids are those of the table -/
theorem stays_of_steps {m : Nat} (hef : 2 ^ 60 ≤ cfg.efC) {c0 : CSt T} (ht : TableOK m c0.idx) (he : c0.idx.entry ≠ none)
    (hn : 1 ≤ c0.idx.nbPoint) {fuel : Nat} {jobs : List (Job T)} {c : CSt T} {ts : List (Prog (CSt T) Unit)}
    (hs : Steps (c0, jobs.map (Job.capProg P cfg fuel)) (c, ts)) :
    (∀ t ∈ ts, t ≠ .ret ()) ∧ c.idx.entry = c0.idx.entry ∧ (∀ l, c0.idx.layer l <+: c.idx.layer l) ∧
    ∀ p ∈ c0.idx.points, ∀ l, c.idx.nb p.pid l = c0.idx.nb p.pid l := by
  have hb := barren_steps (J := Stays c0) hs (Stays.refl hn) fun t ht => by
    obtain ⟨j, -, rfl⟩ := List.mem_map.1 ht
    exact insertCapP_barren hef he _ _ _
  refine ⟨fun t ht h => ?_, hb.1.entry, hb.1.old, fun p hp l => hb.1.nb p.pid ?_ l⟩
  · have := hb.2 t ht
    rw [h] at this
    exact this
  · obtain ⟨l', hl'⟩ := stored_iff.1 hp
    obtain ⟨r, hr, hr'⟩ := List.getElem_of_mem hl'
    rw [ht.ids l' r p (by rw [List.getElem?_eq_getElem hr, hr'])]
    exact hr

/-- **C136** (the code, `ef_construction ≥ 2^60`) When points are inserted in an index that is not empty, in parallel or not, no
insertion returns; the entry point, the old points and their links stay as they are. -/
theorem C136_panics (L : P.Lawful) (hef : 2 ^ 60 ≤ cfg.efC) {c0 : CSt T} (h : ReachC P cfg c0) (hne : c0.idx.points ≠ [])
    {fuel : Nat} {jobs : List (Job T)} {c : CSt T} {ts : List (Prog (CSt T) Unit)}
    (hs : Steps (c0, jobs.map (Job.capProg P cfg fuel)) (c, ts)) :
    (∀ t ∈ ts, t ≠ .ret ()) ∧ c.idx.entry = c0.idx.entry ∧ (∀ l, c0.idx.layer l <+: c.idx.layer l) ∧
    ∀ p ∈ c0.idx.points, ∀ l, c.idx.nb p.pid l = c0.idx.nb p.pid l := by
  have hg := h.goodC L
  refine stays_of_steps hef hg.inv.okB.tab (hg.entry hne) ?_ hs
  rw [hg.count]
  exact List.length_pos_iff.2 hne

/-- **C136** (what is left) An insertion that is alone does not return either, but its point has been counted and is in the
table for ever. -/
theorem C136_stored (L : P.Lawful) (hef : 2 ^ 60 ≤ cfg.efC) {c : CSt T} (h : ReachC P cfg c) (hne : c.idx.points ≠ [])
    (fuel : Nat) (item : List T × DataId) (level : Nat) (hl : level < cfg.maxLayer) :
    (∀ s, (insertCapP P cfg fuel item level).run c ≠ .ok () s) ∧
    ∀ s, ((insertCapP P cfg fuel item level).run c).state = s →
      s.idx.nbPoint = c.idx.nbPoint + 1 ∧ s.idx.points.length = c.idx.points.length + 1 ∧
      s.idx.layer level = c.idx.layer level ++ [⟨⟨level, (c.idx.layer level).length⟩, item.2, item.1⟩] := by
  have hg := h.goodC L
  have hlay : level < c.idx.layers.length := by rw [hg.inv.okB.tab.len]; exact hl
  have hn : 1 ≤ c.idx.nbPoint := by
    rw [hg.count]
    exact List.length_pos_iff.2 hne
  have hB := linkCapP_barren (P := P) (p := newRef item level c.idx) (rank := c.idx.nbPoint + 1)
    (J := fun s => s.idx.layers = (addPoint item level c.idx).layers ∧ s.idx.nbPoint = c.idx.nbPoint + 1 ∧
      s.idx.entry = c.idx.entry) hef fuel (by omega) (fun s hs => by rw [hs.2.2]; exact hg.entry hne)
    (fun s l v hs => hs)
  have hR := barren_run hB (s := { c with idx := { addPoint item level c.idx with nbPoint := c.idx.nbPoint + 1 } })
    ⟨rfl, rfl, rfl⟩
  have hrun : (insertCapP P cfg fuel item level).run c =
      (linkCapP P cfg fuel (newRef item level c.idx) (c.idx.nbPoint + 1)).run
        { c with idx := { addPoint item level c.idx with nbPoint := c.idx.nbPoint + 1 } } := by
    simp only [insertCapP, countCapP, Prog.run, if_true, hlay]
    rfl
  rw [hrun]
  refine ⟨fun s => hR.1 () s, fun s hs => ?_⟩
  rw [hs] at hR
  refine ⟨hR.2.2.1, ?_, ?_⟩
  · have := points_addPoint_length item level c.idx hlay
    unfold Idx.points at this ⊢
    rw [hR.2.1]
    exact this
  · have := layer_addPoint item level c.idx hlay level
    rw [if_pos rfl] at this
    unfold Idx.layer at this ⊢
    rw [hR.2.1]
    exact this

/-- **C136** (consequence) In an index that is given `ef_construction ≥ 2^60`, whatever is inserted after the first point, in
parallel or not, a search answers the first point or nothing. -/
theorem C136_blind (L : P.Lawful) (hef : 2 ^ 60 ≤ cfg.efC) {c0 : CSt T} (h : ReachC P cfg c0) {e : Ref T}
    (hne : c0.idx.points = [e]) {fuel : Nat} {jobs : List (Job T)} {c : CSt T} {ts : List (Prog (CSt T) Unit)}
    (hs : Steps (c0, jobs.map (Job.capProg P cfg fuel)) (c, ts)) (q : List T) (knbn ef : Nat) (filt : Option (DataId → Bool))
    (ns : List Neighbour) (hr : searchFilter P cfg c.idx q knbn ef filt = .ok ns) :
    ns = [] ∨ ns = [⟨e.origin, cfg.eval q e.data, e.pid⟩] := by
  have hg := h.goodC L
  have hok := hg.inv.okB
  obtain ⟨-, h1, -, h2⟩ := C136_panics L hef h (by rw [hne]; simp) hs
  have hent : c0.idx.entry = some e := by
    cases he : c0.idx.entry with
    | none => exact absurd he (hg.entry (by rw [hne]; simp))
    | some e' =>
      have := hok.entry e' he
      unfold Stored at this
      rw [hne, List.mem_singleton] at this
      rw [this]
  refine search_alone L (h1.trans hent) (fun l => ?_) hr
  rw [h2 e (by rw [hne]; simp)]
  cases hq : c0.idx.nb e.pid l with
  | nil => rfl
  | cons a as =>
    have hm : a ∈ c0.idx.nb e.pid l := by rw [hq]; simp
    have h3 := hok.stored _ _ a hm
    unfold Stored at h3
    rw [hne, List.mem_singleton] at h3
    rcases hok.noSelf _ _ a hm with h4 | h4
    · exact absurd (by rw [h3]) h4
    · exact h4.elim

/-- three calls of `insert` one after the other, the panics being caught -/
def capThree (ef : Nat) : List Bool × CSt Nat :=
  [10, 20, 30].foldl (fun x v =>
    match (insertCapP (listPolicy Nat) (exCfg 3 ef) 9 (item v) 0).run x.2 with
    | .ok () s => (x.1 ++ [true], s)
    | .panic _ s => (x.1 ++ [false], s)
    | .blocked s => (x.1 ++ [false], s)) ([], CSt.new (exCfg 3).maxLayer)

/-- **C136** (refuted) With `ef_construction = 2^60`, of three insertions in a new index only the first returns, the index counts
three points, and a search for three neighbours gives one; with 10 all is well. -/
theorem C136_refuted :
    (capThree (2 ^ 60)).1 = [true, false, false] ∧ (capThree (2 ^ 60)).2.idx.nbPoint = 3 ∧
    (capThree (2 ^ 60)).2.idx.points.length = 3 ∧
    idsOf (search (listPolicy Nat) (exCfg 3 (2 ^ 60)) (capThree (2 ^ 60)).2.idx [26] 3 3) = some [10] ∧
    (capThree 10).1 = [true, true, true] ∧
    idsOf (search (listPolicy Nat) (exCfg 3 10) (capThree 10).2.idx [26] 3 3) = some [30, 20, 10] := by
  decide +kernel

/-- the hypotheses of `C136_panics`, `C136_stored` and `C136_blind`: an index of one point with `ef_construction = 2^60` -/
example : ReachC (listPolicy Nat) (exCfg 3 (2 ^ 60)) (exSt (exCfg 3 (2 ^ 60)) [(10, 0)]) ∧
    2 ^ 60 ≤ (exCfg 3 (2 ^ 60)).efC ∧ (exSt (exCfg 3 (2 ^ 60)) [(10, 0)]).idx.points.length = 1 ∧
    ∃ c ts, Steps (exSt (exCfg 3 (2 ^ 60)) [(10, 0)], [⟨[20], 20, 0⟩].map (Job.capProg (listPolicy Nat) (exCfg 3 (2 ^ 60)) 9)) (c, ts) ∧
      c.idx.points.length = 2 :=
  ⟨exSt_reach _ _ (by decide), by decide, by decide +kernel, _, _, .step (.refl _) (.mk 0 (by decide) _ _ _ rfl rfl),
    by decide +kernel⟩

section
variable {ty : Ty T} {defScale : Nat → F64} {dist : Dist T} {io : HnswIo} {fs : Dir} {x : Loaded T} {c0 : CSt T}

/-- **C136** (reloaded) The same in an index reloaded from files that announce `ef_construction ≥ 2^60`. -/
theorem C136_reloaded_panics (L : P.Lawful) (hx : LoadsOk P ty defScale dist io fs x) (h : Resumed P x.hnsw c0)
    (hef : 2 ^ 60 ≤ x.hnsw.cfg.efC) {fuel : Nat} {jobs : List (Job T)} {c : CSt T} {ts : List (Prog (CSt T) Unit)}
    (hs : Steps (c0, jobs.map (Job.capProg P x.hnsw.cfg fuel)) (c, ts)) :
    (∀ t ∈ ts, t ≠ .ret ()) ∧ c.idx.entry = c0.idx.entry ∧ (∀ l, c0.idx.layer l <+: c.idx.layer l) ∧
    ∀ p ∈ c0.idx.points, ∀ l, c.idx.nb p.pid l = c0.idx.nb p.pid l := by
  obtain ⟨hnav, hne⟩ := h.navig L hx
  obtain ⟨hg, -⟩ := h.good L hx
  refine stays_of_steps hef hnav.tab (hnav.start hne) ?_ hs
  rw [hg.count]
  exact List.length_pos_iff.2 hne

/-- One byte of the graph file changed (the most significant one of `ef_construction`): the reload is accepted. -/
example : ∃ x, LoadsOk (listPolicy UInt8) u8Ty exScale u8Dist (HnswIo.new "a" .default) (damaged 22 16) x ∧
    2 ^ 60 ≤ x.hnsw.cfg.efC ∧ Resumed (listPolicy UInt8) x.hnsw (CSt.ofIdx x.hnsw.idx) := by
  have h : (((HnswIo.new "a" .default).loadHnsw (listPolicy UInt8) u8Ty exScale u8Dist (damaged 22 16)).2.toOption.any
    fun x => decide (2 ^ 60 ≤ x.hnsw.cfg.efC)) = true := by decide +kernel
  cases hx : ((HnswIo.new "a" .default).loadHnsw (listPolicy UInt8) u8Ty exScale u8Dist (damaged 22 16)).2.toOption with
  | none => rw [hx] at h; cases h
  | some x =>
    rw [hx] at h
    exact ⟨x, loadsOk_toOption hx, of_decide_eq_true h, .start⟩

end

end Verif
