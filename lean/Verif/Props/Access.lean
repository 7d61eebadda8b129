import Verif.AccessLemmas
import Verif.Props.Insert
import Verif.Props.Concurrent

set_option autoImplicit false

/-!
# Properties of the accessors, of the iterators and of drop (C34 - C37, C60)

`iterCalls s n none` are the results of the first `n` calls of `next` on `into_iter()`.
-/

namespace Verif
variable {T : Type} {P : Policy T} {cfg : Cfg T}

/-- general form of C34: for any index whose entry point is on the highest populated layer (see
`C19_entry_top` and `C31_entry_top_partial`) -/
theorem C34_iter_top (L : P.Lawful) {s : Idx T} (h : Reach P cfg s) (ht : TopEntry s) :
    iterCalls s (s.points.length + 1) none = .ok (s.points.map some ++ [none]) := by
  have hok := (h.good L).ok.tab
  have h0 : 0 < s.layers.length := by
    obtain ⟨e, he, hs, -⟩ := ht
    rw [hok.len]
    exact Nat.lt_of_le_of_lt (Nat.zero_le _) (hok.layer_lt hs)
  refine iterCalls_spec hok ht s.points none 0 0 rfl h0 ?_
  unfold remaining Idx.points Idx.layer
  revert h0
  cases s.layers with
  | nil => intro h0; simp at h0
  | cons a as => intro _; simp

/-- **C34** After a non-empty sequence of completed insertions, the iterator yields every stored point
exactly once, by increasing layer then rank, then `None`. -/
theorem C34_iterates_all (L : P.Lawful) {jobs : List (Job T)} {c : CSt T}
    (h : SeqReach P cfg jobs c) (hne : jobs ≠ []) :
    ∃ ps : List (Ref T), iterCalls c.idx (ps.length + 1) none = .ok (ps.map some ++ [none]) ∧
      ps.Nodup ∧ (∀ p, p ∈ ps ↔ p ∈ c.idx.points) ∧ ps.length = jobs.length ∧
      ps.Pairwise (fun p q => p.pid.layer < q.pid.layer ∨
        (p.pid.layer = q.pid.layer ∧ p.pid.rank < q.pid.rank)) := by
  have hr := h.reachC L
  have hG := hr.goodC L
  have hok := hG.inv.ok.tab
  obtain ⟨refs, h1, -, h3, -, -⟩ := h.hist.refs L
  refine ⟨c.idx.points, C34_iter_top L ⟨c, hr, rfl⟩ (seqReach_topEntry L h hne), points_nodup hok,
    fun _ => Iff.rfl, by rw [h3.length_eq, h1], ?_⟩
  unfold Idx.points
  rw [List.pairwise_flatten]
  constructor
  · intro v hv
    obtain ⟨i, hi, rfl⟩ := List.getElem_of_mem hv
    rw [List.pairwise_iff_getElem]
    intro a b ha hb hab
    right
    have e1 := hok.ids i a (c.idx.layers[i][a]) (by
      simp [Idx.layer, List.getElem?_eq_getElem hi, List.getElem?_eq_getElem ha])
    have e2 := hok.ids i b (c.idx.layers[i][b]) (by
      simp [Idx.layer, List.getElem?_eq_getElem hi, List.getElem?_eq_getElem hb])
    rw [e1, e2]
    exact ⟨rfl, hab⟩
  · rw [List.pairwise_iff_getElem]
    intro i j hi hj hij x hx y hy
    left
    obtain ⟨a, ha, rfl⟩ := List.getElem_of_mem hx
    obtain ⟨b, hb, rfl⟩ := List.getElem_of_mem hy
    have e1 := hok.ids i a (c.idx.layers[i][a]) (by
      simp [Idx.layer, List.getElem?_eq_getElem hi, List.getElem?_eq_getElem ha])
    have e2 := hok.ids j b (c.idx.layers[j][b]) (by
      simp [Idx.layer, List.getElem?_eq_getElem hj, List.getElem?_eq_getElem hb])
    rw [e1, e2]
    exact hij

/-- the vectors yielded -/
def yielded (x : Except Panic (List (Option (Ref Nat)))) : Option (List (Option (List Nat))) :=
  match x with
  | .ok os => some (os.map (·.map (·.data)))
  | .error _ => none

example : yielded (iterCalls (exHist (exCfg 3) exJobs).idx 6 none) =
    some [some [10], some [30], some [10], some [20], some [25], none] := by decide +kernel

/-- points of levels 0, 2 and 5 only: empty layers are skipped -/
example : yielded (iterCalls (exIdx (exCfg 3) [(1, 5), (2, 2), (3, 0)]) 4 none) =
    some [some [3], some [2], some [1], none] := by decide +kernel

/-- the iterator can miss points after concurrent insertions in an empty index (the execution of
`C31_refuted`): both insertions return, there are two points, the iterator yields one -/
theorem C34_concurrent_refuted : ∃ (jobs : List (Job Nat)) (c : CSt Nat) (ts : List (Prog (CSt Nat) Unit)),
    Exec (listPolicy Nat) (exCfg 3) (CSt.new 16) jobs c ts ∧ (∀ t ∈ ts, isRet t = true) ∧
      c.idx.points.length = 2 ∧ yielded (iterCalls c.idx 2 none) = some [some [21], none] := by
  have h : exHolds (CSt.new 16) [⟨[20], 20, 1⟩, ⟨[21], 21, 0⟩] [0, 0, 1, 1, 1, 1, 0]
      (fun c ts => ts.all isRet && c.idx.points.length == 2 &&
        yielded (iterCalls c.idx 2 none) == some [some [21], none]) = true := by decide +kernel
  obtain ⟨c, ts, h1, h2⟩ := exHolds_exec h
  simp only [Bool.and_eq_true, List.all_eq_true, beq_iff_eq] at h2
  exact ⟨_, c, ts, h1, h2.1.1, h2.1.2, h2.2⟩

/-- **C35 is false**: `next` panics on an empty index (no entry point), and panics when called again
after the end: 5 points up to level 2, then 14 times `None`, then a panic. -/
theorem C35_refuted :
    (∃ s : Idx Nat, Reach (listPolicy Nat) (exCfg 3) s ∧ iterCalls s 1 none = .error .unwrapNone) ∧
    (∃ s : Idx Nat, Reach (listPolicy Nat) (exCfg 3) s ∧ TopEntry s ∧
      iterCalls s 20 none = .error .index) := by
  refine ⟨⟨Idx.new 16, ⟨_, .new, rfl⟩, rfl⟩, (exHist (exCfg 3) exJobs).idx,
    ⟨_, exHist_ok.reachC listPolicy_lawful, rfl⟩,
    seqReach_topEntry listPolicy_lawful exHist_ok (by decide), ?_⟩
  have : (match iterCalls (exHist (exCfg 3) exJobs).idx 20 none with
    | .error .index => true
    | _ => false) = true := by decide +kernel
  split at this
  · assumption
  · cases this

/-- **C35** What exactly happens: on an index whose entry point, of level `e.pid.layer`, is on the highest
populated layer, the first calls give the points, the next ones `None` as many times as there are layers from the
one of the entry point on (`max_layer - level`), and every later call panics. -/
theorem C35_exact_partial (L : P.Lawful) {s : Idx T} (h : Reach P cfg s) {e : Ref T} (he : s.entry = some e)
    (htop : ∀ p ∈ s.points, p.pid.layer ≤ e.pid.layer) (k : Nat) :
    iterCalls s (s.points.length + k) none =
      if k ≤ cfg.maxLayer - e.pid.layer then .ok (s.points.map some ++ List.replicate k none)
      else .error .index := by
  have hok := (h.good L).ok.tab
  have hes : Stored s e := (h.good L).ok.entry e he
  refine iterCalls_all hok he hes htop k s.points none 0 0 rfl (Nat.zero_le _) ?_
  have h0 : 0 < s.layers.length := by
    rw [hok.len]
    exact Nat.lt_of_le_of_lt (Nat.zero_le _) (hok.layer_lt hes)
  unfold remaining Idx.points Idx.layer
  revert h0
  cases s.layers with
  | nil => intro h0; simp at h0
  | cons a as => intro _; simp

/-- 5 points up to level 2 in 16 layers: 14 times `None`, and the next call panics -/
example : yielded (iterCalls (exHist (exCfg 3) exJobs).idx 19 none) =
      some ((exHist (exCfg 3) exJobs).idx.points.map (fun p => some p.data) ++ List.replicate 14 none) ∧
    yielded (iterCalls (exHist (exCfg 3) exJobs).idx 20 none) = none := by decide +kernel

/-- **C35** (partial: index with a top entry point, and no call after the first `None`). -/
theorem C35_no_panic_partial (L : P.Lawful) {s : Idx T} (h : Reach P cfg s) (ht : TopEntry s)
    (n : Nat) (hn : n ≤ s.points.length + 1) :
    ∃ os, iterCalls s n none = .ok os := by
  obtain ⟨k, hk⟩ := Nat.exists_eq_add_of_le hn
  have := C34_iter_top L h ht
  rw [hk] at this
  exact ⟨_, iterCalls_prefix n k none _ this⟩

/-- **C36** The layer iterator yields exactly the points of the layer in rank order then `None` for
ever; `get_layer_nb_point` is the number of these points, 0 for a bad layer number. -/
theorem C36_layer_iter (L : P.Lawful) {s : Idx T} (h : Reach P cfg s) (l : Nat) :
    (l < cfg.maxLayer →
      (∀ n, layerIterCalls s l n 0 = .ok ((List.range n).map fun r => (s.layer l)[r]?)) ∧
      (∀ p, p ∈ s.layer l ↔ p ∈ s.points ∧ p.pid.layer = l) ∧
      (∀ (r : Nat) (p : Ref T), (s.layer l)[r]? = some p → p.pid.rank = r) ∧
      getLayerNbPoint s l = (s.points.filter fun p => p.pid.layer = l).length) ∧
    (cfg.maxLayer ≤ l → getLayerNbPoint s l = 0) := by
  have hok := (h.good L).ok.tab
  constructor
  · intro hl
    refine ⟨?_, ?_, ?_, ?_⟩
    · intro n
      obtain ⟨os, h1, h2⟩ := layerIterCalls_spec (s := s) (l := l) (by rw [hok.len]; exact hl) n 0
        (Nat.zero_le _)
      rw [h1, h2]
      simp
    · intro p; exact mem_layer_iff hok
    · intro r p hr; rw [hok.ids l r p hr]
    · rw [getLayerNbPoint_eq, ← (filter_points_perm hok l).length_eq]
  · intro hl
    unfold getLayerNbPoint
    rw [dif_neg (by rw [hok.len]; omega)]

example : yielded (layerIterCalls (exHist (exCfg 3) exJobs).idx 0 5 0) =
    some [some [10], some [30], some [10], none, none] := by decide +kernel

/-- general form of C37 -/
theorem C37_point_data_top (L : P.Lawful) {s : Idx T} (h : Reach P cfg s) (ht : TopEntry s) (l : Nat)
    (r : Int) (v : List T) :
    getPointData s l r = some v ↔
      0 ≤ r ∧ ∃ p ∈ s.points, p.pid = ⟨l, r.toNat⟩ ∧ p.data = v := by
  have hok := (h.good L).ok.tab
  obtain ⟨e, he, hes, htop⟩ := ht
  have hm : getMaxLevelObserved s = e.pid.layer := by simp [getMaxLevelObserved, he]
  unfold getPointData
  by_cases hr : r < 0
  · rw [if_pos hr]
    constructor
    · intro h; cases h
    · rintro ⟨h0, -⟩; omega
  · rw [if_neg hr]
    constructor
    · intro hx
      split at hx
      · rw [Option.map_eq_some_iff] at hx
        obtain ⟨p, hp, rfl⟩ := hx
        exact ⟨by omega, p, stored_iff.2 ⟨l, List.mem_of_getElem? hp⟩, hok.ids _ _ p hp, rfl⟩
      · cases hx
    · rintro ⟨h0, p, hp, hpid, rfl⟩
      have h1 := hok.stored_iff.1 hp
      rw [hpid] at h1
      have h2 := htop p hp
      rw [hpid] at h2
      rw [if_pos, h1]
      · rfl
      · refine ⟨by rw [hm]; exact h2, ?_⟩
        rw [getLayerNbPoint_eq]
        exact (List.getElem?_eq_some_iff.1 h1).1

/-- **C37** After a sequence of completed insertions, `get_point_data` returns the vector of the point
with the given id, and `None` if there is none, negative ranks included. -/
theorem C37_point_data (L : P.Lawful) {jobs : List (Job T)} {c : CSt T}
    (h : SeqReach P cfg jobs c) (l : Nat) (r : Int) (v : List T) :
    getPointData c.idx l r = some v ↔
      0 ≤ r ∧ ∃ p ∈ c.idx.points, p.pid = ⟨l, r.toNat⟩ ∧ p.data = v := by
  have hr := h.reachC L
  by_cases hne : jobs = []
  · subst hne
    have hc := seqReach_nil L h rfl
    · subst hc
      have h0 : ∀ l, getLayerNbPoint (CSt.new cfg.maxLayer : CSt T).idx l = 0 := by
        intro l
        rw [getLayerNbPoint_eq]
        simp [CSt.new, Idx.new, Idx.layer, List.getElem?_replicate]
        split <;> rfl
      unfold getPointData
      constructor
      · intro hx
        split at hx
        · cases hx
        · rw [if_neg (by rw [h0]; omega)] at hx; cases hx
      · rintro ⟨-, p, hp, -⟩
        simp [CSt.new, Idx.new, Idx.points] at hp
  · exact C37_point_data_top L ⟨c, hr, rfl⟩ (seqReach_topEntry L h hne) l r v

/-- general form of C37, for `get_point` -/
theorem C37_point_top (L : P.Lawful) {s : Idx T} (h : Reach P cfg s) (ht : TopEntry s) (l : Nat)
    (r : Int) (x : Ref T) :
    getPoint s l r = some x ↔
      0 ≤ r ∧ x ∈ s.points ∧ x.pid = ⟨l, r.toNat⟩ := by
  have hok := (h.good L).ok.tab
  obtain ⟨e, he, hes, htop⟩ := ht
  have hm : getMaxLevelObserved s = e.pid.layer := by simp [getMaxLevelObserved, he]
  unfold getPoint
  by_cases hr : r < 0
  · rw [if_pos hr]
    constructor
    · intro h; cases h
    · rintro ⟨h0, -⟩; omega
  · rw [if_neg hr]
    constructor
    · intro hx
      split at hx
      · exact ⟨by omega, stored_iff.2 ⟨l, List.mem_of_getElem? hx⟩, hok.ids _ _ x hx⟩
      · cases hx
    · rintro ⟨h0, hp, hpid⟩
      have h1 := hok.stored_iff.1 hp
      rw [hpid] at h1
      have h2 := htop x hp
      rw [hpid] at h2
      rw [if_pos, h1]
      · refine ⟨by rw [hm]; exact h2, ?_⟩
        rw [getLayerNbPoint_eq]
        exact (List.getElem?_eq_some_iff.1 h1).1

/-- **C37** After a sequence of completed insertions, `get_point` returns the point
with the given id, and `None` if there is none, negative ranks included. -/
theorem C37_point (L : P.Lawful) {jobs : List (Job T)} {c : CSt T}
    (h : SeqReach P cfg jobs c) (l : Nat) (r : Int) (x : Ref T) :
    getPoint c.idx l r = some x ↔
      0 ≤ r ∧ x ∈ c.idx.points ∧ x.pid = ⟨l, r.toNat⟩ := by
  have hr := h.reachC L
  by_cases hne : jobs = []
  · subst hne
    have hc := seqReach_nil L h rfl
    · subst hc
      have h0 : ∀ l, getLayerNbPoint (CSt.new cfg.maxLayer : CSt T).idx l = 0 := by
        intro l
        rw [getLayerNbPoint_eq]
        simp [CSt.new, Idx.new, Idx.layer, List.getElem?_replicate]
        split <;> rfl
      unfold getPoint
      constructor
      · intro hx
        split at hx
        · cases hx
        · rw [if_neg (by rw [h0]; omega)] at hx; cases hx
      · rintro ⟨-, hp, -⟩
        simp [CSt.new, Idx.new, Idx.points] at hp
  · exact C37_point_top L ⟨c, hr, rfl⟩ (seqReach_topEntry L h hne) l r x

/-- and every inserted vector can be read back: the point of rank `r` in layer `l` is the `r`-th
insertion of level `l` -/
theorem C37_inserted (L : P.Lawful) {jobs : List (Job T)} {c : CSt T}
    (h : SeqReach P cfg jobs c) (l r : Nat) (j : Job T)
    (hj : (jobs.filter (fun j => j.level = l))[r]? = some j) :
    getPointData c.idx l r = some j.data := by
  have h1 := C16_holds_inserted L h.hist l
  have h2 := congrArg (fun x => x[r]?) h1
  simp only [List.getElem?_map, hj, Option.map_some] at h2
  rw [Option.map_eq_some_iff] at h2
  obtain ⟨p, hp, hpd⟩ := h2
  have hok := ((h.reachC L).goodC L).inv.ok.tab
  rw [C37_point_data L h]
  refine ⟨by omega, p, stored_iff.2 ⟨l, List.mem_of_getElem? hp⟩, ?_, congrArg Prod.fst hpd⟩
  rw [hok.ids l r p hp]
  simp

example : getPointData (exHist (exCfg 3) exJobs).idx 0 1 = some [30] ∧
    getPointData (exHist (exCfg 3) exJobs).idx 0 3 = none ∧
    getPointData (exHist (exCfg 3) exJobs).idx 9 0 = none ∧
    getPointData (exHist (exCfg 3) exJobs).idx 0 (-1) = none := by decide +kernel

/-- a distance that is NaN between `[666]` and `[20]` -/
def badPair (a b : List Nat) : F32 :=
  if (a = [666] ∧ b = [20]) ∨ (a = [20] ∧ b = [666]) then ⟨false, Fin.ofNat _ 0x7fc00000⟩
  else absDist a b

/-- the number of points of the index, and the total length of the lists of its points in layers
below 16, after drop -/
def afterDrop (o : Outcome (CSt Nat) Unit) : Option (Nat × Nat) :=
  match o with
  | .panic _ c =>
    match dropIdx c.idx with
    | .ok s => some (s.points.length,
        (s.points.map fun p => ((List.range 16).map fun l => (s.nb p.pid l).length).sum).sum)
    | .error _ => none
  | _ => none

/-- **C60 is false**: (1) after an insertion that panicked, its point may keep links after drop: here
the insertion at level 5 of a point that has an illegal distance to one of the two points of the
index; (2) drop panics for an index without layers. -/
theorem C60_refuted :
    afterDrop (insert (listPolicy Nat) { exCfg 3 with eval := badPair }
      (exSt { exCfg 3 with eval := badPair } [(10, 0), (20, 0)]) (item 666) 5) = some (1, 1) ∧
    dropIdx (Idx.new 0 : Idx Nat) = .error .index :=
  ⟨by decide +kernel, rfl⟩

/-- **C60** (partial: no insertion has panicked). Dropping an index removes every link, whatever the
insertions and their interleaving. -/
theorem C60_drop_partial (L : P.Lawful) {c : CSt T} (h : ReachRet P cfg c) (hm : 0 < cfg.maxLayer) :
    ∃ s', dropIdx c.idx = .ok s' ∧ ∀ p l, s'.nb p l = [] := by
  have hG := h.reachC.goodC L
  obtain ⟨s', h1, h2, h3, -⟩ := dropIdx_spec hG.inv.ok hm
  refine ⟨s', h1, ?_⟩
  intro p l
  rcases h2 p l with h4 | h4
  · exact h4
  · apply Classical.byContradiction
    intro hne
    obtain ⟨o, ho, rfl⟩ := hG.inv.ok.owner p l (h4 ▸ hne)
    rcases h.unlinked L o ho with ⟨e, he, hle⟩ | ⟨-, h5⟩
    · exact hne (h3 o e ho he hle l)
    · exact hne (h4.trans (h5 l))

/-- **C60**, consequence that matters: in every history, even with panics, no reference cycle is left;
a point that still has links only has links to points without links. -/
theorem C60_no_cycle_partial (L : P.Lawful) {s : Idx T} (h : Reach P cfg s) (hm : 0 < cfg.maxLayer) :
    ∃ s', dropIdx s = .ok s' ∧ ∀ p l, ∀ e ∈ s'.nb p l, ∀ l', s'.nb e.pt.pid l' = [] := by
  obtain ⟨c, hc, rfl⟩ := h
  have hG := hc.goodC L
  obtain ⟨s', h1, h2, h3, -⟩ := dropIdx_spec hG.inv.ok hm
  refine ⟨s', h1, ?_⟩
  intro p l e he l'
  rcases h2 p l with h4 | h4
  · rw [h4] at he; cases he
  · rw [h4] at he
    have hs := hG.inv.ok.stored p l e he
    obtain ⟨e', he', hle⟩ := (hG.pubTop _ hs (hG.inv.pubLink p l e he)).resolve_right
      (fun h => h.elim id fun ⟨_, _, h⟩ => h)
    exact h3 _ e' hs he' hle l'

/-- **C60**, sequential histories: every point and every link is removed. -/
theorem C60_drop_empties (L : P.Lawful) {jobs : List (Job T)} {c : CSt T}
    (h : SeqReach P cfg jobs c) (hne : jobs ≠ []) :
    ∃ s', dropIdx c.idx = .ok s' ∧ s'.points = [] ∧ ∀ p l, s'.nb p l = [] := by
  have hG := (h.reachC L).goodC L
  obtain ⟨e, he, hes, htop⟩ := seqReach_topEntry L h hne
  have hm : 0 < cfg.maxLayer := Nat.lt_of_le_of_lt (Nat.zero_le _) (hG.inv.ok.tab.layer_lt hes)
  obtain ⟨s', h1, h2, h3, h4⟩ := dropIdx_spec hG.inv.ok hm
  refine ⟨s', h1, ?_, ?_⟩
  · apply List.eq_nil_iff_forall_not_mem.2
    intro o ho
    have h5 := h4 o ho
    have h6 := h5.2 e he
    have h7 := htop o h5.1
    omega
  · intro p l
    rcases h2 p l with h5 | h5
    · exact h5
    · apply Classical.byContradiction
      intro hn
      obtain ⟨o, ho, rfl⟩ := hG.inv.ok.owner p l (h5 ▸ hn)
      exact hn (h3 o e ho he (htop o ho) l)

/-- points above a too low entry point (the execution of `C31_refuted`) stay in their layer -/
example : exHolds (CSt.new 16) [⟨[20], 20, 1⟩, ⟨[21], 21, 0⟩] [0, 0, 1, 1, 1, 1, 0]
      (fun c ts => ts.all isRet && (match dropIdx c.idx with
        | .ok s => s.points.map (·.data) == [[20]] && (s.nb ⟨1, 0⟩ 0).isEmpty
        | .error _ => false)) = true := by decide +kernel

/-- the example index has links before, none after -/
example : (ex4.nb ⟨0, 0⟩ 0).length = 2 ∧ (match dropIdx ex4 with
    | .ok s => s.points.length == 0 && (s.nb ⟨0, 0⟩ 0).isEmpty
    | .error _ => false) = true := by decide +kernel

end Verif
