import Verif.Props.AnyInsert
import Verif.Props.InsertCost
import Verif.Props.Cost
import Verif.Props.Sections
import Verif.Props.NaN

set_option autoImplicit false

/-!
# C132: the work of searches and insertions in an index that was reloaded from any files

`Resumed P x.hnsw c` (Verif/Inherit.lean): `c` is reached from the reloaded index `x.hnsw` by any number of batches of
concurrent insertions at levels that the reloaded table has. Lists of links of the files may be of any length and name a
point several times.
-/

namespace Verif
variable {T : Type} {P : Policy T} {ty : Ty T} {defScale : Nat → F64} {dist : Dist T} {io : HnswIo} {fs : Dir}
  {x : Loaded T} {c0 c : CSt T} {ext kp : Bool} {jobs : List (Job T)}

/-- the uses in the descent: one list per layer, one distance per link -/
theorem descendW_sum {eval : List T → List T → F32} {q : List T} {s : Idx T}
    (hst : ∀ p l, ∀ e ∈ s.nb p l, Stored s e.pt) : ∀ (l : Nat) (x : Ref T × F32),
    (dists (descendW eval q s l x).log).length =
      ((reads (descendW eval q s l x).log).map fun y => (s.nb y.1 y.2).length).sum ∧
    (reads (descendW eval q s l x).log).map (·.2) = (List.range l).reverse.map (· + 1) ∧
    accepts (descendW eval q s l x).log = [] ∧
    ∀ p ∈ dists (descendW eval q s l x).log, Stored s p
  | 0, x => by simp [descendW, dists, reads, accepts]
  | l + 1, x => by
    obtain ⟨h1, h2, h3, h4⟩ := descendW_sum (eval := eval) (q := q) hst l (scanPivot eval q (s.nb x.1.pid (l + 1)) x)
    unfold descendW
    simp only [Work.bind_log, readW, scanPivotW_log, scanPivotW_res, List.cons_append, List.nil_append,
      dists, reads, accepts, dists_append, reads_append, accepts_append, dists_map_dist, reads_map_dist,
      accepts_map_dist, List.length_append, List.length_map, List.map_cons, List.sum_cons, h1, h2, h3]
    refine ⟨trivial, ?_, trivial, ?_⟩
    · rw [List.range_succ]; simp
    · intro p hp
      rcases List.mem_append.1 hp with hp | hp
      · obtain ⟨e, he, rfl⟩ := List.mem_map.1 hp
        exact hst _ _ e he
      · exact h4 p hp

/-- **C132** (search) A search in an index reloaded from whatever files, also after further insertions, and even if it panics,
has two parts. In the descent it reads one list in each layer from that of the entry point down to layer 1, and computes
exactly one distance for the entry point and one for each link of these lists. In the lowest layer it computes no distance
twice, and only those of points that can be reached, however often the files name a point; it reads at most one list, and
calls the filter at most twice, for each of them. -/
theorem C132_search_partial (L : P.Lawful) (hx : LoadsOk P ty defScale dist io fs x) (h : Resumed P x.hnsw c)
    (q : List T) (knbn ef : Nat) (filt : Option (DataId → Bool)) :
    ∃ ep up low start l, c.idx.entry = some ep ∧ (searchFilterW P x.hnsw.cfg c.idx q knbn ef filt).log = up ++ low ∧
      (reads up).map (·.2) = ((List.range ep.pid.layer).map (· + 1)).reverse ∧
      (dists up).length = 1 + ((reads up).map fun y => (c.idx.nb y.1 y.2).length).sum ∧
      (∀ p ∈ dists up, p ∈ c.idx.points) ∧ accepts up = [] ∧
      IsLowest c.idx l ∧ (dists low).head? = some start ∧ ((dists low).map (·.pid)).Nodup ∧
      (∀ p ∈ dists low, p ∈ c.idx.points ∧ Reaches (links c.idx l) start p) ∧
      (dists low).length ≤ c.idx.points.length ∧ (reads low).length ≤ (dists low).length ∧
      (accepts low).length ≤ 2 * ((dists low).length - 1) ∧ (filt = none → accepts low = []) := by
  obtain ⟨hg, ho, hs, -⟩ := h.good L hx
  have hok := hg.inv.okB
  obtain ⟨d, b, dm, o, s1, m, s2, hld, -⟩ := hx.parts
  obtain ⟨-, -, ⟨e0, -, he0⟩, -⟩ := loadIndexation_ok L hld
  have hne : c.idx.points ≠ [] := List.ne_nil_of_mem (hs _ he0)
  obtain ⟨ep, he⟩ := Option.ne_none_iff_exists'.1 (hg.entry hne)
  have hst : Stored c.idx ep := hok.entry ep he
  have hnav : Navig c.idx := ⟨⟨rfl, hok.tab.ids⟩, hok.stored, hok.entry, hg.entry⟩
  obtain ⟨l, hl, hl'⟩ := lowestLayer_some hne
  obtain ⟨h1, h2, h3, h4⟩ := descendW_sum (eval := x.hnsw.cfg.eval) (q := q) (s := c.idx)
    hok.stored ep.pid.layer (ep, x.hnsw.cfg.eval q ep.data)
  obtain ⟨a1, a2, a3, a4, a5⟩ := bottomW_log (q := q) (filt := filt) (cfg := x.hnsw.cfg) L hnav knbn ef
    (descend_stored (cfg := x.hnsw.cfg) (q := q) hnav ep.pid.layer ep hst) hl
  refine ⟨ep, Use.dist ep :: (descendW x.hnsw.cfg.eval q c.idx ep.pid.layer (ep, x.hnsw.cfg.eval q ep.data)).log,
    (bottomW P x.hnsw.cfg c.idx q knbn ef filt
      (descend x.hnsw.cfg.eval q c.idx ep.pid.layer (ep, x.hnsw.cfg.eval q ep.data)).1).log,
    _, l, he, ?_, ?_, ?_, ?_, ?_, hl', a1, a2, a3, hnav.tab.count (fun y hy => (a3 y hy).1) a2, a4, ?_, ?_⟩
  · unfold searchFilterW
    rw [he]
    simp only [Work.bind_log, evalW, descendW_res, List.cons_append, List.nil_append]
  · show (reads (descendW x.hnsw.cfg.eval q c.idx ep.pid.layer (ep, x.hnsw.cfg.eval q ep.data)).log).map (·.2) = _
    rw [h2, List.map_reverse]
  · simp only [dists, reads, List.length_cons, h1]; omega
  · intro p hp
    rcases List.mem_cons.1 hp with rfl | hp
    · exact hst
    · exact h4 p hp
  · exact h3
  · cases filt with
    | none => simp only [Option.isSome_none, Bool.false_eq_true, if_false, Nat.zero_mul] at a5; omega
    | some φ => simpa using a5
  · rintro rfl
    simp only [Option.isSome_none, Bool.false_eq_true, if_false, Nat.zero_mul] at a5
    exact List.eq_nil_of_length_eq_zero (by omega)

set_option smartUnfolding false in
theorem insertN_layersOf (P : Policy T) (cfg : Cfg T) (s : Idx T) :
    insertN P (cfg.layersOf s) = insertN P cfg := by
  with_unfolding_all rfl

/-- **C132** (insertion; partial: levels that the reloaded table has, see `C111_levels_refuted`) Insertions in an index
reloaded from whatever files, one thread each, under any schedule: an insertion that has returned has computed at most the
number of distances of `C123_work`, however long the lists of the files are. (`n` is the number of points stored before and
in the batch, the number of layers is that of the files.) -/
theorem C132_insert_partial (L : P.Lawful) (hx : LoadsOk P ty defScale dist io fs x) (h : Resumed P x.hnsw c0)
    (hl : ∀ j ∈ jobs, j.level < x.hnsw.idx.layers.length) {ts : List (Prog (CSt T) (Unit × Nat))}
    (he : Steps (c0, jobs.map (Job.progN P (x.hnsw.cfg.withFlags ext kp) (c0.idx.points.length + jobs.length + 2))) (c, ts))
    {k : Nat} (hk : .ret ((), k) ∈ ts) :
    k ≤ 1 + x.hnsw.idx.layers.length * ((c0.idx.points.length + jobs.length) + 2 +
        2 * x.hnsw.cfg.maxNb * max x.hnsw.cfg.efC 1) +
      if ext then (c0.idx.points.length + jobs.length) +
        2 * x.hnsw.cfg.maxNb * (2 * x.hnsw.cfg.maxNb + (c0.idx.points.length + jobs.length)) else 0 := by
  obtain ⟨hg, ho, hs, -⟩ := h.good L hx
  have hg' : GoodCB (Base.of x.hnsw.idx) ((x.hnsw.cfg.layersOf x.hnsw.idx).withFlags ext kp) c0 :=
    (goodC_flags (e := ext) (k := kp)).2 hg
  have hp : (Job.progN P (x.hnsw.cfg.withFlags ext kp) : Nat → Job T → _) =
      Job.progN P ((x.hnsw.cfg.layersOf x.hnsw.idx).withFlags ext kp) := by
    funext n j
    unfold Job.progN
    rw [← insertN_layersOf P (x.hnsw.cfg.withFlags ext kp) x.hnsw.idx]
    rfl
  rw [hp] at he
  exact work_leB L hg' ho hl he hk

/-- **C132** (lock sections; partial as before) No insertion in an index reloaded from whatever files enters more critical
sections than `C97_sections` says, under any schedule: the lists of the files may be long, those that an insertion goes
through with its lock held are its own. -/
theorem C132_sections_partial (L : P.Lawful) (hx : LoadsOk P ty defScale dist io fs x) (h : Resumed P x.hnsw c0)
    (hl : ∀ j ∈ jobs, j.level < x.hnsw.idx.layers.length) {is : List Nat} {ts : List (Prog (CSt T) Unit)}
    (he : StepsBy is (c0, jobs.map (Job.prog P (x.hnsw.cfg.withFlags ext kp)
      (c0.idx.points.length + jobs.length + 2))) (c, ts)) :
    (∀ i, is.count i ≤ 4 + x.hnsw.idx.layers.length *
      (c0.idx.points.length + jobs.length + 4 * x.hnsw.cfg.maxNb + 6)) ∧
    is.length ≤ jobs.length * (4 + x.hnsw.idx.layers.length *
      (c0.idx.points.length + jobs.length + 4 * x.hnsw.cfg.maxNb + 6)) := by
  obtain ⟨hg, ho, hs, -⟩ := h.good L hx
  have hg' : GoodCB (Base.of x.hnsw.idx) ((x.hnsw.cfg.layersOf x.hnsw.idx).withFlags ext kp) c0 :=
    (goodC_flags (e := ext) (k := kp)).2 hg
  have hp : (Job.prog P (x.hnsw.cfg.withFlags ext kp) : Nat → Job T → _) =
      Job.prog P ((x.hnsw.cfg.layersOf x.hnsw.idx).withFlags ext kp) := by
    funext n j
    unfold Job.prog
    rw [← insertP_layersOf P (x.hnsw.cfg.withFlags ext kp) x.hnsw.idx]
    rfl
  rw [hp] at he
  obtain ⟨d, b, dm, o, s1, m, s2, hld, -⟩ := hx.parts
  obtain ⟨-, -, -, -, -, -, h7, -⟩ := loadIndexation_ok L hld
  refine sections_le (O := fun p => ∀ o ∈ x.hnsw.idx.points, o.pid ≠ p) L hl (fun c' ts' he' => ?_) he
  obtain ⟨ph, hS⟩ := Exec.invB L hg' ho hl he' (fun _ => True) (by simp) (by simp)
  have hok := hS.env.inv.okB
  have hm := Exec.stored_monoB L hg' ho hl he'
  refine ⟨fun p l hO => ?_, fun l o ho' hoe => ?_, fun e hen => hok.tab.layer_lt (hok.entry e hen)⟩
  · have h0 : x.hnsw.idx.nb p l = [] := by
      apply Classical.byContradiction
      intro hne
      obtain ⟨-, q, hq, rfl⟩ := h7 p l hne
      exact hO q hq rfl
    have hb := (hok.bound p l).resolve_left (by
      rintro ⟨e, hel, -⟩
      rw [h0] at hel
      cases hel)
    have hz : (Base.of x.hnsw.idx).len p l = 0 := by
      show (x.hnsw.idx.nb p l).length = 0
      rw [h0]; rfl
    rw [hz, Nat.max_zero] at hb
    unfold degreeBound at hb
    split at hb <;> omega
  · obtain ⟨l', hl'⟩ := stored_iff.1 (hm o (hs o ho'))
    obtain ⟨r, hr⟩ := List.mem_iff_getElem?.1 hl'
    have hi := hok.tab.ids l' r o hr
    rw [hoe] at hi
    cases hi
    have := (List.getElem?_eq_some_iff.1 hr).1
    omega

/-! ## A file whose lists are longer than its header allows -/

/-- the dump of `io4`, `max_nb_connection` changed to 0 -/
def noNbFiles : Dir := damagedAt [(5, 0)]

/-- the hypotheses hold for that file, and a property of its reload can be computed -/
theorem noNb_loads {f : Loaded UInt8 → Bool}
    (h : (((HnswIo.new "a" .default).loadHnsw (listPolicy UInt8) u8Ty exScale u8Dist noNbFiles).2.toOption.any f) = true) :
    ∃ x, LoadsOk (listPolicy UInt8) u8Ty exScale u8Dist (HnswIo.new "a" .default) noNbFiles x ∧ f x = true := by
  cases hx : ((HnswIo.new "a" .default).loadHnsw (listPolicy UInt8) u8Ty exScale u8Dist noNbFiles).2.toOption with
  | none => rw [hx] at h; cases h
  | some x =>
    rw [hx] at h
    exact ⟨x, loadsOk_toOption hx, h⟩

/-- **C132** The bound of `C89_cost` is not one for reloaded indexes: if the header of a file says that
`max_nb_connection` is 0, a search in its four points computes six distances, not at most five. -/
theorem C132_bound_refuted : ∃ (fs : Dir) (x : Loaded UInt8) (q : List UInt8) (ep : Ref UInt8),
    LoadsOk (listPolicy UInt8) u8Ty exScale u8Dist (HnswIo.new "a" .default) fs x ∧ x.hnsw.idx.entry = some ep ∧
    getNbPoint x.hnsw.idx + 1 + ep.pid.layer * x.hnsw.cfg.maxNb <
      (dists (searchFilterW (listPolicy UInt8) x.hnsw.cfg x.hnsw.idx q 2 10 none).log).length := by
  obtain ⟨x, hx, h⟩ := noNb_loads (f := fun x => x.hnsw.idx.entry.any fun ep =>
    decide (getNbPoint x.hnsw.idx + 1 + ep.pid.layer * x.hnsw.cfg.maxNb <
      (dists (searchFilterW (listPolicy UInt8) x.hnsw.cfg x.hnsw.idx [0, 0] 2 10 none).log).length))
    (by decide +kernel)
  cases he : x.hnsw.idx.entry with
  | none => rw [he] at h; cases h
  | some ep =>
    rw [he] at h
    exact ⟨_, x, [0, 0], ep, hx, he, by simpa using h⟩

/-- two insertions in that index, one after the other: 10 and 9 distances -/
example : ∃ x, LoadsOk (listPolicy UInt8) u8Ty exScale u8Dist (HnswIo.new "a" .default) noNbFiles x ∧
    Resumed (listPolicy UInt8) x.hnsw (CSt.ofIdx x.hnsw.idx) ∧
    (∀ j ∈ [(⟨[11, 1], 3, 0⟩ : Job UInt8), ⟨[20, 1], 4, 1⟩], j.level < x.hnsw.idx.layers.length) ∧
    (runSched (List.replicate 19 0 ++ List.replicate 21 1) (CSt.ofIdx x.hnsw.idx,
      [(⟨[11, 1], 3, 0⟩ : Job UInt8), ⟨[20, 1], 4, 1⟩].map (Job.progN (listPolicy UInt8)
        (x.hnsw.cfg.withFlags true false) (x.hnsw.idx.points.length + 2 + 2)))).map (fun y => counts y.2) =
      some [some 10, some 9] := by
  obtain ⟨x, hx, h⟩ := noNb_loads (f := fun x =>
    decide (∀ j ∈ [(⟨[11, 1], 3, 0⟩ : Job UInt8), ⟨[20, 1], 4, 1⟩], j.level < x.hnsw.idx.layers.length) &&
    ((runSched (List.replicate 19 0 ++ List.replicate 21 1) (CSt.ofIdx x.hnsw.idx,
      [(⟨[11, 1], 3, 0⟩ : Job UInt8), ⟨[20, 1], 4, 1⟩].map (Job.progN (listPolicy UInt8)
        (x.hnsw.cfg.withFlags true false) (x.hnsw.idx.points.length + 2 + 2)))).map (fun y => counts y.2) ==
      some [some 10, some 9])) (by decide +kernel)
  rw [Bool.and_eq_true, decide_eq_true_eq, beq_iff_eq] at h
  exact ⟨x, hx, .start, h.1, h.2⟩

end Verif
