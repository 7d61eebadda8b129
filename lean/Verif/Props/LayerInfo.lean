import Verif.LayerInfo
import Verif.Props.Insert
import Verif.Props.AccessConc
import Verif.Props.AnySearch

set_option autoImplicit false

/-!
# C137: the report of the layers, `dump_layer_info`
-/

namespace Verif
variable {T : Type} {P : Policy T} {cfg : Cfg T}

theorem infoLoop_run {c : CSt T} : ∀ (ls out : List Nat), (∀ l ∈ ls, l < c.idx.layers.length) →
    (infoLoop ls out).run c = .ok (out ++ ls.map fun l => (c.idx.layer l).length) c := by
  intro ls
  induction ls with
  | nil => intro out _; simp [infoLoop, Prog.run]
  | cons l ls ih =>
    intro out h
    have hl := h l (by simp)
    have hv : c.idx.layers[l]? = some (c.idx.layer l) := by
      unfold Idx.layer
      rw [List.getElem?_eq_getElem hl]
      rfl
    simp only [infoLoop, Prog.read, Prog.run, if_true, hv, id]
    rw [ih _ fun l' hl' => h l' (List.mem_cons_of_mem _ hl')]
    simp

theorem layerInfo_run {n : Nat} {c : CSt T} (ht : TableOK n c.idx) (he : ∀ e, c.idx.entry = some e → Stored c.idx e) (hn : 0 < n) :
    layerInfoP.run c =
      .ok ((List.range (getMaxLevelObserved c.idx + 1)).map fun l => (c.idx.layer l).length) c := by
  have h := level_lt ht he hn
  have := infoLoop_run (c := c) (List.range (getMaxLevelObserved c.idx + 1)) [] fun l hl => by
    rw [ht.len]
    have := List.mem_range.1 hl
    omega
  simpa [layerInfoP, lookP, Prog.read, Prog.bind, Prog.run] using this

theorem info_lengths {n : Nat} {c : CSt T} (ht : TableOK n c.idx) (he : ∀ e, c.idx.entry = some e → Stored c.idx e)
    (hn : 0 < n) :
    ∃ out, layerInfoP.run c = .ok out c ∧ out.length = getMaxLevelObserved c.idx + 1 ∧
      ∀ l ≤ getMaxLevelObserved c.idx, out[l]? = some (c.idx.points.countP fun p => p.pid.layer = l) := by
  refine ⟨_, layerInfo_run ht he hn, by simp, fun l hl => ?_⟩
  have hp := (filter_points_perm ht l).length_eq
  rw [List.countP_eq_length_filter, hp, List.getElem?_map, List.getElem?_range (by omega)]
  rfl

/-- **C137** (no insertion running; partial: at least one layer) In any index whose creation allowed at least one layer, the report
does not panic and gives the number of points of each layer from 0 to the one of the entry point. -/
theorem C137_lengths_partial (L : P.Lawful) (hn : 0 < cfg.maxLayer) {c : CSt T} (h : ReachC P cfg c) :
    ∃ out, layerInfoP.run c = .ok out c ∧ out.length = getMaxLevelObserved c.idx + 1 ∧
      ∀ l ≤ getMaxLevelObserved c.idx, out[l]? = some (c.idx.points.countP fun p => p.pid.layer = l) := by
  have hok := (h.goodC L).inv.okB
  exact info_lengths hok.tab hok.entry hn

/-- **C137** (total) If the entry point is on the highest layer in use, as after any sequence of insertions (`C19_entry_top`), the
numbers reported add up to the number of points. -/
theorem C137_total (L : P.Lawful) {c : CSt T} (h : ReachC P cfg c) (ht : TopEntry c.idx) :
    ∃ out, layerInfoP.run c = .ok out c ∧ out.sum = getNbPoint c.idx := by
  have hg := h.goodC L
  have hok := hg.inv.okB
  obtain ⟨e, he, hs, htop⟩ := ht
  have hlt : e.pid.layer < cfg.maxLayer := by
    exact hok.tab.layer_lt hs
  have hml : getMaxLevelObserved c.idx = e.pid.layer := by simp [getMaxLevelObserved, he]
  refine ⟨_, layerInfo_run hok.tab hok.entry (by omega), ?_⟩
  rw [getNbPoint, hg.count, ← sum_layers, hml, hok.tab.len]
  obtain ⟨d, hd⟩ := Nat.exists_eq_add_of_le (show e.pid.layer + 1 ≤ cfg.maxLayer by omega)
  have hz : ∀ l, e.pid.layer < l → getLayerNbPoint c.idx l = 0 := by
    intro l hl
    rw [getLayerNb_eq]
    cases hq : c.idx.layer l with
    | nil => rfl
    | cons a as =>
      have h1 : (c.idx.layer l)[0]? = some a := by rw [hq]; rfl
      have h2 := htop a (stored_of_nth h1)
      rw [hok.tab.ids l 0 a h1] at h2
      exact absurd h2 (by simpa using hl)
  have hsum : ∀ d, ((List.range (e.pid.layer + 1 + d)).map (getLayerNbPoint c.idx)).sum =
      ((List.range (e.pid.layer + 1)).map (getLayerNbPoint c.idx)).sum := by
    intro d
    induction d with
    | zero => rfl
    | succ d ih =>
      rw [← Nat.add_assoc, List.range_succ, List.map_append, List.sum_append, ih]
      simp [hz (e.pid.layer + 1 + d) (by omega)]
  rw [hd, hsum]
  congr 1
  exact List.map_congr_left fun l _ => (getLayerNb_eq _ _).symm

/-- **C137** (during insertions; partial: at least one layer) A report made while insertions run does not panic; it covers the
layers up to an entry point of that time, and each number is at least the number of points the layer had before, at most the number it has after. -/
theorem C137_concurrent_partial (L : P.Lawful) {c0 : CSt T} (h : ReachC P cfg c0) (ext kp : Bool) (hn : 0 < cfg.maxLayer)
    {jobs : List (Job T)} (hl : ∀ j ∈ jobs, j.level < cfg.maxLayer) {us : List (Prog (CSt T) (List Nat))}
    (hro : ∀ u ∈ us, ReadOnly u) {i : Nat} (hi : us[i]? = some layerInfoP) {m : GSys T (List Nat)}
    (he : GSteps (accStart P (cfg.withFlags ext kp) c0 jobs us) m) :
    (∀ e, m.acc[i]? ≠ some (.fail e)) ∧
    ∀ out, m.acc[i]? = some (.ret out) →
      getMaxLevelObserved c0.idx + 1 ≤ out.length ∧ out.length ≤ getMaxLevelObserved m.st.idx + 1 ∧
      ∀ l n, out[l]? = some n → (c0.idx.layer l).length ≤ n ∧ n ≤ (m.st.idx.layer l).length := by
  have hg := (goodC_flags (e := ext) (k := kp)).2 (h.goodC L)
  have ht0 := hg.inv.okB.tab
  have key := fun t => tells_general (t := t) L hg (Base.owned_none _) hl hro hi (fun out s s' ht ht' hgr hq =>
    ⟨hq.1, Nat.le_trans hq.2.1 (Nat.add_le_add_right hgr.level 1), fun l n hln =>
      ⟨(hq.2.2 l n hln).1, Nat.le_trans (hq.2.2 l n hln).2 (hgr.layer_len ht ht' l)⟩⟩) (layerInfoP_tells ht0 hn) he
  exact ⟨fun e hf => key _ hf, fun out ho => key _ ho⟩

/-- the numbers of a report -/
def infoOf (c : CSt T) : Option (List Nat) :=
  match layerInfoP.run c with
  | .ok out _ => some out
  | _ => none

/-- three layers of 3, 1 and 1 points -/
example : ReachC (listPolicy Nat) (exCfg 3) (exHist (exCfg 3) exJobs) ∧ TopEntry (exHist (exCfg 3) exJobs).idx ∧
    infoOf (exHist (exCfg 3) exJobs) = some [3, 1, 1] :=
  ⟨(exHist_ok.hist.reachC listPolicy_lawful), seqReach_topEntry listPolicy_lawful exHist_ok (by decide), by decide +kernel⟩

/-- **C137** (refuted for indexes created without layers) `Hnsw::new` with `max_layer = 0` gives an index whose report panics. -/
theorem C137_no_layer_refuted : ReachC P { cfg with maxLayer := 0 } (CSt.new 0) ∧
    layerInfoP.run (CSt.new 0 : CSt T) = .panic .index (CSt.new 0) :=
  ⟨.new, rfl⟩

/-- two reports during the insertion of a point of level 1: the first one counts it, the second one does not -/
example : ∃ m, GSteps (accStart (listPolicy Nat) (exCfg 3) accBefore [⟨[30], 30, 1⟩] [layerInfoP, layerInfoP]) m ∧
    m.acc.map (fun | .ret a => some a | _ => none) = [some [1, 2], some [1, 1]] := by
  have h : (runAcc [.inr 0, .inr 0, .inr 1, .inr 1, .inr 1, .inl 0, .inr 0]
      (accStart (listPolicy Nat) (exCfg 3) accBefore [⟨[30], 30, 1⟩] [layerInfoP, layerInfoP])).any
      (fun m => m.acc.map (fun | .ret a => some a | _ => none) == [some [1, 2], some [1, 1]]) = true := by decide +kernel
  rw [Option.any_eq_true] at h
  obtain ⟨m, hm, hq⟩ := h
  exact ⟨m, runAcc_steps _ _ _ hm, beq_iff_eq.1 hq⟩

section
variable {ty : Ty T} {defScale : Nat → F64} {dist0 : Dist T} {io0 : HnswIo} {fs0 : Dir} {x : Loaded T} {c : CSt T}

/-- **C137** (reloaded) The report does not panic in an index reloaded from any files, then extended; the numbers are those of the
layers that are not above the entry point. -/
theorem C137_reloaded (L : P.Lawful) (hx : LoadsOk P ty defScale dist0 io0 fs0 x) (h : Resumed P x.hnsw c) :
    ∃ out, layerInfoP.run c = .ok out c ∧ out.length = getMaxLevelObserved c.idx + 1 ∧
      ∀ l ≤ getMaxLevelObserved c.idx, out[l]? = some (c.idx.points.countP fun p => p.pid.layer = l) := by
  obtain ⟨hnav, hne⟩ := h.navig L hx
  refine info_lengths hnav.tab hnav.entry ?_
  obtain ⟨p, hp⟩ := List.exists_mem_of_ne_nil _ hne
  have := hnav.tab.layer_lt hp
  omega

example : ∃ x, LoadsOk (listPolicy UInt8) u8Ty exScale u8Dist (HnswIo.new "a" .default) (damaged 137 0) x ∧
    infoOf (CSt.ofIdx x.hnsw.idx) = some [2, 1, 1] := by
  obtain ⟨x, hx, h⟩ := self_loads (f := fun x => infoOf (CSt.ofIdx x.hnsw.idx) == some [2, 1, 1]) (by decide +kernel)
  exact ⟨x, hx, beq_iff_eq.1 h⟩

end

end Verif
