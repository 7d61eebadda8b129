import Verif.NoWait
import Verif.Props.LayerInfo

set_option autoImplicit false

/-!
# C139: accessors do not wait for insertions

`GTurns i k m0 m`: some schedule leads from `m0` to `m`, and the accessor thread `i` acted `k` times in it.  `OwnStep i m m'`:
it acts now.
-/

namespace Verif
variable {T α : Type} {P : Policy T} {cfg : Cfg T}

/-- **C139** (`get_nb_point`, `get_max_level_observed`, `get_data_dimension`) Whatever the other threads are doing, whatever is
locked, the call is over after one action, which is possible at any time. -/
theorem C139_look {f : Idx T → α} {i k : Nat} {m0 m : GSys T α} (hi : m0.acc[i]? = some (lookP f)) (h : GTurns i k m0 m) :
    k ≤ 1 ∧ ((∃ a, m.acc[i]? = some (.ret a)) ∨ (∃ e, m.acc[i]? = some (.fail e)) ∨ k < 1 ∧ ∃ m', OwnStep i m m') :=
  quick_free (K := fun _ => True) hi (lookP_quick f) (fun _ _ => trivial) h

/-- **C139** (`get_layer_nb_point`) At most two actions, which are possible at any time. -/
theorem C139_layer {l i k : Nat} {m0 m : GSys T Nat} (hi : m0.acc[i]? = some (layerNbP l)) (h : GTurns i k m0 m) :
    k ≤ 2 ∧ ((∃ a, m.acc[i]? = some (.ret a)) ∨ (∃ e, m.acc[i]? = some (.fail e)) ∨ k < 2 ∧ ∃ m', OwnStep i m m') :=
  quick_free (K := fun _ => True) hi (layerNbP_quick l) (fun _ _ => trivial) h

/-- **C139** (`get_point_data`, `get_point`) At most four actions, which are possible at any time. -/
theorem C139_point {g : Ref T → α} {l i k : Nat} {r : Int} {m0 m : GSys T (Option α)}
    (hi : m0.acc[i]? = some (pointP g l r)) (h : GTurns i k m0 m) :
    k ≤ 4 ∧ ((∃ a, m.acc[i]? = some (.ret a)) ∨ (∃ e, m.acc[i]? = some (.fail e)) ∨ k < 4 ∧ ∃ m', OwnStep i m m') :=
  quick_free (K := fun _ => True) hi (pointP_quick g l r) (fun _ _ => trivial) h

/-- **C139** (`dump_layer_info`) In an index built by the library with at least one layer, while insertions run: a report that is
not over can go on at any time, and takes one action more than the index has layers, at most. -/
theorem C139_report (L : P.Lawful) {c0 : CSt T} (h : ReachC P cfg c0) (ext kp : Bool) (hn : 0 < cfg.maxLayer)
    {jobs : List (Job T)} (hl : ∀ j ∈ jobs, j.level < cfg.maxLayer) {us : List (Prog (CSt T) (List Nat))}
    (hro : ∀ u ∈ us, ReadOnly u) {i k : Nat} (hi : us[i]? = some layerInfoP) {m : GSys T (List Nat)}
    (ht : GTurns i k (accStart P (cfg.withFlags ext kp) c0 jobs us) m) :
    k ≤ cfg.maxLayer + 1 ∧ ((∃ a, m.acc[i]? = some (.ret a)) ∨ k < cfg.maxLayer + 1 ∧ ∃ m', OwnStep i m m') := by
  have hg := (goodC_flags (e := ext) (k := kp)).2 (h.goodC L)
  have hK : ∀ m, GSteps (accStart P (cfg.withFlags ext kp) c0 jobs us) m → getMaxLevelObserved m.st.idx ≤ cfg.maxLayer - 1 := by
    intro m hm
    obtain ⟨hex, -, -, htab⟩ := GSteps.facts L hg (Base.owned_none _) hl hro hm
    have hent := (Exec.factsB L hg (Base.owned_none _) hl hex (fun _ => True) (fun _ _ => trivial)
      (fun _ _ => trivial)).ok.entry
    have := level_lt htab hent hn
    have hm' : (cfg.withFlags ext kp).maxLayer = cfg.maxLayer := rfl
    omega
  have key := quick_free (K := fun s => getMaxLevelObserved s.idx ≤ cfg.maxLayer - 1)
    (m0 := accStart P (cfg.withFlags ext kp) c0 jobs us) hi (layerInfoP_quick (cfg.maxLayer - 1)) hK ht
  have h2 : cfg.maxLayer - 1 + 2 = cfg.maxLayer + 1 := by omega
  rw [h2] at key
  obtain ⟨h3, h4 | ⟨e, h4⟩ | h4⟩ := key
  · exact ⟨h3, .inl h4⟩
  · exact absurd h4 ((C137_concurrent_partial L h ext kp hn hl hro hi ht.steps).1 e)
  · exact ⟨h3, .inr h4⟩

section
variable {ty : Ty T} {defScale : Nat → F64} {dist0 : Dist T} {io0 : HnswIo} {fs0 : Dir} {x : Loaded T} {c0 : CSt T}

/-- **C137** (reloaded index, during insertions; partial: levels that the reloaded table has) The same as in an index built by the
library. -/
theorem C137_resumed_partial (L : P.Lawful) (hx : LoadsOk P ty defScale dist0 io0 fs0 x) (hc : Resumed P x.hnsw c0)
    (ext kp : Bool) {jobs : List (Job T)} (hl : ∀ j ∈ jobs, j.level < x.hnsw.idx.layers.length)
    {us : List (Prog (CSt T) (List Nat))} (hro : ∀ u ∈ us, ReadOnly u) {i : Nat} (hi : us[i]? = some layerInfoP)
    {m : GSys T (List Nat)} (he : GSteps (accStart P (x.hnsw.cfg.withFlags ext kp) c0 jobs us) m) :
    (∀ e, m.acc[i]? ≠ some (.fail e)) ∧
    ∀ out, m.acc[i]? = some (.ret out) →
      getMaxLevelObserved c0.idx + 1 ≤ out.length ∧ out.length ≤ getMaxLevelObserved m.st.idx + 1 ∧
      ∀ l n, out[l]? = some n → (c0.idx.layer l).length ≤ n ∧ n ≤ (m.st.idx.layer l).length := by
  obtain ⟨hg, ho, -⟩ := hc.good L hx
  have hg' : GoodCB (Base.of x.hnsw.idx) ((x.hnsw.cfg.layersOf x.hnsw.idx).withFlags ext kp) c0 :=
    (goodC_flags (e := ext) (k := kp)).2 hg
  have hst : accStart P ((x.hnsw.cfg.layersOf x.hnsw.idx).withFlags ext kp) c0 jobs us =
      accStart P (x.hnsw.cfg.withFlags ext kp) c0 jobs us :=
    accStart_layersOf (cfg := x.hnsw.cfg.withFlags ext kp) (s := x.hnsw.idx)
  rw [← hst] at he
  obtain ⟨hnav, hne⟩ := hc.navig L hx
  have hn : 0 < ((x.hnsw.cfg.layersOf x.hnsw.idx).withFlags ext kp).maxLayer := by
    obtain ⟨p, hp⟩ := List.exists_mem_of_ne_nil _ hne
    have := hg'.inv.okB.tab.layer_lt hp
    omega
  have key := fun t => tells_general (t := t) L hg' ho hl hro hi (fun out s s' ht ht' hgr hq =>
    ⟨hq.1, Nat.le_trans hq.2.1 (Nat.add_le_add_right hgr.level 1), fun l n hln =>
      ⟨(hq.2.2 l n hln).1, Nat.le_trans (hq.2.2 l n hln).2 (hgr.layer_len ht ht' l)⟩⟩)
      (layerInfoP_tells hg'.inv.okB.tab hn) he
  exact ⟨fun e hf => key _ hf, fun out ho => key _ ho⟩

end

/-- an insertion thread that waits -/
def waits {α : Type} (m : GSys Nat α) (i : Nat) : Bool :=
  match m.ins[i]? with
  | some (.act g _ _) => !g m.st
  | _ => false

/-- The case of C139 is not empty: of three insertions one holds the list of its point and another one waits for it, while a call
of `get_point_data` makes its four actions and returns the vector of a point being inserted. -/
example : ∃ m, GSteps (accStart (listPolicy Nat) (exCfg 3) accBefore [⟨[30], 30, 1⟩, ⟨[31], 31, 1⟩, ⟨[29], 29, 0⟩] accCalls) m ∧
    waits m 1 = true ∧ m.st.held ≠ [] ∧ (accGot m)[0]? = some (some (some [30])) := by
  have h : (runAcc (List.replicate 2 (.inl 2) ++ List.replicate 13 (.inl 0) ++ List.replicate 14 (.inl 1) ++
        List.replicate 4 (.inr 0))
      (accStart (listPolicy Nat) (exCfg 3) accBefore [⟨[30], 30, 1⟩, ⟨[31], 31, 1⟩, ⟨[29], 29, 0⟩] accCalls)).any
      (fun m => waits m 1 && (m.st.held != [] && (accGot m)[0]? == some (some (some [30])))) = true := by decide +kernel
  rw [Option.any_eq_true] at h
  obtain ⟨m, hm, hq⟩ := h
  simp only [Bool.and_eq_true, bne_iff_ne, beq_iff_eq] at hq
  exact ⟨m, runAcc_steps _ _ _ hm, hq.1, hq.2.1, hq.2.2⟩

/-- a schedule counted from the side of the call: four actions of it -/
example : ∃ m, GTurns 2 4 (⟨accBefore, [], accCalls⟩ : GSys Nat (Option (List Nat))) m ∧
    (accGot m)[2]? = some (some (some [20])) := by
  refine ⟨_, .own (.own (.own (.own (.refl _) ⟨_, _, _, rfl, rfl, rfl⟩) ⟨_, _, _, rfl, rfl, rfl⟩) ⟨_, _, _, rfl, rfl, rfl⟩)
    ⟨_, _, _, rfl, rfl, rfl⟩, ?_⟩
  decide +kernel

end Verif
