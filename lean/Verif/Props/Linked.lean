import Verif.Linked
import Verif.Inherit
import Verif.Props.Concurrent
import Verif.Props.Improve
import Verif.Props.AnyInsert

set_option autoImplicit false

/-!
# No point without links (C114)
-/

namespace Verif
variable {T : Type} {P : Policy T} {cfg : Cfg T}

/-- **C114 is false** for insertions in parallel in an empty index: two points of the same layer are left without
any link, and nothing panicked. -/
theorem C114_refuted : ¬ ∀ (jobs : List (Job Nat)) (c : CSt Nat) (ts : List (Prog (CSt Nat) Unit)),
    (∀ j ∈ jobs, j.level < 16) → Exec (listPolicy Nat) (exCfg 3) (CSt.new 16) jobs c ts → (∀ t ∈ ts, t = .ret ()) →
    ∀ p ∈ c.idx.points, ∀ q ∈ c.idx.points, p ≠ q →
      c.idx.nb p.pid p.pid.layer ≠ [] ∨ c.idx.nb q.pid q.pid.layer ≠ [] := by
  intro h
  obtain ⟨c, ts, he, hp⟩ := exHolds_exec (c0 := CSt.new 16) (jobs := [⟨[20], 20, 0⟩, ⟨[21], 21, 0⟩])
    (sched := [0, 0, 1, 1, 1, 1, 0])
    (p := fun c ts => ts.all isRet && c.idx.points.any (fun p => c.idx.points.any fun q =>
      p.origin != q.origin && (c.idx.nb p.pid p.pid.layer).isEmpty && (c.idx.nb q.pid q.pid.layer).isEmpty))
    (by decide +kernel)
  rw [Bool.and_eq_true, List.any_eq_true] at hp
  obtain ⟨h1, p, hp, hq⟩ := hp
  obtain ⟨q, hq, h2⟩ := List.any_eq_true.1 hq
  simp only [Bool.and_eq_true, bne_iff_ne, List.isEmpty_iff] at h2
  obtain ⟨⟨h3, h4⟩, h5⟩ := h2
  rcases h _ c ts (by decide) he (isRet_finished h1) p hp q hq (fun h => h3 (by rw [h])) with h | h
  · exact h h4
  · exact h h5

/-- what follows from the perm, the threads having all returned -/
theorem linked_points {c0 c : CSt T} {jobs : List (Job T)} {ts : List (Prog (CSt T) Unit)}
    (htl : ts.length = jobs.length) (hf : ∀ t ∈ ts, t = .ret ())
    {refs : List (Option (Ref T))} (hlen : refs.length = jobs.length)
    (hperm : c.idx.points.Perm (c0.idx.points ++ refs.filterMap id))
    (h : ∀ (i : Nat) j t, jobs[i]? = some j → ts[i]? = some t →
        (∀ r, refs[i]? = some (some r) → IsRef j r) ∧
        (t = .ret () → ∃ r, refs[i]? = some (some r) ∧ ∀ l ≤ j.level, c0.idx.layer l ≠ [] ∨ l = j.level →
          c.idx.nb r.pid l ≠ [])) :
    ∀ p ∈ c.idx.points, p ∉ c0.idx.points → ∀ l ≤ p.pid.layer, c0.idx.layer l ≠ [] ∨ l = p.pid.layer →
      c.idx.nb p.pid l ≠ [] := by
  intro p hp hp0 l hl hlp
  rw [hperm.mem_iff] at hp
  obtain ⟨o, ho, hop⟩ := List.mem_filterMap.1 ((List.mem_append.1 hp).resolve_left hp0)
  obtain ⟨i, hi⟩ := List.getElem?_of_mem ho
  have hop : o = some p := hop
  subst hop
  have hij : i < jobs.length := by rw [← hlen]; exact (List.getElem?_eq_some_iff.1 hi).1
  have hit : i < ts.length := by omega
  obtain ⟨h1, h2⟩ := h i _ _ (List.getElem?_eq_getElem hij) (List.getElem?_eq_getElem hit)
  obtain ⟨-, -, hpl⟩ := h1 p hi
  obtain ⟨r, hr, hne⟩ := h2 (hf _ (List.getElem_mem hit))
  rw [hi] at hr
  cases hr
  exact hne l (by omega) (by rw [← hpl]; exact hlp)

/-- **C114** (partial: the index was not empty before) At any moment of any schedule of insertions in parallel in an
index that has a point: a thread that has returned has added a point of its own, which has a link in its own
layer and in each lower layer that held a point at the start.  Whatever happens to the other threads. -/
theorem C114_any_time_partial (L : P.Lawful) {c0 : CSt T} (h : ReachC P cfg c0) (hne : c0.idx.points ≠ [])
    (hm : 0 < cfg.maxNb) (ext kp : Bool) {jobs : List (Job T)} (hl : ∀ j ∈ jobs, j.level < cfg.maxLayer) {c : CSt T}
    {ts : List (Prog (CSt T) Unit)} (he : Exec P (cfg.withFlags ext kp) c0 jobs c ts) :
    ∃ refs : List (Option (Ref T)), refs.length = jobs.length ∧
      c.idx.points.Perm (c0.idx.points ++ refs.filterMap id) ∧
      ∀ (i : Nat) j t, jobs[i]? = some j → ts[i]? = some t →
        (∀ r, refs[i]? = some (some r) → r.data = j.data ∧ r.origin = j.id ∧ r.pid.layer = j.level) ∧
        (t = .ret () → ∃ r, refs[i]? = some (some r) ∧ ∀ l ≤ j.level, c0.idx.layer l ≠ [] ∨ l = j.level →
          c.idx.nb r.pid l ≠ []) := by
  have hG : GoodC (cfg.withFlags ext kp) c0 := goodC_flags.2 (h.goodC L)
  exact Exec.linkedB (cfg := cfg.withFlags ext kp) L hm hG (Base.owned_none _) (hG.entry hne)
    (by rw [hG.count]; exact fun h => hne (List.length_eq_zero_iff.1 h)) hl he

/-- 20 (of level 1) and 21 (of level 0) inserted at the same time: the first thread has returned, the other one
has not begun to link its point -/
example : exHolds exStart [⟨[20], 20, 1⟩, ⟨[21], 21, 0⟩] ([1, 1] ++ List.replicate 22 0) (fun c ts =>
    ts.map isRet == [true, false] && (c.idx.nb ⟨1, 0⟩ 1).map (·.pt.data) == [[10]] &&
      (c.idx.nb ⟨1, 0⟩ 0).map (·.pt.data) == [[10], [50]] && (c.idx.nb ⟨0, 1⟩ 0).isEmpty) = true := by
  decide +kernel

theorem Later.stored (L : P.Lawful) {c0 c : CSt T} (h0 : ReachC P cfg c0) (h : Later P cfg c0 c) :
    ∀ o, Stored c0.idx o → Stored c.idx o := by
  induction h with
  | now => exact fun _ h => h
  | batch ext kp jobs hL1 hl he hf ih =>
    exact fun o ho => Exec.stored_mono (cfg := cfg.withFlags ext kp) L
      (goodC_flags.2 ((hL1.reachC h0).goodC L)) hl he o (ih o ho)
  | reload _ ih => exact ih

/-- **C114** (partial: the index was not empty before, the distances are legal) Every point added to an index since
it had its first point, by any calls, in parallel or not, has a link in its own layer. -/
theorem C114_history_partial (L : P.Lawful) {c0 c : CSt T} (h0 : ReachC P cfg c0) (hne : c0.idx.points ≠ [])
    (hm : 0 < cfg.maxNb) (h : Later P cfg c0 c)
    (hL : ∀ a ∈ c.idx.points, ∀ b ∈ c.idx.points, (cfg.eval a.data b.data).Legal) :
    ∀ p ∈ c.idx.points, p ∉ c0.idx.points → c.idx.nb p.pid p.pid.layer ≠ [] := by
  induction h with
  | now => exact fun p hp hp0 => absurd hp hp0
  | @batch c1 c ext kp jobs ts hL1 hl he hf ih =>
    have hr1 := hL1.reachC h0
    have hG1 : GoodC (cfg.withFlags ext kp) c1 := goodC_flags.2 (hr1.goodC L)
    have hmono := Exec.stored_mono (cfg := cfg.withFlags ext kp) L hG1 hl he
    obtain ⟨htl, refs', hlen', href', hperm', -⟩ := Exec.finished (cfg := cfg.withFlags ext kp) L hG1 hl he hf
    have hret : ∀ t ∈ ts, t = .ret () := by
      intro t ht
      have hfin := hf t ht
      cases t with
      | ret a => rfl
      | act g u k => cases hfin
      | fail e =>
        refine absurd rfl (Exec.no_panic (cfg := cfg.withFlags ext kp) L hG1 hl he
          (fun d => ∃ a ∈ c.idx.points, a.data = d) (fun v hv => ⟨v, hmono v hv, rfl⟩) ?_ ?_ _ ht e)
        · intro j hj
          obtain ⟨i, hi⟩ := List.getElem?_of_mem hj
          have hir : i < refs'.length := by rw [hlen']; exact (List.getElem?_eq_some_iff.1 hi).1
          refine ⟨refs'[i], ?_, (href' i j _ hi (List.getElem?_eq_getElem hir)).1⟩
          rw [hperm'.mem_iff]
          exact List.mem_append_right _ (List.getElem_mem hir)
        · rintro _ _ ⟨a, ha, rfl⟩ ⟨b, hb, rfl⟩
          exact hL a ha b hb
    intro p hp hp0
    by_cases hp1 : p ∈ c1.idx.points
    · have h1 := ih (fun a ha b hb => hL a (hmono a ha) b (hmono b hb)) p hp1 hp0
      intro h2
      have h3 := (C110_lists L hr1 ext kp hl (.refl _) he p.pid p.pid.layer).len
      rw [h2] at h3
      exact h1 (List.length_eq_zero_iff.1 (Nat.le_zero.1 h3))
    · have hne1 : c1.idx.points ≠ [] := by
        obtain ⟨o, ho⟩ := List.exists_mem_of_ne_nil _ hne
        exact List.ne_nil_of_mem (hL1.stored L h0 o ho)
      obtain ⟨refs, hlen, hperm, hall⟩ := C114_any_time_partial L hr1 hne1 hm ext kp hl he
      exact linked_points htl hret hlen hperm hall p hp hp1 _ (Nat.le_refl _) (Or.inr rfl)
  | @reload c1 _ ih =>
    intro p hp hp0 h1
    refine ih hL p hp hp0 ?_
    have := (L.sort_perm (c1.idx.nb p.pid p.pid.layer)).length_eq
    have h2 : P.sort (c1.idx.nb p.pid p.pid.layer) = [] := h1
    rw [h2] at this
    exact List.length_eq_zero_iff.1 this.symm

/-- two calls after the first point; all the distances are legal -/
example : (exSt (exCfg 1) [(10, 0)]).idx.points ≠ [] ∧
    (∀ a b : List Nat, ((exCfg 1).eval a b).Legal) ∧
    ∃ c, Later (listPolicy Nat) (exCfg 1) (exSt (exCfg 1) [(10, 0)]) c ∧
      c.idx.points.map (fun p => (p.data, (c.idx.nb p.pid p.pid.layer).map (·.pt.data))) =
        [([10], [[12]]), ([12], [[10]]), ([7], [[10]])] := by
  have h0 := exSt_reach (exCfg 1) [(10, 0)] (by decide)
  exact ⟨List.ne_nil_of_length_pos (by decide +kernel), fun a b => absDist_legal a b, _,
    ((Later.now).insert listPolicy_lawful h0 false false ⟨[7], 7, 1⟩ (by decide)).insert
      listPolicy_lawful (h0) false false ⟨[12], 12, 0⟩ (by decide), by decide +kernel⟩

/-- a lower layer that held no point at the start may be left without links: 20 in layer 0, the only other point
being 10, of level 1 -/
example : ((exIdx (exCfg 3) [(10, 1), (20, 1)]).nb ⟨1, 1⟩ 1).map (·.pt.data) = [[10]] ∧
    (exIdx (exCfg 3) [(10, 1), (20, 1)]).nb ⟨1, 1⟩ 0 = [] := by
  refine ⟨by decide +kernel, ?_⟩
  rw [← List.isEmpty_iff]
  decide +kernel

section
variable {ty : Ty T} {defScale : Nat → F64} {dist : Dist T} {io : HnswIo} {fs : Dir} {x : Loaded T}

/-- **C114** (partial: levels that the reloaded table has) The same for insertions in parallel in an index reloaded from any
files, whatever links the files have: all the threads having returned, each new point has a link in its own layer
and in each lower layer that held a point before. (An insertion in an index reloaded from a damaged file is shown at the
end of Verif/Props/AnyInsert.lean.) -/
theorem C114_reloaded_partial (L : P.Lawful) (hx : LoadsOk P ty defScale dist io fs x)
    {c0 c : CSt T} (h : Resumed P x.hnsw c0) (hm : 0 < x.hnsw.cfg.maxNb) {ext kp : Bool} {jobs : List (Job T)}
    {ts : List (Prog (CSt T) Unit)} (hl : ∀ j ∈ jobs, j.level < x.hnsw.idx.layers.length)
    (he : Exec P (x.hnsw.cfg.withFlags ext kp) c0 jobs c ts) (hf : ∀ t ∈ ts, t = .ret ()) :
    ∀ p ∈ c.idx.points, p ∉ c0.idx.points → ∀ l ≤ p.pid.layer, c0.idx.layer l ≠ [] ∨ l = p.pid.layer →
      c.idx.nb p.pid l ≠ [] := by
  obtain ⟨hg, ho, hs, -⟩ := h.good L hx
  have hg' : GoodCB (Base.of x.hnsw.idx) ((x.hnsw.cfg.layersOf x.hnsw.idx).withFlags ext kp) c0 :=
    (goodC_flags (e := ext) (k := kp)).2 hg
  have he' : Exec P ((x.hnsw.cfg.layersOf x.hnsw.idx).withFlags ext kp) c0 jobs c ts :=
    (exec_layersOf (cfg := x.hnsw.cfg.withFlags ext kp) (s := x.hnsw.idx)).2 he
  obtain ⟨d, b, dm, o, s1, m, s2, hld, -⟩ := hx.parts
  obtain ⟨-, -, ⟨e0, -, he0⟩, -⟩ := loadIndexation_ok L hld
  have hne : c0.idx.points ≠ [] := List.ne_nil_of_mem (hs _ he0)
  obtain ⟨refs, hlen, hperm, hall⟩ := Exec.linkedB (cfg := (x.hnsw.cfg.layersOf x.hnsw.idx).withFlags ext kp) L hm hg' ho
    (hg.entry hne) (by rw [hg.count]; exact fun h => hne (List.length_eq_zero_iff.1 h)) hl he'
  obtain ⟨htl, -⟩ := Exec.finishedB L hg' ho hl he' (fun t ht => by rw [hf t ht]; trivial)
  exact linked_points htl hf hlen hperm hall

end

end Verif
