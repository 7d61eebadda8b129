import Verif.Linear
import Verif.Props.Concurrent
import Verif.Props.AnyInsert
import Verif.Props.AnySearch

set_option autoImplicit false

/-!
# Insertions in parallel compared with insertions one after the other (C134)
-/

namespace Verif
variable {T : Type} {P : Policy T} {cfg : Cfg T}

/-- **C134**, the table.  Whatever the schedule, and even if some calls panicked, when all the calls are over the table
(the points of every layer, with their ids, vectors and client ids, and their order) and the counter are those left by the
same calls made one after the other in some order. -/
theorem C134_table (L : P.Lawful) {c0 : CSt T} (h : ReachC P cfg c0) (ext kp : Bool) {jobs : List (Job T)}
    (hl : ∀ j ∈ jobs, j.level < cfg.maxLayer) {c : CSt T} {ts : List (Prog (CSt T) Unit)}
    (he : Exec P (cfg.withFlags ext kp) c0 jobs c ts) (hf : ∀ t ∈ ts, t.Finished) :
    ∃ jobs', jobs'.Perm jobs ∧
      c.idx.layers = (inOrder P (cfg.withFlags ext kp) c0 jobs').idx.layers ∧
      getNbPoint c.idx = getNbPoint (inOrder P (cfg.withFlags ext kp) c0 jobs').idx :=
  Exec.tableB (cfg := cfg.withFlags ext kp) L (goodC_flags.2 (h.goodC L)) (Base.owned_none _) hl he hf

/-- The two insertions of `exTwo`, interleaved action by action: the same table as one after the other. -/
example : exHolds exStart exTwo ((List.replicate 22 [0, 1]).flatten ++ [0, 0]) (fun c ts =>
    ts.all isRet && c.idx.layers == (inOrder (listPolicy Nat) (exCfg 3) exStart exTwo).idx.layers) = true := by
  decide +kernel

/-- **C134**, calls that do not overlap.  A schedule whose thread numbers never decrease is one in which every call is
over before the next one starts.  Then everything in the final state (table, links, entry point) is what the calls made
one after the other leave. -/
theorem C134_no_overlap (L : P.Lawful) {c0 : CSt T} (h : ReachC P cfg c0) (ext kp : Bool) {jobs : List (Job T)}
    (hl : ∀ j ∈ jobs, j.level < cfg.maxLayer) {c : CSt T} {ts : List (Prog (CSt T) Unit)} {sched : List Nat}
    (hs : sched.Pairwise (· ≤ ·))
    (he : runSched sched (c0, jobs.map (Job.prog P (cfg.withFlags ext kp) (c0.idx.points.length + jobs.length + 2))) =
      some (c, ts)) (hf : ∀ t ∈ ts, t.Finished) :
    c = inOrder P (cfg.withFlags ext kp) c0 jobs :=
  runSched_inOrder (cfg := cfg.withFlags ext kp) L hf jobs [] c0 sched (goodC_flags.2 (h.goodC L)) (Base.owned_none _) hl (Nat.le_refl _) hs (by simp) he

/-- **C134**, calls one after the other, in any order, are one of the possible executions. -/
theorem C134_serial (L : P.Lawful) {c0 : CSt T} (h : ReachC P cfg c0) (ext kp : Bool) {jobs : List (Job T)}
    (hl : ∀ j ∈ jobs, j.level < cfg.maxLayer) :
    ∃ sched ts, sched.Pairwise (· ≤ ·) ∧ (∀ t ∈ ts, t.Finished) ∧
      runSched sched (c0, jobs.map (Job.prog P (cfg.withFlags ext kp) (c0.idx.points.length + jobs.length + 2))) =
        some (inOrder P (cfg.withFlags ext kp) c0 jobs, ts) ∧
      Exec P (cfg.withFlags ext kp) c0 jobs (inOrder P (cfg.withFlags ext kp) c0 jobs) ts := by
  obtain ⟨is, ts, h1, -, h3, h4⟩ := inOrder_runs (P := P) (cfg := cfg.withFlags ext kp) L jobs [] c0 (by simp)
    (goodC_flags.2 (h.goodC L)) (Base.owned_none _) hl (Nat.le_refl _)
  exact ⟨is, ts, h1, h3, h4, runSched_steps _ _ _ h4⟩

/-- A schedule without overlap that finishes. -/
example : exHolds (exSt (exCfg 3) [(10, 0)]) [⟨[30], 30, 0⟩, ⟨[31], 31, 0⟩] (List.replicate 10 0 ++ List.replicate 12 1)
    (fun _ ts => ts.all isRet) = true := by decide +kernel

/-- an index with one point -/
def exOne : CSt Nat := exSt (exCfg 3) [(10, 0)]

/-- the links of two states differ at a point and layer of the list -/
def linksDiffer (at_ : List (PointId × Nat)) (s s' : Idx Nat) : Bool :=
  at_.any fun x => decide ((s.nb x.1 x.2).map (·.pt.pid) ≠ (s'.nb x.1 x.2).map (·.pt.pid))

theorem perm_two {α : Type} {a b : α} {l : List α} (h : l.Perm [a, b]) : l = [a, b] ∨ l = [b, a] := by
  have hlen := h.length_eq
  match l, hlen with
  | [x, y], _ =>
    have hx : x ∈ [a, b] := h.mem_iff.1 (by simp)
    simp only [List.mem_cons, List.not_mem_nil, or_false] at hx
    rcases hx with rfl | rfl
    · have := List.perm_singleton.1 ((List.perm_cons _).1 h)
      simp at this
      subst this
      exact Or.inl rfl
    · have h2 : [x, y].Perm [x, a] := h.trans (.swap x a [])
      have := List.perm_singleton.1 ((List.perm_cons _).1 h2)
      simp at this
      subst this
      exact Or.inr rfl

/-- **C134 is false for the links**: two close points inserted in parallel in an index with one point.  The two searches are
made before any of the two points is linked, and none of the two points links to the other one.  After calls one after
the other, in any order, the second point links to the first one. -/
theorem C134_links_refuted : ¬ ∀ (c0 : CSt Nat) (jobs : List (Job Nat)) (c : CSt Nat) (ts : List (Prog (CSt Nat) Unit)),
    ReachC (listPolicy Nat) (exCfg 3) c0 → (∀ j ∈ jobs, j.level < 16) →
    Exec (listPolicy Nat) (exCfg 3) c0 jobs c ts → (∀ t ∈ ts, t = .ret ()) →
    ∃ jobs', jobs'.Perm jobs ∧ c.idx.nb = (inOrder (listPolicy Nat) (exCfg 3) c0 jobs').idx.nb := by
  intro h
  obtain ⟨c, ts, he, hp⟩ := exHolds_exec (c0 := exOne) (jobs := [⟨[30], 30, 0⟩, ⟨[31], 31, 0⟩])
    (sched := List.replicate 7 0 ++ List.replicate 10 1 ++ List.replicate 3 0)
    (p := fun c ts => ts.all isRet &&
      linksDiffer [(⟨0, 1⟩, 0)] c.idx (inOrder (listPolicy Nat) (exCfg 3) exOne [⟨[30], 30, 0⟩, ⟨[31], 31, 0⟩]).idx &&
      linksDiffer [(⟨0, 1⟩, 0)] c.idx (inOrder (listPolicy Nat) (exCfg 3) exOne [⟨[31], 31, 0⟩, ⟨[30], 30, 0⟩]).idx)
    (by decide +kernel)
  simp only [Bool.and_eq_true] at hp
  obtain ⟨⟨h1, h2⟩, h3⟩ := hp
  obtain ⟨jobs', hperm, heq⟩ := h exOne _ c ts (exSt_reach _ _ (by decide)) (by decide) he (isRet_finished h1)
  rcases perm_two hperm with rfl | rfl
  · simp [linksDiffer, heq] at h2
  · simp [linksDiffer, heq] at h3

/-- **C134 is false for the entry point**, even with the right table: two points of level 2 inserted in parallel; the second
one in the table is the first one to become the entry point.  After calls one after the other that leave the same table,
the entry point is the first of the two (`C72_entry_first`). -/
theorem C134_entry_refuted : ¬ ∀ (c0 : CSt Nat) (jobs : List (Job Nat)) (c : CSt Nat) (ts : List (Prog (CSt Nat) Unit)),
    ReachC (listPolicy Nat) (exCfg 3) c0 → (∀ j ∈ jobs, j.level < 16) →
    Exec (listPolicy Nat) (exCfg 3) c0 jobs c ts → (∀ t ∈ ts, t = .ret ()) →
    ∃ jobs', jobs'.Perm jobs ∧ c.idx.entry = (inOrder (listPolicy Nat) (exCfg 3) c0 jobs').idx.entry ∧
      c.idx.layers = (inOrder (listPolicy Nat) (exCfg 3) c0 jobs').idx.layers := by
  intro h
  obtain ⟨c, ts, he, hp⟩ := exHolds_exec (c0 := exOne) (jobs := [⟨[30], 30, 2⟩, ⟨[31], 31, 2⟩])
    (sched := List.replicate 18 0 ++ List.replicate 23 1 ++ [0])
    (p := fun c ts => ts.all isRet &&
      decide (c.idx.entry ≠ (inOrder (listPolicy Nat) (exCfg 3) exOne [⟨[30], 30, 2⟩, ⟨[31], 31, 2⟩]).idx.entry) &&
      decide (c.idx.layers ≠ (inOrder (listPolicy Nat) (exCfg 3) exOne [⟨[31], 31, 2⟩, ⟨[30], 30, 2⟩]).idx.layers))
    (by decide +kernel)
  simp only [Bool.and_eq_true] at hp
  obtain ⟨⟨h1, h2⟩, h3⟩ := hp
  obtain ⟨jobs', hperm, heq, heql⟩ := h exOne _ c ts (exSt_reach _ _ (by decide)) (by decide) he (isRet_finished h1)
  rcases perm_two hperm with rfl | rfl
  · exact of_decide_eq_true h2 heq
  · exact of_decide_eq_true h3 heql

/-- **C134**, what does not depend on the schedule nor on the order (partial for the level: the index had a point before,
and its entry point was on the highest populated layer; without it `C31_refuted`).  Two executions of the same calls, in
any two orders and under any two schedules (one of them may be the calls one after the other, `C134_serial`): every layer
has the same vectors and client ids, up to their order, and when all calls returned the entry points have the same level. -/
theorem C134_any_two_partial (L : P.Lawful) {c0 : CSt T} (h : ReachC P cfg c0) (ext kp : Bool)
    {jobs jobs' : List (Job T)} (hp : jobs'.Perm jobs) (hl : ∀ j ∈ jobs, j.level < cfg.maxLayer) {c c' : CSt T}
    {ts ts' : List (Prog (CSt T) Unit)} (he : Exec P (cfg.withFlags ext kp) c0 jobs c ts)
    (he' : Exec P (cfg.withFlags ext kp) c0 jobs' c' ts') (hf : ∀ t ∈ ts, t.Finished) (hf' : ∀ t ∈ ts', t.Finished) :
    (∀ l, ((c.idx.layer l).map fun p => (p.data, p.origin)).Perm ((c'.idx.layer l).map fun p => (p.data, p.origin))) ∧
    getNbPoint c.idx = getNbPoint c'.idx ∧
    (TopEntry c0.idx → (∀ t ∈ ts, t = .ret ()) → (∀ t ∈ ts', t = .ret ()) →
      getMaxLevelObserved c.idx = getMaxLevelObserved c'.idx) := by
  have hl' : ∀ j ∈ jobs', j.level < cfg.maxLayer := fun j hj => hl j (hp.mem_iff.1 hj)
  obtain ⟨h1, h2, -, h3⟩ := C29_exactly_once L h ext kp hl he hf
  obtain ⟨h1', h2', -, h3'⟩ := C29_exactly_once L h ext kp hl' he' hf'
  have hlay : ∀ l, ((c.idx.layer l).map fun p => (p.data, p.origin)).Perm
      ((c'.idx.layer l).map fun p => (p.data, p.origin)) := by
    intro l
    obtain ⟨v, hv, hvp⟩ := h1 l
    obtain ⟨v', hv', hvp'⟩ := h1' l
    rw [hv, hv', List.map_append, List.map_append, List.perm_append_left_iff]
    exact hvp.trans (((hp.symm.filter _).map _).trans hvp'.symm)
  refine ⟨hlay, by rw [h3, h3', hp.length_eq], fun htop hr hr' => ?_⟩
  have key : ∀ {a b : CSt T}, TopEntry a.idx → TopEntry b.idx →
      (∀ (l r : Nat) (p : Ref T), (a.idx.layer l)[r]? = some p → p.pid = ⟨l, r⟩) →
      (∀ (l r : Nat) (p : Ref T), (b.idx.layer l)[r]? = some p → p.pid = ⟨l, r⟩) →
      (∀ l, (a.idx.layer l).length = (b.idx.layer l).length) →
      getMaxLevelObserved a.idx ≤ getMaxLevelObserved b.idx := by
    rintro a b ⟨e, ha, hs, -⟩ ⟨e', hb, -, ht⟩ hia hib hlen
    simp only [getMaxLevelObserved, ha, hb]
    obtain ⟨l, hel⟩ := stored_iff.1 hs
    obtain ⟨r, hr⟩ := List.getElem?_of_mem hel
    have hlt : r < (b.idx.layer l).length := by
      rw [← hlen l]
      exact (List.getElem?_eq_some_iff.1 hr).1
    have hq := List.getElem?_eq_getElem hlt
    have := ht _ (stored_iff.2 ⟨l, List.mem_of_getElem? hq⟩)
    rw [hib l r _ hq] at this
    rw [hia l r e hr]
    exact this
  have ht := C31_entry_top_partial L h ext kp htop hl he hr
  have ht' := C31_entry_top_partial L h ext kp htop hl' he' hr'
  have hlen : ∀ l, (c.idx.layer l).length = (c'.idx.layer l).length := by
    intro l
    simpa using (hlay l).length_eq
  exact Nat.le_antisymm (key ht ht' h2 h2' hlen) (key ht' ht h2' h2 fun l => (hlen l).symm)

/-- the execution of `C134_entry_refuted` and the calls one after the other: other entry points, of the same level -/
example : TopEntry exOne.idx ∧ exHolds exOne [⟨[30], 30, 2⟩, ⟨[31], 31, 2⟩]
    (List.replicate 18 0 ++ List.replicate 23 1 ++ [0]) (fun c ts => ts.all isRet && getMaxLevelObserved c.idx == 2) = true ∧
    exHolds exOne [⟨[31], 31, 2⟩, ⟨[30], 30, 2⟩] (List.replicate 19 0 ++ List.replicate 23 1)
      (fun c ts => ts.all isRet && getMaxLevelObserved c.idx == 2) = true := by
  refine ⟨⟨⟨⟨0, 0⟩, 10, [10]⟩, by decide +kernel, ?_, ?_⟩, by decide +kernel, by decide +kernel⟩
  · exact (by decide +kernel : (⟨⟨0, 0⟩, 10, [10]⟩ : Ref Nat) ∈ exOne.idx.points)
  · exact (by decide +kernel : ∀ p ∈ exOne.idx.points, p.pid.layer ≤ 0)

/-! ## Reloaded indexes -/

section
variable {ty : Ty T} {defScale : Nat → F64} {dist : Dist T} {io : HnswIo} {fs : Dir} {x : Loaded T} {c0 c : CSt T}
  {ext kp : Bool} {jobs : List (Job T)} {ts : List (Prog (CSt T) Unit)}

theorem inOrder_layersOf (P : Policy T) (cfg : Cfg T) (s : Idx T) (js : List (Job T)) (c : CSt T) :
    inOrder P (cfg.layersOf s) c js = inOrder P cfg c js := by
  induction js generalizing c with
  | nil => rfl
  | cons j js ih =>
    have hins : insert P (cfg.layersOf s) c (j.data, j.id) j.level = insert P cfg c (j.data, j.id) j.level := by
      unfold insert
      rw [insertP_layersOf]
    unfold inOrder
    rw [hins]
    exact ih _

theorem prog_layersOf (P : Policy T) (cfg : Cfg T) (s : Idx T) :
    (Job.prog P (cfg.layersOf s) : Nat → Job T → _) = Job.prog P cfg := by
  funext n j
  unfold Job.prog
  rw [insertP_layersOf]

/-- **C134** in an index reloaded from whatever files, also after further insertions (partial: levels that the reloaded table
has, `C111_levels_refuted`): the table and the counter are those of the calls made one after the other in some order;
if no two calls overlap everything is what the calls made one after the other leave. -/
theorem C134_reloaded_partial (L : P.Lawful) (hx : LoadsOk P ty defScale dist io fs x) (h : Resumed P x.hnsw c0)
    (hl : ∀ j ∈ jobs, j.level < x.hnsw.idx.layers.length) (hf : ∀ t ∈ ts, t.Finished) :
    (Exec P (x.hnsw.cfg.withFlags ext kp) c0 jobs c ts →
      ∃ jobs', jobs'.Perm jobs ∧
        c.idx.layers = (inOrder P (x.hnsw.cfg.withFlags ext kp) c0 jobs').idx.layers ∧
        getNbPoint c.idx = getNbPoint (inOrder P (x.hnsw.cfg.withFlags ext kp) c0 jobs').idx) ∧
    ∀ sched : List Nat, sched.Pairwise (· ≤ ·) →
      runSched sched (c0, jobs.map (Job.prog P (x.hnsw.cfg.withFlags ext kp) (c0.idx.points.length + jobs.length + 2))) =
        some (c, ts) →
      c = inOrder P (x.hnsw.cfg.withFlags ext kp) c0 jobs := by
  obtain ⟨hg, ho, hs, -⟩ := h.good L hx
  have hg' : GoodCB (Base.of x.hnsw.idx) ((x.hnsw.cfg.withFlags ext kp).layersOf x.hnsw.idx) c0 :=
    (goodC_flags (e := ext) (k := kp)).2 hg
  constructor
  · intro he
    obtain ⟨jobs', h1, h2, h3⟩ := Exec.tableB L hg' ho hl (exec_layersOf.2 he) hf
    rw [inOrder_layersOf] at h2 h3
    exact ⟨jobs', h1, h2, h3⟩
  · intro sched hsch he
    rw [← prog_layersOf P _ x.hnsw.idx] at he
    have := runSched_inOrder L hf jobs [] c0 sched hg' ho hl (Nat.le_refl _) hsch (by simp) he
    rwa [inOrder_layersOf] at this

end

/-- Two insertions interleaved action by action in the index reloaded from a damaged file, which has 16 layers. -/
example : ∃ x, LoadsOk (listPolicy UInt8) u8Ty exScale u8Dist (HnswIo.new "a" .default) (damaged 137 0) x ∧
    x.hnsw.idx.layers.length = 16 ∧ Resumed (listPolicy UInt8) x.hnsw (CSt.ofIdx x.hnsw.idx) ∧
    ∃ c ts, Exec (listPolicy UInt8) (x.hnsw.cfg.withFlags false false) (CSt.ofIdx x.hnsw.idx)
      [⟨[11, 1], 7, 0⟩, ⟨[12, 1], 8, 0⟩] c ts ∧ ts.all isRet = true ∧ c.idx.points.length = 6 := by
  have h : ∃ x, selfIdx = some x := Option.isSome_iff_exists.1 (by decide +kernel)
  obtain ⟨x, hx⟩ := h
  have hL : LoadsOk (listPolicy UInt8) u8Ty exScale u8Dist (HnswIo.new "a" .default) (damaged 137 0) x :=
    loadsOk_toOption hx
  have hk : selfIdx.all (fun x => x.hnsw.idx.layers.length == 16 &&
      (match runSched (List.replicate 20 [0, 1]).flatten (CSt.ofIdx x.hnsw.idx,
          ([⟨[11, 1], 7, 0⟩, ⟨[12, 1], 8, 0⟩] : List (Job UInt8)).map
            (Job.prog (listPolicy UInt8) (x.hnsw.cfg.withFlags false false)
              ((CSt.ofIdx x.hnsw.idx).idx.points.length + 2 + 2))) with
       | some (c, ts) => ts.all isRet && c.idx.points.length == 6
       | none => false)) = true := by
    decide +kernel
  rw [hx] at hk
  simp only [Option.all_some, Bool.and_eq_true, beq_iff_eq] at hk
  obtain ⟨h2, h3⟩ := hk
  split at h3
  · rename_i c ts hr
    simp only [Bool.and_eq_true, beq_iff_eq] at h3
    exact ⟨x, hL, h2, .start, c, ts, runSched_steps _ _ _ hr, h3.1, h3.2⟩
  · cases h3

end Verif
