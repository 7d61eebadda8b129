import Verif.Props.Together
import Verif.Props.AnyInsert
import Verif.Props.AnyConc

set_option autoImplicit false

/-!
# C131: all kinds of readers together with insertions, in an index reloaded from any files

`LoadsOk … x`: a reload of some files, whatever their content, has given `x`. `Resumed P x.hnsw c0`: batches of concurrent
insertions lead from `x` to the state `c0`. `UExec … c0 jobs tasks m`: insertions and readers of all kinds, one thread each,
lead from `c0` to `m`.
-/

namespace Verif
variable {T α : Type} {P : Policy T} {nsort : NSort} {ty : Ty T} {defScale : Nat → F64} {dist0 : Dist T} {io0 : HnswIo}
  {fs0 : Dir} {x : Loaded T} {c0 : CSt T} {ext kp : Bool} {jobs : List (Job T)} {tasks : List (Task T α)} {m : USys T α}
  {i : Nat}

theorem uexec_layersOf {cfg : Cfg T} {s : Idx T} :
    UExec nsort P (cfg.layersOf s) c0 jobs tasks m ↔ UExec nsort P cfg c0 jobs tasks m := by
  have h : (Task.reader P (cfg.layersOf s) : Nat → Task T α → _) = Task.reader P cfg := by
    funext n t
    cases t with
    | search r => simp only [Task.reader, Req.prog, searchP_layersOf]
    | _ => rfl
  unfold UExec
  rw [prog_layersOf, h]

/-- what is known about the state before -/
theorem Resumed.goodFlags (L : P.Lawful) (hx : LoadsOk P ty defScale dist0 io0 fs0 x)
    (hc : Resumed P x.hnsw c0) (ext kp : Bool) :
    GoodCB (Base.of x.hnsw.idx) ((x.hnsw.cfg.withFlags ext kp).layersOf x.hnsw.idx) c0 ∧ (Base.of x.hnsw.idx).Owned c0.idx := by
  obtain ⟨hg, ho, -⟩ := hc.good L hx
  exact ⟨(goodC_flags (e := ext) (k := kp)).2 hg, ho⟩

/-- **C131** (searches; partial: levels that the reloaded table has) A search that runs with insertions and readers of all kinds in
a reloaded index: its answers are records of points of the index, with their true distances, all different, at most
`knbn`; if its distances are legal it does not panic, and if `knbn` is positive it returns something. -/
theorem C131_search_partial (L : P.Lawful) (hx : LoadsOk P ty defScale dist0 io0 fs0 x)
    (hc : Resumed P x.hnsw c0) (hl : ∀ j ∈ jobs, j.level < x.hnsw.idx.layers.length) (hok : ∀ t ∈ tasks, t.OK)
    (he : UExec nsort P (x.hnsw.cfg.withFlags ext kp) c0 jobs tasks m) {r : Req T} (ht : tasks[i]? = some (.search r)) :
    (∀ ns, m.rds[i]? = some (.search (.ret ns)) → ns.length ≤ r.knbn ∧ (ns.map (·.pId)).Nodup ∧
      ∀ n ∈ ns, ∃ p ∈ m.st.idx.points, n = ⟨p.origin, dist0.eval r.query p.data, p.pid⟩) ∧
    ((∀ a ∈ c0.idx.points.map (·.data) ++ jobs.map (·.data), (dist0.eval r.query a).Legal) →
      r.filt = none ∨ 1 ≤ max r.ef r.knbn →
      (∀ e, m.rds[i]? ≠ some (.search (.fail e))) ∧ (1 ≤ r.knbn → m.rds[i]? ≠ some (.search (.ret [])))) := by
  have key : ∀ u, m.rds[i]? = some (.search u) →
      MExec P (x.hnsw.cfg.withFlags ext kp) c0 jobs [r] ⟨m.st, m.ins, [u]⟩ :=
    fun u hu => (UExec.tasks hok he).2.2.2 i _ _ ht hu
  have h1 := fun u hu => C111_search_partial L hx hc hl (key u hu) (i := 0) rfl
  refine ⟨fun ns hu => (h1 _ hu).2.2 ns rfl, fun hL hf => ⟨fun e hu => ?_, fun hk hu => ?_⟩⟩
  · exact ((h1 _ hu).2.1 hL hf).1 e rfl
  · exact ((h1 _ hu).2.1 hL hf).2 hk rfl

/-- **C131** (accessors; partial: levels that the reloaded table has) `get_point_data` does not panic, a vector it returns is the one
of the stored point that has the id asked for, and the points that were not above the entry point before are found. -/
theorem C131_point_data_partial (L : P.Lawful) (hx : LoadsOk P ty defScale dist0 io0 fs0 x)
    (hc : Resumed P x.hnsw c0) (hl : ∀ j ∈ jobs, j.level < x.hnsw.idx.layers.length)
    {tasks : List (Task T (Option (List T)))} {m : USys T (Option (List T))} (hok : ∀ t ∈ tasks, t.OK)
    (he : UExec nsort P (x.hnsw.cfg.withFlags ext kp) c0 jobs tasks m) {l : Nat} {r : Int}
    (ht : tasks[i]? = some (.access (pointDataP l r))) (hr : 0 ≤ r) :
    (∀ e, m.rds[i]? ≠ some (.access (.fail e))) ∧
    ∀ a, m.rds[i]? = some (.access (.ret a)) →
      (∀ v, a = some v → ∃ p ∈ m.st.idx.points, p.pid = ⟨l, r.toNat⟩ ∧ p.data = v) ∧
      ∃ e, c0.idx.entry = some e ∧
        ∀ p ∈ c0.idx.points, p.pid = ⟨l, r.toNat⟩ → l ≤ e.pid.layer → a = some p.data := by
  have hu : ReadOnly (pointDataP (T := T) l r) := hok _ (List.mem_of_getElem? ht)
  have key : ∀ u, m.rds[i]? = some (.access u) →
      GSteps (accStart P (x.hnsw.cfg.withFlags ext kp) c0 jobs [pointDataP l r]) ⟨m.st, m.ins, [u]⟩ :=
    fun u hu => (UExec.tasks hok he).2.2.2 i _ _ ht hu
  have h1 := fun u hm => C128_resumed_partial L hx hc hl (us := [pointDataP l r]) (by simpa using hu) (i := 0) rfl hr
    (key u hm)
  exact ⟨fun e hm => (h1 _ hm).1 e rfl, fun a hm => ((h1 _ hm).2 a rfl).2⟩

/-- **C131** (iterations; partial: levels that the reloaded table has; the points up to the level of the entry point) An
iteration does not panic; when it ends it has yielded points of the table as it was when the iterator was made, in order, none
twice, all those that were not above the entry point of that moment. -/
theorem C131_iter_partial (L : P.Lawful) (hx : LoadsOk P ty defScale dist0 io0 fs0 x)
    (hc : Resumed P x.hnsw c0) (hl : ∀ j ∈ jobs, j.level < x.hnsw.idx.layers.length) (hok : ∀ t ∈ tasks, t.OK)
    (he : UExec nsort P (x.hnsw.cfg.withFlags ext kp) c0 jobs tasks m) (ht : tasks[i]? = some .iter) :
    (∀ y, m.rds[i]? ≠ some (.iter (.failed y))) ∧
    ∀ s0 out, m.rds[i]? = some (.iter (.ended s0 out)) →
      out <+: s0.points ∧ (out.map (·.pid)).Nodup ∧ (∀ p ∈ c0.idx.points, p ∈ s0.points) ∧
      (∀ p ∈ out, p ∈ m.st.idx.points) ∧
      ∃ e, s0.entry = some e ∧ ∀ p ∈ s0.points, p.pid.layer ≤ e.pid.layer → p ∈ out := by
  have key : ∀ u, m.rds[i]? = some (.iter u) → IExec P (x.hnsw.cfg.withFlags ext kp) c0 jobs ⟨m.st, m.ins, u⟩ :=
    fun u hu => (UExec.tasks hok he).2.2.2 i _ _ ht hu
  refine ⟨fun y hm => C124_no_panic_partial L hx hc hl (key _ hm) y rfl, fun s0 out hm => ?_⟩
  obtain ⟨h1, h2, -, h4, h5⟩ := C124_prefix_partial L hx hc hl (key _ hm) (.inr rfl)
  obtain ⟨e, h6, -, h7⟩ := C124_complete_partial L hx hc hl (key _ hm) rfl
  exact ⟨h1, h2, h4, h5, e, h6, h7⟩

/-- **C131** (layer iterator; partial: levels that the reloaded table has) A loop on an existing layer does not panic; when it ends
it has yielded points of this layer, stored now, none twice, and all those that were stored before. -/
theorem C131_layer_partial (L : P.Lawful) (hx : LoadsOk P ty defScale dist0 io0 fs0 x)
    (hc : Resumed P x.hnsw c0) (hl : ∀ j ∈ jobs, j.level < x.hnsw.idx.layers.length) (hok : ∀ t ∈ tasks, t.OK)
    (he : UExec nsort P (x.hnsw.cfg.withFlags ext kp) c0 jobs tasks m) {l : Nat} (ht : tasks[i]? = some (.layer l)) :
    (l < x.hnsw.idx.layers.length → ∀ l' y, m.rds[i]? ≠ some (.layer (.failed l' y))) ∧
    ∀ l' s0 out, m.rds[i]? = some (.layer (.ended l' s0 out)) →
      (∀ p ∈ out, p ∈ m.st.idx.points ∧ p.pid.layer = l) ∧ (out.map (·.pid)).Nodup ∧
      ∀ p ∈ c0.idx.points, p.pid.layer = l → p ∈ out := by
  obtain ⟨hg, ho⟩ := hc.goodFlags L hx ext kp
  have he' := (uexec_layersOf (s := x.hnsw.idx)).2 he
  constructor
  · intro hlt l' y hm
    obtain ⟨-, s0, hw, hle⟩ := (UExec.tasks hok he').2.2.2 i _ _ ht hm
    have := (hw.factsB L hg ho hl).1.tab.len
    have h2 : ((x.hnsw.cfg.withFlags ext kp).layersOf x.hnsw.idx).maxLayer = x.hnsw.idx.layers.length := rfl
    omega
  · intro l' s0 out hm
    obtain ⟨-, hw, rfl⟩ := (UExec.tasks hok he').2.2.2 i _ _ ht hm
    exact hw.layer L hg ho hl l

/-- **C131** (dumps; partial: levels that the reloaded table has) The number of points that a dump puts in its header is not larger than
the number of points it writes; it writes all the points stored before and only stored points, with links to points it
writes. -/
theorem C131_dump_partial (L : P.Lawful) (hx : LoadsOk P ty defScale dist0 io0 fs0 x)
    (hc : Resumed P x.hnsw c0) (hl : ∀ j ∈ jobs, j.level < x.hnsw.idx.layers.length) (hok : ∀ t ∈ tasks, t.OK)
    (he : UExec nsort P (x.hnsw.cfg.withFlags ext kp) c0 jobs tasks m) (ht : tasks[i]? = some .dump) {d : Nat} {s : Idx T}
    (hm : m.rds[i]? = some (.dump (.done d s))) :
    s.nbPoint ≤ s.points.length ∧ (∀ p ∈ c0.idx.points, p ∈ s.points) ∧ (∀ p ∈ s.points, p ∈ m.st.idx.points) ∧
    ∀ p l, ∀ e ∈ s.nb p l, e.pt ∈ s.points := by
  obtain ⟨hg, ho⟩ := hc.goodFlags L hx ext kp
  have he' := (uexec_layersOf (s := x.hnsw.idx)).2 he
  have hD : DExec P _ c0 jobs ⟨m.st, m.ins, .done d s⟩ := (UExec.tasks hok he').2.2.2 i _ _ ht hm
  have := dumpOKB L hg ho hl (fun _ => True) (fun _ _ => trivial) (fun _ _ => trivial) (fun _ => True)
    (fun _ _ => trivial) hD
  simp only [DumpOKB] at this
  obtain ⟨-, h3, h4, h5, h6, -⟩ := this
  exact ⟨h3, h5, h6, fun p l e hel => h4.stored p l e hel⟩

/-- **C131** (flattenings; partial: levels that the reloaded table has; the points up to the level of the entry point) A
flattening does not panic if no link of the files is a NaN; when it ends it knows the points its iterator yielded, with
links that lead to stored points, sorted by distance if the files have no NaN for the point; the points yielded are all those of the table that were not above the entry point
when the iterator was made. -/
theorem C131_flatten_partial (N : NSortLawful nsort) (L : P.Lawful) (hx : LoadsOk P ty defScale dist0 io0 fs0 x)
    (hc : Resumed P x.hnsw c0) (hl : ∀ j ∈ jobs, j.level < x.hnsw.idx.layers.length)
    (hok : ∀ t ∈ tasks, t.OK) (he : UExec nsort P (x.hnsw.cfg.withFlags ext kp) c0 jobs tasks m)
    (ht : tasks[i]? = some .flatten) :
    (NumLinks x.hnsw.idx → ∀ y, m.rds[i]? ≠ some (.flatten (.failed y))) ∧
    ∀ s0 out f, m.rds[i]? = some (.flatten (.ended s0 out f)) →
      (∀ a p b, out = a ++ p :: b → (∀ q ∈ b, q.origin ≠ p.origin) →
        ∃ ns, f.getNeighbours p.origin = some ns ∧
          ((∀ l, ∀ e ∈ x.hnsw.idx.nb p.pid l, e.dist.isNaN = false) → SortedAnswers ns) ∧
          ∀ n ∈ ns, ∃ q ∈ m.st.idx.points, n.dId = q.origin ∧ n.pId = q.pid) ∧
      (∀ id, (∀ p ∈ out, p.origin ≠ id) → f.getNeighbours id = none) ∧
      ∃ e, s0.entry = some e ∧ ∀ p ∈ s0.points, p.pid.layer ≤ e.pid.layer → p ∈ out := by
  have key : ∀ u, m.rds[i]? = some (.flatten u) →
      FSteps nsort (flattenStart P (x.hnsw.cfg.withFlags ext kp) c0 jobs) ⟨m.st, m.ins, u⟩ :=
    fun u hu => (UExec.tasks hok he).2.2.2 i _ _ ht hu
  have h1 := fun u hm => C129_resumed_partial N L hx hc hl (key u hm)
  refine ⟨fun hN y hm => (h1 _ hm).1 hN y rfl, fun s0 out f hm => ?_⟩
  obtain ⟨h2, h3, h4⟩ := (h1 _ hm).2 s0 out f rfl
  refine ⟨fun a p b ha hb => ?_, h3, h4⟩
  obtain ⟨ns, i1, i2, -, i4⟩ := h2 a p b ha hb
  exact ⟨ns, i1, i2, i4⟩

/-- **C131** (no infinite schedule; partial: levels that the reloaded table has) Any schedule of insertions and readers in a reloaded
index is finite. -/
theorem C131_no_infinite_schedule_partial (N : NSortLawful nsort) (L : P.Lawful)
    (hx : LoadsOk P ty defScale dist0 io0 fs0 x) (hc : Resumed P x.hnsw c0)
    (hl : ∀ j ∈ jobs, j.level < x.hnsw.idx.layers.length) (hok : ∀ t ∈ tasks, t.OK) (f : Nat → USys T α)
    (h0 : UExec nsort P (x.hnsw.cfg.withFlags ext kp) c0 jobs tasks (f 0)) : ¬ ∀ n, UStep nsort (f n) (f (n + 1)) := by
  intro hs
  obtain ⟨hg, ho⟩ := hc.goodFlags L hx ext kp
  have hall : ∀ n, UExec nsort P ((x.hnsw.cfg.withFlags ext kp).layersOf x.hnsw.idx) c0 jobs tasks (f n) := by
    intro n
    induction n with
    | zero => exact uexec_layersOf.2 h0
    | succ n ih => exact .step ih (hs n)
  have : ∀ y, ∀ n, f n ≠ y := by
    intro y
    induction y using (UExec.wf N L hg ho (hc.layer L hx) hl hok).induction with
    | h y ih =>
      rintro n rfl
      exact ih (f (n + 1)) ⟨hall n, hs n⟩ (n + 1) rfl
  exact this _ 0 rfl

/-- **C131** (completion; partial: levels that the reloaded table has, and as `C32_progress_partial` the points inserted
concurrently have all drawn the same level, or there are two of them one of which is of level 0) From any state all the
insertions and all the readers can finish. -/
theorem C131_completes_partial (N : NSortLawful nsort) (L : P.Lawful) (hx : LoadsOk P ty defScale dist0 io0 fs0 x)
    (hc : Resumed P x.hnsw c0) (hl : ∀ j ∈ jobs, j.level < x.hnsw.idx.layers.length)
    (hlv : (∀ j ∈ jobs, ∀ j' ∈ jobs, j.level = j'.level) ∨ (jobs.length ≤ 2 ∧ ∃ j ∈ jobs, j.level = 0))
    (hok : ∀ t ∈ tasks, t.OK) (he : UExec nsort P (x.hnsw.cfg.withFlags ext kp) c0 jobs tasks m) :
    ∃ m', USteps nsort m m' ∧ (∀ t ∈ m'.ins, t.Finished) ∧ ∀ r ∈ m'.rds, r.Finished := by
  obtain ⟨hg, ho⟩ := hc.goodFlags L hx ext kp
  induction m using (UExec.wf (nsort := nsort) N L hg ho (hc.layer L hx) hl hok).induction with
  | h m ih =>
  have next : ∀ m1, UStep nsort m m1 →
      ∃ m', USteps nsort m m' ∧ (∀ t ∈ m'.ins, t.Finished) ∧ ∀ r ∈ m'.rds, r.Finished := by
    intro m1 hs
    obtain ⟨m', h1, h2⟩ := ih m1 ⟨uexec_layersOf.2 he, hs⟩ (.step he hs)
    exact ⟨m', (USteps.step (.refl _) hs).trans h1, h2⟩
  by_cases hr : ∀ r ∈ m.rds, r.Finished
  · by_cases hi : ∀ t ∈ m.ins, t.Finished
    · exact ⟨m, .refl _, hi, hr⟩
    · have hu : ∃ t ∈ m.ins, ¬ t.Finished := by
        apply Classical.byContradiction
        intro hn
        exact hi (fun t ht => Classical.byContradiction fun h' => hn ⟨t, ht, h'⟩)
      obtain ⟨⟨s, ts⟩, hs⟩ := (C111_progress_partial L hx hc hl hlv (C130_insertions hok he)).1 hu
      refine next ⟨s, ts, m.rds⟩ (.ins hs ?_)
      rintro ⟨r, hrm, hh⟩
      rw [Reader.not_holds (hr r hrm)] at hh
      cases hh
  · have hu : ∃ r ∈ m.rds, ¬ r.Finished := by
      apply Classical.byContradiction
      intro hn
      exact hr (fun t ht => Classical.byContradiction fun h' => hn ⟨t, ht, h'⟩)
    obtain ⟨r, hrm, hf⟩ := hu
    obtain ⟨i, hi⟩ := List.getElem?_of_mem hrm
    obtain ⟨r', hs⟩ := C130_readers_enabled hok he hi hf
    exact next _ hs

/-! ## A damaged file -/

/-- a search, a call of `get_point_data`, an iteration, a loop on layer 0, a dump and a flattening -/
def dmTasks : List (Task UInt8 (Option (List UInt8))) :=
  [.search ⟨[11, 1], 3, 3, none⟩, .access (pointDataP 0 0), .iter, .layer 0, .dump, .flatten]

/-- the readers take turns with the insertion, written `none` -/
def dmTurns : List (Nat ⊕ Nat) :=
  ([none] ++ (List.replicate 4 [none, some 0, some 1, some 2, some 3, some 4, some 5]).flatten ++
    [none, some 0, some 2, some 3, some 4, some 5] ++ (List.replicate 2 [none, some 0, some 2, some 4, some 5]).flatten ++
    (List.replicate 2 [none, some 4, some 5]).flatten ++ (List.replicate 3 [none, some 5]).flatten ++
    List.replicate 8 none).map fun (t : Option Nat) => t.elim (.inl 0) .inr

/-- what a reader has brought, at the end -/
def dmResult : Reader UInt8 (Option (List UInt8)) → Option (List (List UInt8))
  | .search (.ret ns) => some [ns.map (·.dId.toNat.toUInt8)]
  | .access (.ret a) => some a.toList
  | .iter (.ended _ out) => some (out.map (·.data))
  | .layer (.ended _ _ out) => some (out.map (·.data))
  | .dump (.done _ s) => some (s.points.map (·.data))
  | .flatten (.ended _ out _) => some (out.map (·.data))
  | _ => none

/-- the start -/
def dmStart (x : Loaded UInt8) : USys UInt8 (Option (List UInt8)) :=
  ⟨CSt.ofIdx x.hnsw.idx, dmProgs x, dmTasks.map (Task.reader (listPolicy UInt8) (x.hnsw.cfg.withFlags true false)
    ((CSt.ofIdx x.hnsw.idx).idx.points.length + [dmJob].length + 2))⟩

/-- the hypotheses are met by the file whose point `⟨0, 0⟩` has a link to itself with a wrong distance; the new point is in
the table when the iterations and the dump lock it, and is not linked when the search looks -/
example : ∃ x m, LoadsOk (listPolicy UInt8) u8Ty exScale u8Dist (HnswIo.new "a" .default) (damaged 137 0) x ∧
    NumLinks x.hnsw.idx ∧ Resumed (listPolicy UInt8) x.hnsw (CSt.ofIdx x.hnsw.idx) ∧
    (∀ j ∈ [dmJob], j.level < x.hnsw.idx.layers.length) ∧ (∀ t ∈ dmTasks, t.OK) ∧
    UExec nsortAsc (listPolicy UInt8) (x.hnsw.cfg.withFlags true false) (CSt.ofIdx x.hnsw.idx) [dmJob] dmTasks m ∧
    m.rds.map dmResult = [some [[7]], some [[10, 1]], some [[10, 1], [30, 3], [11, 1], [20, 2], [25, 4]],
      some [[10, 1], [30, 3], [11, 1]], some [[10, 1], [30, 3], [11, 1], [20, 2], [25, 4]],
      some [[10, 1], [30, 3], [11, 1], [20, 2], [25, 4]]] ∧ m.ins.map isRet = [true] := by
  obtain ⟨x, hx⟩ : ∃ x, selfIdx = some x := Option.isSome_iff_exists.1 (by decide +kernel)
  have hL : LoadsOk (listPolicy UInt8) u8Ty exScale u8Dist (HnswIo.new "a" .default) (damaged 137 0) x :=
    loadsOk_toOption hx
  have hk : selfIdx.all (fun x => dmTest x && (runAll nsortAsc dmTurns (dmStart x)).any fun m =>
      m.rds.map dmResult == [some [[7]], some [[10, 1]], some [[10, 1], [30, 3], [11, 1], [20, 2], [25, 4]],
        some [[10, 1], [30, 3], [11, 1]], some [[10, 1], [30, 3], [11, 1], [20, 2], [25, 4]],
        some [[10, 1], [30, 3], [11, 1], [20, 2], [25, 4]]] && m.ins.map isRet == [true]) = true := by
    decide +kernel
  rw [hx] at hk
  simp only [Option.all_some, Bool.and_eq_true, beq_iff_eq, dmTest] at hk
  obtain ⟨⟨⟨⟨h1, h2⟩, -⟩, -⟩, h3⟩ := hk
  rw [Option.any_eq_true] at h3
  obtain ⟨m, hm, h3⟩ := h3
  simp only [Bool.and_eq_true, beq_iff_eq] at h3
  refine ⟨x, m, hL, hL.num listPolicy_lawful h1, .start, by rw [h2]; decide, ?_, runAll_steps _ _ _ hm, h3.1, h3.2⟩
  intro t ht
  simp only [dmTasks, List.mem_cons, List.not_mem_nil, or_false] at ht
  rcases ht with rfl | rfl | rfl | rfl | rfl | rfl
  case inr.inl => exact pointP_ro _ _ _
  all_goals trivial

end Verif
