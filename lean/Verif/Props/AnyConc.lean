import Verif.IterConcLemmas
import Verif.Props.AnyDump
import Verif.Props.DumpConc

set_option autoImplicit false

/-!
# C124, C125: iterations and dumps during insertions in whatever was reloaded

`LoadsOk … io fs x`, `NumLinks`, `Resumed`, `Continued`: as in C111 and C112.
`IExec`, `DExec`: an iteration (C108), a dump (C87) interleaved with insertions.
-/

namespace Verif
variable {T : Type} {P : Policy T} {ty : Ty T} {defScale : Nat → F64} {dist0 dist : Dist T} {io0 : HnswIo} {fs0 : Dir}
  {x : Loaded T} {c0 : CSt T} {h : Hnsw T} {ext kp : Bool} {jobs : List (Job T)}

theorem prog_layersOf (P : Policy T) (cfg : Cfg T) (s : Idx T) :
    (Job.prog P (cfg.layersOf s) : Nat → Job T → _) = Job.prog P cfg := by
  funext n j
  unfold Job.prog
  rw [insertP_layersOf]

theorem iexec_layersOf {cfg : Cfg T} {s : Idx T} {m : ISys T} :
    IExec P (cfg.layersOf s) c0 jobs m ↔ IExec P cfg c0 jobs m := by
  unfold IExec; rw [prog_layersOf]

theorem dexec_layersOf {cfg : Cfg T} {s : Idx T} {m : DSys T} :
    DExec P (cfg.layersOf s) c0 jobs m ↔ DExec P cfg c0 jobs m := by
  unfold DExec; rw [prog_layersOf]

/-- there is an entry point -/
theorem Resumed.entry (L : P.Lawful) (hx : LoadsOk P ty defScale dist0 io0 fs0 x)
    (hc : Resumed P x.hnsw c0) : c0.idx.entry ≠ none := by
  obtain ⟨d, b, dm, o, s1, m, s2, hld, -⟩ := hx.parts
  obtain ⟨-, -, ⟨e0, -, he0⟩, -⟩ := loadIndexation_ok L hld
  obtain ⟨hg, -, hs, -⟩ := hc.good L hx
  exact hg.entry (List.ne_nil_of_mem (hs e0 he0))

/-- and a layer -/
theorem Resumed.layer (L : P.Lawful) (hx : LoadsOk P ty defScale dist0 io0 fs0 x)
    (hc : Resumed P x.hnsw c0) : 0 < x.hnsw.idx.layers.length := by
  obtain ⟨e, he⟩ := Option.ne_none_iff_exists'.mp (hc.entry L hx)
  obtain ⟨hg, -⟩ := hc.good L hx
  exact Nat.lt_of_le_of_lt (Nat.zero_le _) (hg.inv.okB.tab.layer_lt (hg.inv.okB.entry e he))

theorem Resumed.iterOK (L : P.Lawful) (hx : LoadsOk P ty defScale dist0 io0 fs0 x)
    (hc : Resumed P x.hnsw c0) (hl : ∀ j ∈ jobs, j.level < x.hnsw.idx.layers.length) {m : ISys T}
    (he : IExec P (x.hnsw.cfg.withFlags ext kp) c0 jobs m) : IterOK c0 m := by
  obtain ⟨hg, ho, -⟩ := hc.good L hx
  have hg' : GoodCB (Base.of x.hnsw.idx) ((x.hnsw.cfg.layersOf x.hnsw.idx).withFlags ext kp) c0 :=
    (goodC_flags (e := ext) (k := kp)).2 hg
  exact iterOKB L hg' ho (hc.layer L hx) hl
    ((iexec_layersOf (cfg := x.hnsw.cfg.withFlags ext kp) (s := x.hnsw.idx)).2 he)

/-! ## Iterations -/

/-- **C124** (partial: levels that the reloaded table has) An iteration made during insertions in an index that was reloaded
from any files yields a prefix of the points the table had when the iterator was made, each once, in the order of the
table; this table had all the points of the files, and the points yielded are points of the index. -/
theorem C124_prefix_partial (L : P.Lawful) (hx : LoadsOk P ty defScale dist0 io0 fs0 x)
    (hc : Resumed P x.hnsw c0) (hl : ∀ j ∈ jobs, j.level < x.hnsw.idx.layers.length) {m : ISys T}
    (he : IExec P (x.hnsw.cfg.withFlags ext kp) c0 jobs m) {s0 : Idx T} {out : List (Ref T)}
    (hi : (∃ pos, m.it = .live s0 pos out) ∨ m.it = .ended s0 out) :
    out <+: s0.points ∧ (out.map (·.pid)).Nodup ∧ (∀ p ∈ x.hnsw.idx.points, p ∈ s0.points) ∧
      (∀ p ∈ c0.idx.points, p ∈ s0.points) ∧ ∀ p ∈ out, p ∈ m.st.idx.points := by
  have ok := hc.iterOK L hx hl he
  have hs := (hc.good L hx).2.2.1
  rcases hi with ⟨pos, hi⟩ | hi
  · simp only [IterOK, hi] at ok
    obtain ⟨i1, i2, i3, i4, i5, l, r, i6, i7, i8⟩ := ok
    have hpre : out <+: s0.points := ⟨_, i8⟩
    exact ⟨hpre, (hpre.map _).sublist.nodup i5, fun p hp => i2 p (hs p hp), i2,
      fun p hp => (stored_layers i1 p).2 (hpre.subset hp)⟩
  · simp only [IterOK, hi] at ok
    obtain ⟨i1, i2, i3, i4, rest, i5, i6⟩ := ok
    have hpre : out <+: s0.points := ⟨_, i5⟩
    exact ⟨hpre, (hpre.map _).sublist.nodup i3, fun p hp => i1 p (hs p hp), i1,
      fun p hp => i4 p (hpre.subset hp)⟩

/-- **C124** (partial: levels that the reloaded table has; the points up to the level of the entry point) An iteration that comes
to its end has yielded each point of that table which was not above the entry point of that moment; and there was an entry
point.  Missing: the points above (`C108_refuted`). -/
theorem C124_complete_partial (L : P.Lawful) (hx : LoadsOk P ty defScale dist0 io0 fs0 x)
    (hc : Resumed P x.hnsw c0) (hl : ∀ j ∈ jobs, j.level < x.hnsw.idx.layers.length) {m : ISys T}
    (he : IExec P (x.hnsw.cfg.withFlags ext kp) c0 jobs m) {s0 : Idx T} {out : List (Ref T)}
    (hi : m.it = .ended s0 out) :
    ∃ e, s0.entry = some e ∧ (∃ e', c0.idx.entry = some e' ∧ e'.pid.layer ≤ e.pid.layer) ∧
      ∀ p ∈ s0.points, p.pid.layer ≤ e.pid.layer → p ∈ out := by
  have ok := hc.iterOK L hx hl he
  simp only [IterOK, hi] at ok
  obtain ⟨i1, i2, i3, i4, rest, i5, i6⟩ := ok
  obtain ⟨e', he'⟩ := Option.ne_none_iff_exists'.mp (hc.entry L hx)
  obtain ⟨e, hee, hle⟩ := i2 e' he'
  refine ⟨e, hee, ⟨e', he', hle⟩, fun p hp hle => ?_⟩
  rw [← i5] at hp
  rcases List.mem_append.1 hp with hp | hp
  · exact hp
  · have := i6 e hee p hp
    omega

/-- **C124** (partial: levels that the reloaded table has) It does not panic. -/
theorem C124_no_panic_partial (L : P.Lawful) (hx : LoadsOk P ty defScale dist0 io0 fs0 x)
    (hc : Resumed P x.hnsw c0) (hl : ∀ j ∈ jobs, j.level < x.hnsw.idx.layers.length) {m : ISys T}
    (he : IExec P (x.hnsw.cfg.withFlags ext kp) c0 jobs m) (y : Panic) : m.it ≠ .failed y := by
  intro hi
  have ok := hc.iterOK L hx hl he
  simp only [IterOK, hi] at ok
  exact hc.entry L hx ok

/-! ## Dumps -/

/-- what the executions of a dump and insertions of vectors of length `n` give -/
theorem Continued.torn (L : P.Lawful) (hx : LoadsOk P ty defScale dist0 io0 fs0 x) (hN : NumLinks x.hnsw.idx)
    (hc : Resumed P x.hnsw c0) (hh : Continued x.hnsw c0 h) {n : Nat}
    (hv : ∀ p ∈ c0.idx.points, p.data.length = n) (hj : ∀ j ∈ jobs, j.data.length = n)
    (hl : ∀ j ∈ jobs, j.level < x.hnsw.idx.layers.length) {m : DSys T} (he : DExec P h.cfg c0 jobs m) {d : Nat}
    {s : Idx T} (hd : m.dump = .done d s) :
    d = n ∧ s.nbPoint ≤ s.points.length ∧ Coherent s ∧ s.entry ≠ none ∧ (∀ p ∈ s.points, p.data.length = n) ∧
      (∀ p ∈ c0.idx.points, p ∈ s.points) ∧ (∀ p ∈ s.points, p ∈ m.st.idx.points) ∧
      (∀ p ∈ s.points, ReadAt
        ⟨c0, jobs.map (Job.prog P h.cfg (c0.idx.points.length + jobs.length + 2)), .start⟩ m s.nb p) := by
  obtain ⟨ext, kp, hcfg⟩ := hh.cfg
  obtain ⟨hg, ho, -⟩ := hc.good L hx
  have hg' : GoodCB (Base.of x.hnsw.idx) ((x.hnsw.cfg.layersOf x.hnsw.idx).withFlags ext kp) c0 :=
    (goodC_flags (e := ext) (k := kp)).2 hg
  rw [hcfg] at he
  have he' := (dexec_layersOf (cfg := x.hnsw.cfg.withFlags ext kp) (s := x.hnsw.idx)).2 he
  have hent := hc.entry L hx
  have hf := Exec.factsB L hg' ho hl he'.exec (fun v => v.length = n) hv hj
  have := dumpOKB L hg' ho hl (fun v => v.length = n) hv hj (fun d => d = n) (fun s hs => by
      obtain ⟨e, he⟩ := Option.ne_none_iff_exists'.mp hent
      obtain ⟨e', he', -⟩ := hs.entry e he
      unfold getDataDimension
      rw [he']
      exact hs.data e' (hs.ok.entry e' he')) he'
  simp only [DumpOKB, hd] at this
  obtain ⟨h1, h3, h4, h5, h6, h7, h8⟩ := this
  refine ⟨h1, h3, hx.coherent L hN (idxOKB_flags.1 h4), ?_, fun p hp => hf.data p (h6 p hp), h5, h6, ?_⟩
  · obtain ⟨e, he⟩ := Option.ne_none_iff_exists'.mp hent
    obtain ⟨e', he', -⟩ := h7 e he
    rw [he']; simp
  · rw [hcfg]
    have hp : (Job.prog P (x.hnsw.cfg.withFlags ext kp) : Nat → Job T → _) =
        Job.prog P ((x.hnsw.cfg.layersOf x.hnsw.idx).withFlags ext kp) :=
      (prog_layersOf P (x.hnsw.cfg.withFlags ext kp) x.hnsw.idx).symm
    rw [hp]
    exact h8

/-- what the theorems about the files of such a dump need -/
theorem Continued.tornOK (L : P.Lawful) (hx : LoadsOk P ty defScale dist0 io0 fs0 x) (hN : NumLinks x.hnsw.idx)
    (hc : Resumed P x.hnsw c0) (hh : Continued x.hnsw c0 h) {n : Nat}
    (hv : ∀ p ∈ c0.idx.points, p.data.length = n) (hj : ∀ j ∈ jobs, j.data.length = n)
    (hl : ∀ j ∈ jobs, j.level < x.hnsw.idx.layers.length) {m : DSys T} (he : DExec P h.cfg c0 jobs m) {d : Nat}
    {s : Idx T} (hd : m.dump = .done d s) (hs : Sizes ty { h with idx := s }) (h16 : x.hnsw.cfg.maxLayer = 16) :
    TornOK ty h d s := by
  obtain ⟨h1, h2, h3, h4, h5, -⟩ := hh.torn L hx hN hc hv hj hl he hd
  refine ⟨⟨⟨⟨h3.ids, h3.few, h3.owner, h3.lay, h3.stored, h3.num, h3.sorted, h3.fit, h3.entry⟩, rfl,
    hh.maxLayer.trans h16, h4, hs.ranks⟩, hs.ef, hs.dist, hs.tname, hs.vec⟩, ?_, h2⟩
  obtain ⟨e, hee⟩ := Option.ne_none_iff_exists'.mp h4
  have h8 := (hs.vec e (h3.entry e hee)).2
  have h9 := h5 e (h3.entry e hee)
  omega

/-- **C125** (partial: levels that the reloaded table has) The number of points written by a dump made during insertions in a
reloaded index is not larger than the number of points it writes. -/
theorem C125_never_more_partial (L : P.Lawful) (hx : LoadsOk P ty defScale dist0 io0 fs0 x)
    (hc : Resumed P x.hnsw c0) (hh : Continued x.hnsw c0 h) (hl : ∀ j ∈ jobs, j.level < x.hnsw.idx.layers.length)
    {m : DSys T} (he : DExec P h.cfg c0 jobs m) {d : Nat} {s : Idx T} (hd : m.dump = .done d s) :
    s.nbPoint ≤ s.points.length := by
  obtain ⟨ext, kp, hcfg⟩ := hh.cfg
  obtain ⟨hg, ho, -⟩ := hc.good L hx
  rw [hcfg] at he
  have := dumpOKB L ((goodC_flags (e := ext) (k := kp)).2 hg) ho hl (fun _ => True) (fun _ _ => trivial)
    (fun _ _ => trivial) (fun _ => True) (fun _ _ => trivial)
    ((dexec_layersOf (cfg := x.hnsw.cfg.withFlags ext kp) (s := x.hnsw.idx)).2 he)
  simp only [DumpOKB, hd] at this
  exact this.2.1

/-- **C125** (partial: as above, no link of the files is a NaN, vectors of one length) If it is smaller, and the header of the files said 16 layers (otherwise
nothing is dumped, C112), the dump says `Ok` and the reload of it panics. -/
theorem C125_unreadable_partial (L : P.Lawful) (hT : ty.Lawful) (hn : ty.noData = false)
    (hx : LoadsOk P ty defScale dist0 io0 fs0 x) (hN : NumLinks x.hnsw.idx)
    (hc : Resumed P x.hnsw c0) (hh : Continued x.hnsw c0 h) (h16 : x.hnsw.cfg.maxLayer = 16) {n : Nat}
    (hv : ∀ p ∈ c0.idx.points, p.data.length = n) (hj : ∀ j ∈ jobs, j.data.length = n)
    (hl : ∀ j ∈ jobs, j.level < x.hnsw.idx.layers.length) {m : DSys T} (he : DExec P h.cfg c0 jobs m) {d : Nat}
    {s : Idx T} (hd : m.dump = .done d s) (hs : Sizes ty { h with idx := s }) (hlt : s.nbPoint < s.points.length)
    (fs : Dir) (name : String) (o : ReloadOptions) (ho : o.datamap = false) (hdist : dist.name = h.distName) :
    (tornDump ty h d s true).res = .ok () ∧
    ((HnswIo.new name o).loadHnsw P ty defScale dist (tornFiles ty h d s fs name)).2 = .error .panic := by
  have hk := hh.tornOK L hx hN hc hv hj hl he hd hs h16
  obtain ⟨h1, h2, h3, h4, h5, -⟩ := hh.torn L hx hN hc hv hj hl he hd
  obtain ⟨e, hee⟩ := Option.ne_none_iff_exists'.mp h4
  refine ⟨by rw [hk.dump hee], ?_⟩
  rw [load_torn_count (io := HnswIo.new name o) (P := P) hT hn hk hlt
    (fun p hp => Nat.le_of_eq (h1.trans (h5 p hp).symm)) ho (torn_files ty h d s fs name).1
    (torn_files ty h d s fs name).2 (checkDist_torn hs hdist) defScale]

/-- **C125** (partial: as above, and the number of points read before the table was locked is the one of the table) The dump
says `Ok` and can be reloaded, with or without a map.  The index has the table and the entry point seen by the dump: all
the points of the files, all those the index had before, and only points the index has now.  Links lead to its points,
lists are sorted, and the lists of each point are, up to order, those this point had at one moment when the dump had
locked the table. -/
theorem C125_reload_partial (L : P.Lawful) (hT : ty.Lawful) (hn : ty.noData = false)
    (hx : LoadsOk P ty defScale dist0 io0 fs0 x) (hN : NumLinks x.hnsw.idx)
    (hc : Resumed P x.hnsw c0) (hh : Continued x.hnsw c0 h) (h16 : x.hnsw.cfg.maxLayer = 16) {n : Nat}
    (hv : ∀ p ∈ c0.idx.points, p.data.length = n) (hj : ∀ j ∈ jobs, j.data.length = n)
    (hl : ∀ j ∈ jobs, j.level < x.hnsw.idx.layers.length) {m : DSys T} (he : DExec P h.cfg c0 jobs m) {d : Nat}
    {s : Idx T} (hd : m.dump = .done d s) (hs : Sizes ty { h with idx := s }) (heq : s.nbPoint = s.points.length)
    (fs : Dir) (name : String) (o : ReloadOptions) (ho : o.datamap = true → DistinctIds s)
    (hdist : dist.name = h.distName) :
    (tornDump ty h d s true).res = .ok () ∧
    ∃ io y, (HnswIo.new name o).loadHnsw P ty defScale dist (tornFiles ty h d s fs name) = (io, .ok y) ∧
      y.hnsw.idx.layers = s.layers ∧ y.hnsw.idx.entry = s.entry ∧
      y.hnsw.idx.nbPoint = y.hnsw.idx.points.length ∧
      (∀ p ∈ x.hnsw.idx.points, p ∈ y.hnsw.idx.points) ∧
      (∀ p ∈ c0.idx.points, p ∈ y.hnsw.idx.points) ∧ (∀ p ∈ y.hnsw.idx.points, p ∈ m.st.idx.points) ∧
      (∃ e, y.hnsw.idx.entry = some e ∧ e ∈ y.hnsw.idx.points) ∧
      (∀ p l, (∀ e ∈ y.hnsw.idx.nb p l, e.pt ∈ y.hnsw.idx.points) ∧
        (y.hnsw.idx.nb p l).Pairwise (fun a b => a.dist.key ≤ b.dist.key)) ∧
      ∀ p ∈ y.hnsw.idx.points, ∃ m1,
        DSteps ⟨c0, jobs.map (Job.prog P h.cfg (c0.idx.points.length + jobs.length + 2)), .start⟩ m1 ∧
        DSteps m1 m ∧ m1.dump.holds = true ∧
        ∀ l, (y.hnsw.idx.nb p.pid l).Perm (m1.st.idx.nb p.pid l) := by
  have hk := hh.tornOK L hx hN hc hv hj hl he hd hs h16
  obtain ⟨h1, h2, h3, h4, h5, h6, h7, h8⟩ := hh.torn L hx hN hc hv hj hl he hd
  obtain ⟨e, hee⟩ := Option.ne_none_iff_exists'.mp h4
  have hdim : d = getDataDimension s := by
    unfold getDataDimension
    rw [hee, h1]
    exact (h5 e (h3.entry e hee)).symm
  have hdump : HDumpable ty { h with idx := s } :=
    ⟨⟨h3, heq, hh.maxLayer.trans h16, h4, hs.ranks⟩, hs.ef, hs.dist, hs.tname, hs.vec⟩
  refine ⟨by rw [hk.dump hee], ?_⟩
  obtain ⟨f1, f2⟩ := torn_files ty h d s fs name
  subst hdim
  have hf : FilesAt ty { h with idx := s } (tornFiles ty h (getDataDimension s) s fs name) name [] [] :=
    ⟨by rw [f1, List.append_nil]; rfl, by rw [f2, List.append_nil]; rfl⟩
  obtain ⟨io', hio⟩ := load_uniform (io := HnswIo.new name o) L hT hn hdump
    (fun p hp => by rw [h5 p hp]; exact h1 ▸ rfl) (fun x => ho x) hf
    (fun _ => by simp; omega) (dist := dist)
    (checkDist_dump hs hdist) defScale
  refine ⟨io', _, hio, rfl, rfl, heq, fun p hp => h6 p ((hc.good L hx).2.2.1 p hp), h6, h7,
    ⟨e, hee, h3.entry e hee⟩, fun p l => ⟨fun a ha => ?_, ?_⟩, ?_⟩
  · exact h3.stored p l a ((L.sort_perm _).mem_iff.1 ha)
  · exact L.sort_sorted _ fun a ha => h3.num p l a ha
  · intro p hp
    obtain ⟨m1, a, b, cc, dd⟩ := h8 p hp
    exact ⟨m1, a, b, cc, fun l => by rw [← dd]; exact L.sort_perm _⟩

/-! ## A damaged file -/

/-- the insertion that runs at the same time -/
def dmJob : Job UInt8 := ⟨[11, 1], 3, 0⟩

/-- the programs, with the index of the damaged file -/
def dmProgs (x : Loaded UInt8) : List (Prog (CSt UInt8) Unit) :=
  [dmJob].map (Job.prog (listPolicy UInt8) (x.hnsw.cfg.withFlags true false)
    ((CSt.ofIdx x.hnsw.idx).idx.points.length + [dmJob].length + 2))

/-- the tests for the hypotheses -/
def dmTest (x : Loaded UInt8) : Bool :=
  (x.hnsw.idx.points.all fun p => (List.range 16).all fun l =>
    (x.hnsw.idx.nb p.pid l).all fun e => !e.dist.isNaN) && x.hnsw.idx.layers.length == 16 &&
  x.hnsw.cfg.maxLayer == 16 && x.hnsw.idx.points.all fun p => p.data.length == 2

/-- the hypotheses are met by the file whose point `⟨0, 0⟩` has a link to itself with a wrong distance: an iterator is made
when the new point is in the table and yields its five points while the insertion ends -/
example : ∃ x m s0 out, LoadsOk (listPolicy UInt8) u8Ty exScale u8Dist (HnswIo.new "a" .default) (damaged 137 0) x ∧
    NumLinks x.hnsw.idx ∧ (∀ j ∈ [dmJob], j.level < x.hnsw.idx.layers.length) ∧
    IExec (listPolicy UInt8) (x.hnsw.cfg.withFlags true false) (CSt.ofIdx x.hnsw.idx) [dmJob] m ∧
    m.it = .ended s0 out ∧ out.length = 5 ∧ (showNb m.st.idx ⟨0, 0⟩ 0).map (·.1) = [⟨0, 2⟩, ⟨0, 0⟩] := by
  obtain ⟨x, hx⟩ : ∃ x, selfIdx = some x := Option.isSome_iff_exists.1 (by decide +kernel)
  have hL : LoadsOk (listPolicy UInt8) u8Ty exScale u8Dist (HnswIo.new "a" .default) (damaged 137 0) x :=
    loadsOk_toOption hx
  have hk : selfIdx.all (fun x => dmTest x &&
      (runIter (some 0 :: List.replicate 3 none ++ List.replicate 20 (some 0) ++ List.replicate 4 none)
        ⟨CSt.ofIdx x.hnsw.idx, dmProgs x, .start⟩).any fun m =>
          (match m.it with | .ended _ out => out.length == 5 | _ => false) &&
          (showNb m.st.idx ⟨0, 0⟩ 0).map (·.1) == [⟨0, 2⟩, ⟨0, 0⟩]) = true := by
    decide +kernel
  rw [hx] at hk
  simp only [Option.all_some, Bool.and_eq_true, beq_iff_eq, dmTest] at hk
  obtain ⟨⟨⟨⟨h1, h2⟩, -⟩, -⟩, h3⟩ := hk
  rw [Option.any_eq_true] at h3
  obtain ⟨m, hm, h3⟩ := h3
  simp only [Bool.and_eq_true, beq_iff_eq] at h3
  obtain ⟨h4, h5⟩ := h3
  split at h4
  · rename_i s0 out hi
    exact ⟨x, m, s0, out, hL, hL.num listPolicy_lawful h1, by rw [h2]; decide, runIter_steps _ _ _ hm, hi,
      beq_iff_eq.1 h4, h5⟩
  · cases h4

/-- the test of a dump that is finished -/
def dmDone (x : Loaded UInt8) (m : DSys UInt8) (n k : Nat) : Bool :=
  match m.dump with
  | .done _ s => sizesB u8Ty { x.hnsw with idx := s } && s.nbPoint == n && s.points.length == k
  | _ => false

/-- a schedule of the insertion and a dump gives the hypotheses of C125 -/
theorem dm_dump {is : List (Option Nat)} {n k : Nat} (hk : selfIdx.all (fun x => dmTest x &&
    (runDump is ⟨CSt.ofIdx x.hnsw.idx, dmProgs x, .start⟩).any fun m => dmDone x m n k) = true) :
    ∃ x m d s, LoadsOk (listPolicy UInt8) u8Ty exScale u8Dist (HnswIo.new "a" .default) (damaged 137 0) x ∧
      NumLinks x.hnsw.idx ∧ Continued x.hnsw (CSt.ofIdx x.hnsw.idx) x.hnsw ∧ x.hnsw.cfg.maxLayer = 16 ∧
      (∀ j ∈ [dmJob], j.level < x.hnsw.idx.layers.length) ∧ (∀ p ∈ x.hnsw.idx.points, p.data.length = 2) ∧
      DExec (listPolicy UInt8) x.hnsw.cfg (CSt.ofIdx x.hnsw.idx) [dmJob] m ∧
      m.dump = .done d s ∧ Sizes u8Ty { x.hnsw with idx := s } ∧ s.nbPoint = n ∧ s.points.length = k ∧
      u8Dist.name = x.hnsw.distName := by
  obtain ⟨x, hx⟩ : ∃ x, selfIdx = some x := Option.isSome_iff_exists.1 (by decide +kernel)
  have hL : LoadsOk (listPolicy UInt8) u8Ty exScale u8Dist (HnswIo.new "a" .default) (damaged 137 0) x :=
    loadsOk_toOption hx
  have hcfg : x.hnsw.cfg = x.hnsw.cfg.withFlags true false ∧ u8Dist.name = x.hnsw.distName := by
    obtain ⟨d, b, dm, o, s1, m, s2, -, hxe⟩ := hL.parts
    rw [hxe]; exact ⟨rfl, rfl⟩
  rw [hx] at hk
  simp only [Option.all_some, Bool.and_eq_true, beq_iff_eq, dmTest] at hk
  obtain ⟨⟨⟨⟨h1, h2⟩, h6⟩, h7⟩, h3⟩ := hk
  rw [Option.any_eq_true] at h3
  obtain ⟨m, hm, h3⟩ := h3
  unfold dmDone at h3
  split at h3
  · rename_i d s hd
    simp only [Bool.and_eq_true, beq_iff_eq] at h3
    refine ⟨x, m, d, s, hL, hL.num listPolicy_lawful h1, ⟨rfl, ⟨true, false, hcfg.1⟩, rfl⟩, h6, by rw [h2]; decide,
      fun p hp => beq_iff_eq.1 (List.all_eq_true.1 h7 p hp), ?_, hd, sizes_of_test h3.1.1, h3.1.2, h3.2, hcfg.2⟩
    rw [hcfg.1]
    exact runDump_steps _ _ _ hm
  · cases h3

/-- the dump reads the number of points, the point is inserted, the dump goes on: it cannot be reloaded -/
example : ∃ x m d s, LoadsOk (listPolicy UInt8) u8Ty exScale u8Dist (HnswIo.new "a" .default) (damaged 137 0) x ∧
    DExec (listPolicy UInt8) x.hnsw.cfg (CSt.ofIdx x.hnsw.idx) [dmJob] m ∧ m.dump = .done d s ∧
    (tornDump u8Ty x.hnsw d s true).res = .ok () ∧
    ((HnswIo.new "b" .default).loadHnsw (listPolicy UInt8) u8Ty exScale u8Dist
      (tornFiles u8Ty x.hnsw d s (fun _ => none) "b")).2 = .error .panic := by
  obtain ⟨x, m, d, s, h1, h2, h3, h4, h5, h6, h7, h8, h9, h10, h11, h12⟩ :=
    dm_dump (is := [none, none] ++ List.replicate 21 (some 0) ++ List.replicate 7 none) (n := 4) (k := 5)
      (by decide +kernel)
  obtain ⟨r1, r2⟩ := C125_unreadable_partial (n := 2) listPolicy_lawful u8Ty_lawful rfl h1 h2 .start h3 h4 h6 (by decide) h5 h7
    h8 h9 (by omega) (fun _ => none) "b" .default rfl h12
  exact ⟨x, m, d, s, h1, h7, h8, r1, r2⟩

/-- the dump reads the number of points when the new one is counted, and its list before it is linked: it can be reloaded -/
example : ∃ x m d s, LoadsOk (listPolicy UInt8) u8Ty exScale u8Dist (HnswIo.new "a" .default) (damaged 137 0) x ∧
    DExec (listPolicy UInt8) x.hnsw.cfg (CSt.ofIdx x.hnsw.idx) [dmJob] m ∧ m.dump = .done d s ∧
    (tornDump u8Ty x.hnsw d s true).res = .ok () ∧
    ∃ io y, (HnswIo.new "b" .default).loadHnsw (listPolicy UInt8) u8Ty exScale u8Dist
      (tornFiles u8Ty x.hnsw d s (fun _ => none) "b") = (io, .ok y) ∧ y.hnsw.idx.layers = s.layers ∧
      s.points.length = 5 := by
  obtain ⟨x, m, d, s, h1, h2, h3, h4, h5, h6, h7, h8, h9, h10, h11, h12⟩ :=
    dm_dump (is := List.replicate 3 (some 0) ++ List.replicate 6 none ++ List.replicate 18 (some 0) ++ List.replicate 3 none)
      (n := 5) (k := 5) (by decide +kernel)
  obtain ⟨r1, io, y, r2, r3, -⟩ := C125_reload_partial (n := 2) listPolicy_lawful u8Ty_lawful rfl h1 h2 .start h3 h4 h6
    (by decide) h5 h7 h8 h9 (by omega) (fun _ => none) "b" .default (fun h => by cases h) h12
  exact ⟨x, m, d, s, h1, h7, h8, r1, io, y, r2, r3, h11⟩

end Verif
