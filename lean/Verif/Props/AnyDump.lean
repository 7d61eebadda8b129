import Verif.AnyDump
import Verif.Props.AnyInsert
import Verif.Props.Reload

set_option autoImplicit false

/-!
# Dumps of whatever was reloaded (C112)

`LoadsOk … io fs x`: the files that are in the directory `fs`, whatever bytes they have, were reloaded as `x`.
`NumLinks x.hnsw.idx`: no link of the files has a NaN for distance.
`Resumed P x.hnsw c`: batches of concurrent insertions lead from `x` to the state `c`.
`Continued x.hnsw c h`: `h` is the index in this state, possibly with other settings.
-/

namespace Verif
variable {T T' : Type} {P : Policy T} {ty : Ty T} {defScale : Nat → F64} {dist0 : Dist T} {io0 : HnswIo} {fs0 : Dir}
  {x : Loaded T} {c : CSt T} {h : Hnsw T} {fs fs' : Dir} {base name : String} {draws : List Nat}

/-- **C112** `file_dump` of an index that comes from any files returns `Ok` if and only if the header of these files said 16
layers. -/
theorem C112_dump_ok_iff_partial (L : P.Lawful) (hx : LoadsOk P ty defScale dist0 io0 fs0 x)
    (hc : Resumed P x.hnsw c) (hh : Continued x.hnsw c h) {r : Except Fail String}
    (hfd : fileDump ty h fs base draws = some (fs', r)) :
    (∃ name, r = .ok name) ↔ ∃ g d g', fs0 (graphName io0.base) = some g ∧ loadDescr g = .ok (d, g') ∧ d.nbLayer = 16 := by
  have hlay : x.hnsw.cfg.maxLayer = 16 ↔ ∃ g d g', fs0 (graphName io0.base) = some g ∧ loadDescr g = .ok (d, g') ∧
      d.nbLayer = 16 := by
    obtain ⟨g, d, g', b, hg, hd, hxe⟩ := hx.headerOf
    have hm : x.hnsw.cfg.maxLayer = d.nbLayer.toNat := by rw [hxe]; rfl
    rw [hm]
    constructor
    · intro h16
      exact ⟨g, d, g', hg, hd, UInt8.toNat_inj.1 h16⟩
    · rintro ⟨g1, d1, g1', hg1, hd1, h16⟩
      rw [hg] at hg1
      injection hg1 with hg1
      rw [← hg1, hd] at hd1
      injection hd1 with hd1
      rw [Prod.mk.injEq] at hd1
      rw [hd1.1, h16]; rfl
  rw [← hlay]
  constructor
  · rintro ⟨name, rfl⟩
    obtain ⟨-, hres, -, -⟩ := fileDump_ok hfd
    have := dump_res_layers256 ty h (by rw [hh.maxLayer]; exact hx.maxLayer) hres
    rw [hh.maxLayer] at this
    exact this
  · intro hl
    have hg := (hc.good L hx).1
    obtain ⟨d, b, dm, o, s1, m, s2, hld, -⟩ := hx.parts
    obtain ⟨-, -, ⟨e0, -, he0⟩, -⟩ := loadIndexation_ok L hld
    have hne : c.idx.points ≠ [] := List.ne_nil_of_mem ((hc.good L hx).2.2.1 e0 he0)
    obtain ⟨e, he⟩ := Option.ne_none_iff_exists'.mp (hg.entry hne)
    have hres : (h.dump ty true).res = .ok () := by
      unfold Hnsw.dump dumpDescr
      rw [if_neg (by simp [Hnsw.descr, hh.maxLayer, hl, nbLayerMax])]
      unfold dumpIdx
      rw [dumpLayers_eq (i := 0) (fun k l hk r p hp => by
        rw [hg.inv.okB.tab.ids k r p (by rw [layer_eq (hh.idx ▸ hk)]; exact hp)]; simp), dumpEntry, hh.idx, he]
      simp [Out.seq, Out.graph, Out.data]
    unfold fileDump at hfd
    rw [Option.map_eq_some_iff] at hfd
    obtain ⟨n, -, hx⟩ := hfd
    simp only [hres, Prod.mk.injEq] at hx
    exact ⟨n, hx.2.symm⟩

/-- **C112** (partial: no NaN, no vector shorter than the one of the entry point) The files it writes are reloaded, with the
same points, entry point, count and links. -/
theorem C112_reload_graph_partial (L : P.Lawful) (hT : ty.Lawful) (hn : ty.noData = false)
    (hx : LoadsOk P ty defScale dist0 io0 fs0 x) (hN : NumLinks x.hnsw.idx) (hc : Resumed P x.hnsw c)
    (hh : Continued x.hnsw c h) (hs : Sizes ty h)
    (hl : ∀ p ∈ h.idx.points, getDataDimension h.idx ≤ p.data.length)
    (hfd : fileDump ty h fs base draws = some (fs', .ok name)) (dist : Dist T) (hdn : dist.name = h.distName) :
    ∃ io' x', (HnswIo.new name .default).loadHnsw P ty defScale dist fs' = (io', .ok x') ∧
      SameGraph h.idx x'.hnsw.idx := by
  obtain ⟨-, hres, -, hf⟩ := fileDump_ok hfd
  have hd := hh.dumpable L hx hN hc hs hres
  exact ⟨_, _, load_long (io := HnswIo.new name .default) L hT hn hd hl rfl hf
    (checkDist_dump hs hdn) defScale, sameGraph_reloaded hd.idx.ok L _⟩

/-- **C112** (partial: no NaN, vectors of one length) and the same vectors, with any reload options if ids are distinct;
the parameters are those of the first reload. -/
theorem C112_reload_same_partial (L : P.Lawful) (hT : ty.Lawful) (hn : ty.noData = false)
    (hx : LoadsOk P ty defScale dist0 io0 fs0 x) (hN : NumLinks x.hnsw.idx) (hc : Resumed P x.hnsw c)
    (hh : Continued x.hnsw c h) (hs : Sizes ty h) (hu : SameDim h.idx)
    (hfd : fileDump ty h fs base draws = some (fs', .ok name)) (o : ReloadOptions)
    (ho : o.datamap = true → DistinctIds h.idx) (dist : Dist T) (hdn : dist.name = h.distName) :
    ∃ io' x', (HnswIo.new name o).loadHnsw P ty defScale dist fs' = (io', .ok x') ∧
      x'.hnsw.idx.layers = h.idx.layers ∧ x'.hnsw.idx.entry = h.idx.entry ∧
      x'.hnsw.idx.nbPoint = h.idx.nbPoint ∧
      (∀ p l, x'.hnsw.idx.nb p l = P.sort (h.idx.nb p l)) ∧ SameGraph h.idx x'.hnsw.idx ∧
      (dist = dist0 → x'.hnsw.cfg = x.hnsw.cfg) := by
  obtain ⟨-, hres, -, hf⟩ := fileDump_ok hfd
  have hd := hh.dumpable L hx hN hc hs hres
  obtain ⟨io', hload⟩ := load_uniform (io := HnswIo.new name o) L hT hn hd hu ho hf
    (fun _ => by simp only [List.length_nil]; omega) (checkDist_dump hs hdn) defScale
  refine ⟨io', _, hload, rfl, rfl, rfl, fun _ _ => rfl, ?_, ?_⟩
  · have := sameGraph_reloaded hd.idx.ok L (·.data)
    rw [reloaded_data] at this
    exact this
  · intro he
    obtain ⟨ext, kp, hcfg⟩ := hh.cfg
    have hev := hx.eval
    obtain ⟨d, b, dm, oo, s1, m, s2, -, hxe⟩ := hx.parts
    have hmx : x.hnsw.cfg.maxNb ≤ 255 := by
      rw [hxe]
      have := d.maxNb.toNat_lt
      simp only [mkHnsw]
      omega
    have hfl : x.hnsw.cfg = x.hnsw.cfg.withFlags true false := by rw [hxe]; rfl
    rw [mkHnsw_cfg hs (by rw [hcfg]; exact hmx) hd.idx.layers (by rw [hcfg, he]; exact hev.symm), hcfg]
    exact hfl.symm

/-- **C112** (partial: no NaN) Reloaded without vectors the files give the same graph, even if the index they come from was
itself reloaded without vectors. -/
theorem C112_nodata_partial {P' : Policy T'} (L' : P'.Lawful) (L : P.Lawful)
    (hx : LoadsOk P ty defScale dist0 io0 fs0 x) (hN : NumLinks x.hnsw.idx) (hc : Resumed P x.hnsw c)
    (hh : Continued x.hnsw c h) (hs : Sizes ty h) (hfd : fileDump ty h fs base draws = some (fs', .ok name))
    (ty' : Ty T') (hn' : ty'.noData = true) (dist : Dist T') (defScale' : Nat → F64) :
    ∃ io' x', (HnswIo.new name .default).loadHnsw P' ty' defScale' dist fs' = (io', .ok x') ∧
      SameGraph h.idx x'.hnsw.idx ∧ ∀ p ∈ x'.hnsw.idx.points, p.data = [] := by
  obtain ⟨-, hres, -, hf⟩ := fileDump_ok hfd
  have hd := hh.dumpable L hx hN hc hs hres
  refine ⟨_, _, load_noData (io := HnswIo.new name .default) L' hn' hd rfl hf dist defScale',
    sameGraph_reloaded hd.idx.ok L' _, ?_⟩
  intro p hp
  have : p ∈ (h.idx.layers.map fun l => l.map (convRef (fun _ => ([] : List T')))).flatten := hp
  rw [← List.map_flatten] at this
  obtain ⟨q, -, rfl⟩ := List.mem_map.1 this
  rfl

/-- **C112** (partial: no NaN) No part of these files is reloaded as an index. -/
theorem C112_truncated_partial {P' : Policy T'} (L : P.Lawful)
    (hx : LoadsOk P ty defScale dist0 io0 fs0 x) (hN : NumLinks x.hnsw.idx) (hc : Resumed P x.hnsw c)
    (hh : Continued x.hnsw c h) (hs : Sizes ty h) (hfd : fileDump ty h fs base draws = some (fs', .ok name))
    {gfull dfull g d : Bytes} (hgf : fs' (graphName name) = some gfull)
    (hdf : fs' (dataName name) = some dfull) (hg : g <+: gfull) (hd : d <+: dfull)
    (hcut : g ≠ gfull ∨ d ≠ dfull) {fs2 : Dir} (h2g : fs2 (graphName name) = some g)
    (h2d : fs2 (dataName name) = some d) (ty' : Ty T') (defScale' : Nat → F64) (dist : Dist T')
    (io : HnswIo) (hio : io.base = name) (x' : Loaded T') :
    (io.loadHnsw P' ty' defScale' dist fs2).2 ≠ .ok x' := by
  intro hx'
  obtain ⟨-, hres, -, hf⟩ := fileDump_ok hfd
  have hdm := hh.dumpable L hx hN hc hs hres
  obtain ⟨tg, htg⟩ := hg
  obtain ⟨td, htd⟩ := hd
  have e1 : (h.dump ty true).g = gfull := by
    have := hf.graph; rw [hgf] at this; simpa using (Option.some.inj this).symm
  have e2 : (h.dump ty true).d = dfull := by
    have := hf.data; rw [hdf] at this; simpa using (Option.some.inj this).symm
  subst hio
  have := truncated_not_ok hdm (io := io) h2g h2d (htg.trans e1.symm) (htd.trans e2.symm) P' ty'
    defScale' dist hx'
  rw [this.1, List.append_nil] at htg
  rw [this.2, List.append_nil] at htd
  exact hcut.elim (fun h => h htg) (fun h => h htd)

/-- `Sizes`, as a test -/
def sizesB (ty : Ty T) (h : Hnsw T) : Bool :=
  (h.idx.layers.all fun l => decide (l.length < 2 ^ 31)) && decide (h.cfg.efC < 2 ^ 64) && decide (h.distName ≠ "") &&
  decide ((strBytes h.distName).length ≤ 256) && decide ((strBytes ty.name).length ≤ 256) &&
  h.idx.points.all fun p => decide ((ty.encVec p.data).length < 2 ^ 64) && decide (p.data.length < 2 ^ 64)

theorem sizes_of_test (hb : sizesB ty h = true) : Sizes ty h := by
  simp only [sizesB, Bool.and_eq_true, List.all_eq_true, decide_eq_true_eq] at hb
  obtain ⟨⟨⟨⟨⟨h1, h2⟩, h3⟩, h4⟩, h5⟩, h6⟩ := hb
  exact ⟨h1, h2, h3, h4, h5, h6⟩

/-- the index reloaded from the damaged file, and a point inserted in it -/
def selfNext (x : Loaded UInt8) : CSt UInt8 :=
  (insert (listPolicy UInt8) (x.hnsw.cfg.withFlags true false) (CSt.ofIdx x.hnsw.idx) ([11, 1], 3) 0).state

/-- The hypotheses are met by the damaged file, whose point `⟨0, 0⟩` has a link to itself with a wrong distance, after an
insertion: the dump contains the wrong link and can be reloaded. -/
example : ∃ x, LoadsOk (listPolicy UInt8) u8Ty exScale u8Dist (HnswIo.new "a" .default) (damaged 137 0) x ∧
    NumLinks x.hnsw.idx ∧ ∃ c h, Resumed (listPolicy UInt8) x.hnsw c ∧ Continued x.hnsw c h ∧ Sizes u8Ty h ∧
      SameDim h.idx ∧ DistinctIds h.idx ∧ h.idx.points.length = 5 ∧
      (showNb h.idx ⟨0, 0⟩ 0).map (·.1) = [⟨0, 2⟩, ⟨0, 0⟩] ∧
      ((fileDump u8Ty h (fun _ => none) "b" []).bind fun x => x.2.toOption) = some "b" := by
  have h : ∃ x, selfIdx = some x := Option.isSome_iff_exists.1 (by decide +kernel)
  obtain ⟨x, hx⟩ := h
  have hL : LoadsOk (listPolicy UInt8) u8Ty exScale u8Dist (HnswIo.new "a" .default) (damaged 137 0) x :=
    loadsOk_toOption hx
  have hk : selfIdx.all (fun x =>
      (x.hnsw.idx.points.all fun p => (List.range 16).all fun l =>
        (x.hnsw.idx.nb p.pid l).all fun e => !e.dist.isNaN) && x.hnsw.idx.layers.length == 16 &&
      (let h : Hnsw UInt8 := { x.hnsw with idx := (selfNext x).idx }
       sizesB u8Ty h && (h.idx.points.all fun p => p.data.length == getDataDimension h.idx) &&
        decide ((h.idx.points.map (·.origin)).Nodup) && h.idx.points.length == 5 &&
        (showNb h.idx ⟨0, 0⟩ 0).map (·.1) == [⟨0, 2⟩, ⟨0, 0⟩] &&
        ((fileDump u8Ty h (fun _ => none) "b" []).bind fun x => x.2.toOption) == some "b")) = true := by
    decide +kernel
  rw [hx] at hk
  simp only [Option.all_some, Bool.and_eq_true, beq_iff_eq, decide_eq_true_eq] at hk
  obtain ⟨⟨h1, h2⟩, ⟨⟨⟨⟨h3, h4⟩, h5⟩, h6⟩, h7⟩, h8⟩ := hk
  have hN := hL.num listPolicy_lawful h1
  refine ⟨x, hL, hN, selfNext x, { x.hnsw with idx := (selfNext x).idx }, (C111_insert_partial (ext := true) (kp := false)
    listPolicy_lawful hL .start ⟨[11, 1], 3, 0⟩ (by rw [h2]; decide)).2.1, ⟨rfl, ⟨true, false, ?_⟩, rfl⟩, sizes_of_test h3,
    ?_, h5, h6, h7, h8⟩
  · obtain ⟨d, b, dm, o, s1, m, s2, -, hxe⟩ := hL.parts
    rw [hxe]; rfl
  · intro p hp
    simpa using List.all_eq_true.1 h4 p hp

/-- the options do not change during a reload -/
theorem loadHnsw_opts {io io' : HnswIo} {dist : Dist T} {r : Except Fail (Loaded T)}
    (hx : io.loadHnsw P ty defScale dist fs = (io', r)) : io'.opts = io.opts := by
  have hmap : ∀ io1, io.mapData ty fs = .ok io1 → io1.opts = io.opts := by
    intro io1 h1
    unfold HnswIo.mapData at h1
    split at h1
    · split at h1
      · injection h1 with h1; rw [← h1]
      · injection h1 with h1; rw [← h1]
      · cases h1
    · injection h1 with h1; rw [← h1]
  unfold HnswIo.loadHnsw at hx
  split at hx
  · rw [Prod.mk.injEq] at hx; rw [← hx.1]
  · split at hx
    · rw [Prod.mk.injEq] at hx; rw [← hx.1]
    · split at hx
      · rw [Prod.mk.injEq] at hx; rw [← hx.1]
      · split at hx
        · rw [Prod.mk.injEq] at hx; rw [← hx.1]
        · rename_i hm
          split at hx
          · rw [Prod.mk.injEq] at hx; rw [← hx.1]; exact hmap _ hm
          · rw [Prod.mk.injEq] at hx; rw [← hx.1]; exact hmap _ hm

/-- **C112** (partial: no NaN) What was reloaded from any files, not of the oldest format, without map, can be dumped and
reloaded again and again: the second reload gives the table of the first one, and its lists sorted again. -/
theorem C112_again_partial (L : P.Lawful) (hT : ty.Lawful) (hn : ty.noData = false) {io' : HnswIo}
    (hx : io0.loadHnsw P ty defScale dist0 fs0 = (io', .ok x)) (hopt : io0.opts.datamap = false)
    (hv : ∀ g d g', fs0 (graphName io0.base) = some g → loadDescr g = .ok (d, g') → d.version ≠ 2)
    (hN : NumLinks x.hnsw.idx) (hs : Sizes ty x.hnsw)
    (hfd : fileDump ty x.hnsw fs base draws = some (fs', .ok name)) (o : ReloadOptions)
    (ho : o.datamap = true → DistinctIds x.hnsw.idx) :
    ∃ io'' x', (HnswIo.new name o).loadHnsw P ty defScale dist0 fs' = (io'', .ok x') ∧
      x'.hnsw.idx.layers = x.hnsw.idx.layers ∧ x'.hnsw.idx.entry = x.hnsw.idx.entry ∧
      x'.hnsw.idx.nbPoint = x.hnsw.idx.nbPoint ∧
      (∀ p l, x'.hnsw.idx.nb p l = P.sort (x.hnsw.idx.nb p l)) ∧ x'.hnsw.cfg = x.hnsw.cfg := by
  have hL : LoadsOk P ty defScale dist0 io0 fs0 x := Or.inl (by rw [hx])
  obtain ⟨g, b, d, g', s1, idx, m, s2, hg, -, hd, -, hl, hxe⟩ := load_ok_parts hx
  have hdim := loadIndexation_dim L hn (hv g d g' hg hd) (by rw [loadHnsw_opts hx]; exact hopt) hl
  obtain ⟨-, -, ⟨e, he, hes⟩, -⟩ := loadIndexation_ok L hl
  have hidx : x.hnsw.idx = idx := by rw [hxe]; rfl
  have hu : SameDim x.hnsw.idx := by
    rw [hidx]
    intro p hp
    rw [hdim p hp]
    unfold getDataDimension
    rw [he]
    exact (hdim e hes).symm
  have hcfg : x.hnsw.cfg = x.hnsw.cfg.withFlags true false := by rw [hxe]; rfl
  have hname : dist0.name = x.hnsw.distName := by rw [hxe]; rfl
  obtain ⟨io'', x', h1, h2, h3, h4, h5, -, h6⟩ := C112_reload_same_partial L hT hn hL hN .start
    ⟨rfl, ⟨true, false, hcfg⟩, rfl⟩ hs hu hfd o ho dist0 hname
  exact ⟨io'', x', h1, h2, h3, h4, h5, h6 rfl⟩

/-- the damaged file has the newest format, and its reload fits into files -/
example : ((damaged 137 0 (graphName "a")).bind fun g => (loadDescr g).toOption.map (·.1.version)) = some 4 ∧
    selfIdx.map (fun x => (sizesB u8Ty x.hnsw, x.hnsw.idx.points.length,
      ((fileDump u8Ty x.hnsw (fun _ => none) "b" []).bind fun x => x.2.toOption))) = some (true, 4, some "b") := by
  constructor <;> decide +kernel

/-- `io4` reloaded without vectors -/
def bareIdx : Option (Loaded Unit) :=
  ((HnswIo.new "a" .default).loadHnsw (listPolicy Unit) noDataTy exScale ⟨"NoDist", fun _ _ => F32.zero⟩
    (withTrail (fileDump u8Ty io4 (fun _ => none) "a" []) "a" [] [])).2.toOption

/-- An index without vectors can be dumped and reloaded without vectors; a reload with the type and the
distance there were at first is refused. -/
example : bareIdx.map (fun x => (sizesB noDataTy x.hnsw, x.hnsw.cfg.maxLayer,
    ((fileDump noDataTy x.hnsw (fun _ => none) "b" []).bind fun x => x.2.toOption),
    outcomeOf ((HnswIo.new "b" .default).loadHnsw (listPolicy UInt8) u8Ty exScale u8Dist
      (withTrail (fileDump noDataTy x.hnsw (fun _ => none) "b" []) "b" [] [])).2)) =
    some (true, 16, some "b", some .err) := by decide +kernel

end Verif
