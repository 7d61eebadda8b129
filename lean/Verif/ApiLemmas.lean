import Verif.TruncLemmas
import Verif.Props.Level

set_option autoImplicit false

/-!
# Dump and reload of reachable indexes
-/

namespace Verif
variable {T T' : Type}

/-! ## Names -/

theorem splitSep_ne_nil (l : List Char) : splitSep l ≠ [] := by
  fun_cases splitSep l
  · simp
  · rename_i h; simp [h]
  · rename_i h; simp [h]
  · simp

theorem splitSep_eq_nil {l : List Char} (h : splitSep l = [[]]) : l = [] := by
  revert h
  fun_cases splitSep l
  · intro h
    exact absurd (List.cons.inj h).2 (splitSep_ne_nil _)
  · rename_i h; simp [h]
  · rename_i h; simp [h]
  · intro _; rfl

theorem rsplitTerm_ne_nil {s : String} (h : s ≠ "") : rsplitTerm s ≠ [] := by
  unfold rsplitTerm
  split
  · rename_i r hr
    intro h0
    subst h0
    have h1 := congrArg (List.map List.reverse) hr
    rw [List.map_map] at h1
    have h2 : (List.reverse ∘ List.reverse : List Char → List Char) = id := by funext x; simp
    rw [h2, List.map_id] at h1
    have h3 := splitSep_eq_nil h1
    apply h
    have h4 : s.toList = [] := by simpa using h3
    exact String.toList_eq_nil_iff.mp h4
  · intro h1
    exact splitSep_ne_nil _ (List.map_eq_nil_iff.mp h1)

theorem checkDist_same (ty : Ty T) {d : Descr} (h : d.distName ≠ "") :
    checkDist ty d.distName d = .ok () := by
  unfold checkDist
  split
  · rfl
  · have := rsplitTerm_ne_nil h
    cases hr : rsplitTerm d.distName with
    | nil => exact absurd hr this
    | cons a l => simp

theorem graphName_ne_dataName (a b : String) : graphName a ≠ dataName b := by
  intro h
  have h1 := congrArg (fun s : String => s.toList.getLast?) h
  simp [graphName, dataName, String.toList_append] at h1

theorem dataName_inj {a b : String} (h : dataName a = dataName b) : a = b := by
  have h1 := congrArg String.toList h
  simp only [dataName, String.toList_append] at h1
  exact String.toList_inj.mp (List.append_cancel_right h1)

theorem graphName_inj {a b : String} (h : graphName a = graphName b) : a = b := by
  have h1 := congrArg String.toList h
  simp only [graphName, String.toList_append] at h1
  exact String.toList_inj.mp (List.append_cancel_right h1)

/-! ## Files of a dump -/

theorem fileDump_ok {ty : Ty T} {h : Hnsw T} {fs fs' : Dir} {base name : String} {draws : List Nat}
    (hx : fileDump ty h fs base draws = some (fs', .ok name)) :
    dumpName fs base (!h.mapped) draws = some name ∧ (h.dump ty true).res = .ok () ∧
      fs' = (fs.write (graphName name) (h.dump ty true).g).write (dataName name) (h.dump ty true).d ∧
      FilesAt ty h fs' name [] [] := by
  unfold fileDump at hx
  rw [Option.map_eq_some_iff] at hx
  obtain ⟨n, hn, hx⟩ := hx
  simp only [Prod.mk.injEq] at hx
  obtain ⟨h1, h2⟩ := hx
  split at h2
  · rename_i u hu
    injection h2 with h2
    subst h2
    refine ⟨hn, hu, h1.symm, ?_, ?_⟩
    · rw [← h1]; simp [Dir.write, graphName_ne_dataName]
    · rw [← h1]; simp [Dir.write]
  · cases h2

/-! ## Vectors of a reload -/

theorem vecsLoad_of {ty : Ty T} {ty' : Ty T'} {d : Descr} {dm : Option DataMap}
    {cv : Ref T → List T'} {o : ReloadOptions} {ps : List (Ref T)} {still : Int}
    (h : ∀ p ∈ ps, ∀ mm, (mm = true → o.datamap = true) → VecLoads ty ty' d dm cv mm p) :
    VecsLoad ty ty' d dm cv o still ps := by
  induction ps generalizing still with
  | nil => trivial
  | cons p ps ih =>
    refine ⟨h p (by simp) _ ?_, ih fun q hq => h q (by simp [hq])⟩
    unfold pointUseMmap
    intro hm
    rw [Bool.and_eq_true] at hm
    exact hm.1

section
variable {ty : Ty T} {h : Hnsw T}

theorem vecsLoad_plain (hT : ty.Lawful) (hn : ty.noData = false) (hd : HDumpable ty h)
    (hl : ∀ p, Stored h.idx p → getDataDimension h.idx ≤ p.data.length) {o : ReloadOptions}
    (ho : o.datamap = false) (dm : Option DataMap) (still : Int) :
    VecsLoad ty ty (h.rdescr ty) dm (fun p => p.data.take (getDataDimension h.idx)) o still
      h.idx.points := by
  refine vecsLoad_of fun p hp mm hmm => ⟨(hd.vec p hp).1, ?_⟩
  have hf : mm = false := by
    cases mm with
    | false => rfl
    | true => rw [hmm rfl] at ho; cases ho
  rw [hf]
  have := recordVec_take hT hn (d := h.rdescr ty) rfl (p := p) (by rw [hd.dim_eq]; exact hl p hp)
  rw [hd.dim_eq] at this
  exact this

theorem vecsLoad_noData (hd : HDumpable ty h) {ty' : Ty T'} (hn : ty'.noData = true)
    {o : ReloadOptions} (ho : o.datamap = false) (dm : Option DataMap) (still : Int) :
    VecsLoad ty ty' (h.rdescr ty) dm (fun _ => []) o still h.idx.points := by
  refine vecsLoad_of fun p hp mm hmm => ⟨(hd.vec p hp).1, ?_⟩
  have hf : mm = false := by
    cases mm with
    | false => rfl
    | true => rw [hmm rfl] at ho; cases ho
  rw [hf]
  unfold recordVec
  simp [hn]

theorem vecsLoad_uniform (hT : ty.Lawful) (hn : ty.noData = false) (hd : HDumpable ty h)
    (hu : SameDim h.idx) {o : ReloadOptions} (ho : o.datamap = true → DistinctIds h.idx)
    {dm : Option DataMap} {td : Bytes} (hdm : o.datamap = true → dm = some (dumpMap ty h td))
    (still : Int) :
    VecsLoad ty ty (h.rdescr ty) dm (·.data) o still h.idx.points := by
  refine vecsLoad_of fun p hp mm hmm => ⟨(hd.vec p hp).1, ?_⟩
  cases mm with
  | false =>
    have := recordVec_take hT hn (d := h.rdescr ty) rfl (p := p)
      (by rw [hd.dim_eq, hu p hp]; exact Nat.le_refl _)
    rw [hd.dim_eq, ← hu p hp, List.take_length] at this
    exact this
  | true =>
    have hm := hmm rfl
    simp only [if_true]
    unfold mappedVec
    rw [hdm hm]
    simp only
    rw [getData_eq hT hu (ho hm) hp td]

theorem mapData_dump (hT : ty.Lawful) (hd : HDumpable ty h) (hu : SameDim h.idx) {fs : Dir}
    {io : HnswIo} {tg td : Bytes} (hf : FilesAt ty h fs io.base tg td)
    (htd : io.opts.datamap = true → td.length < 20 + getDataDimension h.idx * ty.size) :
    io.mapData ty fs = .ok (if io.opts.datamap then { io with datamap := some (dumpMap ty h td) } else io) := by
  unfold HnswIo.mapData
  split
  · rename_i hm
    rw [fromDump_eq hT hd hu hf (htd hm) rfl rfl]
  · rfl

theorem reloaded_data (P : Policy T) (s : Idx T) : reloaded P (·.data) s = s.resort P := by
  have h1 : convRef (fun p : Ref T => p.data) = id := rfl
  have h2 : convPWO (fun p : Ref T => p.data) = id := rfl
  unfold reloaded Idx.resort
  rw [h1, h2]
  simp

/-- reload of a dump with vectors of one length, mapped or not -/
theorem load_uniform {P : Policy T} (L : P.Lawful) (hT : ty.Lawful) (hn : ty.noData = false)
    (hd : HDumpable ty h) (hu : SameDim h.idx) {fs : Dir} {io : HnswIo} {tg td : Bytes}
    (ho : io.opts.datamap = true → DistinctIds h.idx) (hf : FilesAt ty h fs io.base tg td)
    (htd : io.opts.datamap = true → td.length < 20 + getDataDimension h.idx * ty.size)
    {dist : Dist T} (hdist : checkDist ty dist.name (h.rdescr ty) = .ok ()) (defScale : Nat → F64) :
    ∃ io', io.loadHnsw P ty defScale dist fs =
      (io', .ok ⟨mkHnsw defScale dist (h.rdescr ty) (h.idx.resort P) true,
        (List.range h.idx.points.length).map fun i =>
          pointUseMmap io.opts ((h.idx.nbPoint : Int) - (i : Nat))⟩) := by
  have hmap := mapData_dump hT hd hu hf htd
  refine ⟨(if io.opts.datamap then { io with datamap := some (dumpMap ty h td) } else io), ?_⟩
  have hopt : (if io.opts.datamap then { io with datamap := some (dumpMap ty h td) } else io).opts =
      io.opts := by split <;> rfl
  have hv := vecsLoad_uniform hT hn hd hu ho (dm := (if io.opts.datamap then
    { io with datamap := some (dumpMap ty h td) } else io).datamap) (td := td)
    (fun hm => by rw [if_pos hm]) h.idx.nbPoint
  have := load_dumped L hd hf hdist (Or.inr rfl) hmap (cv := (·.data)) (by rw [hopt]; exact hv) defScale
  rw [reloaded_data, hopt] at this
  exact this

/-- reload of a dump without map, no vector being shorter than the one of the entry point -/
theorem load_long {P : Policy T} (L : P.Lawful) (hT : ty.Lawful) (hn : ty.noData = false)
    (hd : HDumpable ty h) (hl : ∀ p, Stored h.idx p → getDataDimension h.idx ≤ p.data.length)
    {fs : Dir} {io : HnswIo} {tg td : Bytes} (ho : io.opts.datamap = false)
    (hf : FilesAt ty h fs io.base tg td)
    {dist : Dist T} (hdist : checkDist ty dist.name (h.rdescr ty) = .ok ()) (defScale : Nat → F64) :
    io.loadHnsw P ty defScale dist fs =
      (io, .ok ⟨mkHnsw defScale dist (h.rdescr ty)
        (reloaded P (fun p => p.data.take (getDataDimension h.idx)) h.idx) true,
        (List.range h.idx.points.length).map fun _ => false⟩) := by
  have hmap : io.mapData ty fs = .ok io := by unfold HnswIo.mapData; rw [ho]; rfl
  have := load_dumped L hd hf hdist (Or.inr rfl) hmap
    (vecsLoad_plain hT hn hd hl ho io.datamap h.idx.nbPoint) defScale
  rw [this]
  simp [pointUseMmap, ho]

/-- reload without vectors -/
theorem load_noData {P : Policy T'} (L : P.Lawful) {ty' : Ty T'} (hn : ty'.noData = true)
    (hd : HDumpable ty h) {fs : Dir} {io : HnswIo} {tg td : Bytes} (ho : io.opts.datamap = false)
    (hf : FilesAt ty h fs io.base tg td) (dist : Dist T') (defScale : Nat → F64) :
    io.loadHnsw P ty' defScale dist fs =
      (io, .ok ⟨mkHnsw defScale dist (h.rdescr ty) (reloaded P (fun _ => []) h.idx) true,
        (List.range h.idx.points.length).map fun _ => false⟩) := by
  have hmap : io.mapData ty' fs = .ok io := by unfold HnswIo.mapData; rw [ho]; rfl
  have hdist : checkDist ty' dist.name (h.rdescr ty) = .ok () := by unfold checkDist; rw [if_pos hn]
  have := load_dumped L hd hf hdist (Or.inl hn) hmap
    (vecsLoad_noData hd hn ho io.datamap h.idx.nbPoint) defScale
  rw [this]
  simp [pointUseMmap, ho]

/-- reload with a distance that is refused -/
theorem load_dist_err {P : Policy T'} {ty' : Ty T'} (hd : HDumpable ty h) {fs : Dir} {io : HnswIo}
    {tg td : Bytes} (hf : FilesAt ty h fs io.base tg td) {dist : Dist T'} {x : Fail}
    (hdist : checkDist ty' dist.name (h.rdescr ty) = .error x) (defScale : Nat → F64) :
    io.loadHnsw P ty' defScale dist fs = (io, .error x) := by
  obtain ⟨e, he⟩ := Option.ne_none_iff_exists'.mp hd.idx.entry
  unfold HnswIo.loadHnsw
  rw [hf.init hd he]
  have h1 := hd.parses_dataHeader (idxGraphBytes h.idx e ++ tg)
    (h.idx.points.flatMap (pointDataBytes ty) ++ td)
  rw [List.nil_append] at h1
  simp only [h1, hdist]

/-- undefined behaviour does not depend on what follows -/
theorem load_ub_ext {P : Policy T'} {ty' : Ty T'} {fs fs' : Dir} {io : HnswIo}
    (ho : io.opts.datamap = false) {g d tg td : Bytes}
    (hg : fs (graphName io.base) = some g) (hd : fs (dataName io.base) = some d)
    (hg' : fs' (graphName io.base) = some (g ++ tg)) (hd' : fs' (dataName io.base) = some (d ++ td))
    {dist : Dist T'} {defScale : Nat → F64} (hx : (io.loadHnsw P ty' defScale dist fs).2 = .error .ub) :
    (io.loadHnsw P ty' defScale dist fs').2 = .error .ub := by
  have hmap : ∀ fs, io.mapData ty' fs = .ok io := by
    intro fs; unfold HnswIo.mapData; rw [ho]; rfl
  unfold HnswIo.loadHnsw HnswIo.init at hx ⊢
  rw [hg, hd] at hx
  rw [hg', hd']
  simp only [hmap] at hx ⊢
  cases hl : loadDescr g with
  | error e =>
    rw [hl] at hx
    cases e with
    | ub => rw [ext_loadDescr.ub hl tg]
    | _ => cases hx
  | ok r =>
    obtain ⟨ds, g1⟩ := r
    rw [hl] at hx
    rw [ext_loadDescr.ok hl tg]
    simp only at hx ⊢
    cases hh : loadDataHeader ds (g1, d) with
    | error e =>
      rw [hh] at hx
      simp only at hx
      injection hx with hx
      subst hx
      rw [(ext_loadDataHeader ds).ub hh tg td]
    | ok r =>
      obtain ⟨u, g2, d2⟩ := r
      rw [hh] at hx
      rw [(ext_loadDataHeader ds).ok hh tg td]
      simp only at hx ⊢
      cases hc : checkDist ty' dist.name ds with
      | error e => rw [hc] at hx; exact hx
      | ok u =>
        rw [hc] at hx
        simp only at hx ⊢
        cases hld : loadIndexation P ty' ds io.datamap io.opts (g2, d2) with
        | error e =>
          rw [hld] at hx
          simp only at hx
          injection hx with hx
          subst hx
          rw [(ext_loadIndexation ..).ub hld tg td]
        | ok r => rw [hld] at hx; cases hx

/-! ## Reachable indexes -/

theorem reachC_flags {P : Policy T} {cfg : Cfg T} {c : CSt T} (h : ReachC P cfg c) (e k : Bool) :
    ReachC P (cfg.withFlags e k) c := by
  induction h with
  | new => exact ReachC.new (cfg := cfg.withFlags e k)
  | batch ext kp jobs _ hl he hf ih =>
    exact ReachC.batch (cfg := cfg.withFlags e k) ext kp jobs ih hl he hf
  | reload _ ih => exact .reload ih

theorem dump_res_layers (ty : Ty T) (h : Hnsw T) (hm : h.cfg.maxLayer ≤ 16)
    (hr : (h.dump ty true).res = .ok ()) : h.cfg.maxLayer = nbLayerMax := by
  unfold Hnsw.dump dumpDescr at hr
  split at hr
  · cases hr
  · rename_i hx
    simp only [ne_eq, Decidable.not_not, Hnsw.descr] at hx
    rw [UInt8.toNat_ofNat'] at hx
    simp only [nbLayerMax] at hx ⊢
    omega

theorem seq_res {a b : Out} (h : (a.seq b).res = .ok ()) : a.res = .ok () ∧ b.res = .ok () := by
  unfold Out.seq at h
  split at h
  · rename_i u hu; exact ⟨hu, h⟩
  · rename_i e he; rw [he] at h; cases h

theorem dump_res_entry (ty : Ty T) (h : Hnsw T) (hr : (h.dump ty true).res = .ok ()) :
    h.idx.entry ≠ none := by
  have h1 := (seq_res (seq_res (seq_res (seq_res hr).2).2).2).2
  unfold dumpEntry at h1
  intro h0
  rw [h0] at h1
  cases h1

/-- what is known of every index of a program -/
structure HOk (P : Policy T) (ml : Nat) (h : Hnsw T) (c : CSt T) : Prop where
  reach : ReachC P h.cfg c
  idx : c.idx = h.idx
  conn : h.cfg.maxNb ≤ 256
  lay : h.cfg.maxLayer = min nbLayerMax ml
  gen : h.gen.maxlevel = h.cfg.maxLayer

theorem HOk.good {P : Policy T} (L : P.Lawful) {ml : Nat} {c : CSt T} (hk : HOk P ml h c) :
    Good h.cfg h.idx := hk.idx ▸ (hk.reach.goodC L).good

theorem HOk.dumpable {P : Policy T} (L : P.Lawful) {ml : Nat} {c : CSt T} (hk : HOk P ml h c)
    (hs : Sizes ty h) (hl : h.cfg.maxLayer = nbLayerMax) (he : h.idx.entry ≠ none) :
    HDumpable ty h where
  idx := ⟨(hk.good L).ok.coherent (Nat.le_of_eq hl) hk.conn, (hk.good L).count, hl, he, hs.ranks⟩
  ef := hs.ef
  dist := hs.dist
  tname := hs.tname
  vec := hs.vec

theorem HOk.dumped {P : Policy T} (L : P.Lawful) {ml : Nat} {c : CSt T} (hk : HOk P ml h c)
    (hs : Sizes ty h) (hr : (h.dump ty true).res = .ok ()) : HDumpable ty h :=
  hk.dumpable L hs
    (dump_res_layers ty h (by rw [hk.lay]; exact Nat.min_le_left _ _) hr) (dump_res_entry ty h hr)

theorem checkDist_dump {ty' : Ty T'} (hs : Sizes ty h) {name : String} (hn : name = h.distName) :
    checkDist ty' name (h.rdescr ty) = .ok () := by
  subst hn
  exact checkDist_same (d := h.rdescr ty) ty' hs.named

theorem mkHnsw_cfg {defScale : Nat → F64} {dist : Dist T} (hs : Sizes ty h) (hm : h.cfg.maxNb ≤ 255)
    (hl : h.cfg.maxLayer = nbLayerMax) (hev : dist.eval = h.cfg.eval) (s : Idx T) (b : Bool) :
    (mkHnsw defScale dist (h.rdescr ty) s b).cfg = h.cfg.withFlags true false := by
  have h1 := hs.ef
  simp only [mkHnsw, Hnsw.rdescr, Hnsw.descr, Cfg.withFlags]
  rw [UInt8.toNat_ofNat', UInt8.toNat_ofNat', UInt64.toNat_ofNat', Nat.mod_eq_of_lt (by omega),
    Nat.mod_eq_of_lt h1, Nat.mod_eq_of_lt (by rw [hl]; decide), hev]

/-- without a map `load_hnsw_with_dist` gives the index of `load_hnsw`, not marked as mapped -/
theorem withDist_load {P : Policy T} {defScale : Nat → F64} {io io' : HnswIo} {fs : Dir} {dist : Dist T}
    {x y : Loaded T} (hm : io.opts.datamap = false)
    (hx : io.loadHnswWithDist P ty defScale dist fs = .ok x)
    (hy : io.loadHnsw P ty defScale dist fs = (io', .ok y)) : x.hnsw = { y.hnsw with mapped := false } := by
  have hmap : io.mapData ty fs = .ok io := by unfold HnswIo.mapData; simp [hm]
  unfold HnswIo.loadHnswWithDist at hx
  unfold HnswIo.loadHnsw at hy
  split at hx
  · cases hx
  rename_i d s hi
  rw [hi] at hy
  simp only at hx hy
  split at hx
  · cases hx
  rename_i d' s' hh
  rw [hh] at hy
  simp only [hmap] at hx hy
  split at hx
  · cases hx
  split at hy
  · cases hy
  split at hx
  · cases hx
  rename_i hl
  rw [hl] at hy
  simp only at hy
  injection hx with hx
  injection hy with _ hy
  injection hy with hy
  subst hx hy
  rfl

theorem HReach.ok {P : Policy T} (L : P.Lawful) {defScale : Nat → F64} {ml : Nat} {c : CSt T}
    (hT : ty.Lawful) (hn : ty.noData = false) (hr : HReach P ty defScale ml h c) :
    HOk P ml h c := by
  induction hr with
  | @new maxNb ef dist h hnew =>
    unfold Hnsw.new at hnew
    split at hnew
    · cases hnew
    · rename_i hle
      injection hnew with hnew
      subst hnew
      exact ⟨.new, rfl, by simpa using hle, rfl, rfl⟩
  | flags e k _ ih => exact ⟨reachC_flags ih.reach e k, ih.idx, ih.conn, ih.lay, ih.gen⟩
  | scale f _ ih => exact ⟨ih.reach, ih.idx, ih.conn, ih.lay, ih.gen⟩
  | @batch h c0 jobs c ts _ hl he hf ih =>
    refine ⟨?_, rfl, ih.conn, ih.lay, ih.gen⟩
    refine ReachC.batch h.cfg.extend h.cfg.keepPruned jobs ih.reach ?_ he hf
    intro j hj
    obtain ⟨level, draw, hd, hg⟩ := hl j hj
    obtain ⟨l, h1, h2, -⟩ := C27_level_range h.gen (by omega) level draw hd
    rw [hg] at h1
    injection h1 with h1
    rw [h1]
    have := ih.gen
    show l < h.cfg.maxLayer
    omega
  | @reload h c fs fs' base name draws o dist io x _ hs hu hm hi hfd hdn hde hload ih =>
    obtain ⟨-, hres, -, hf⟩ := fileDump_ok hfd
    have hd := ih.dumped L hs hres
    obtain ⟨io', hload'⟩ := load_uniform (io := HnswIo.new name o) L hT hn hd hu hi hf
      (fun _ => by simp only [List.length_nil]; omega) (checkDist_dump hs hdn) defScale
    rw [hload] at hload'
    injection hload' with h1 h2
    injection h2 with h2
    have hc : ∀ b, (mkHnsw defScale dist (h.rdescr ty) (h.idx.resort P) b).cfg =
        h.cfg.withFlags true false := fun b => mkHnsw_cfg hs hm hd.idx.layers hde _ b
    rw [h2]
    refine ⟨?_, rfl, ?_, ?_, ?_⟩
    · rw [hc]
      have := ih.reach.reload
      rw [ih.idx] at this
      exact reachC_flags this true false
    · rw [hc]; exact ih.conn
    · rw [hc]; exact ih.lay
    · rw [hc]; exact hd.idx.layers.symm
  | @reloadWithDist h c fs fs' base name draws o dist x _ hs hu hm ho hfd hdn hde hload ih =>
    obtain ⟨-, hres, -, hf⟩ := fileDump_ok hfd
    have hd := ih.dumped L hs hres
    obtain ⟨io', hload'⟩ := load_uniform (io := HnswIo.new name o) L hT hn hd hu
      (fun h => by simp [HnswIo.new, ho] at h) hf
      (fun _ => by simp only [List.length_nil]; omega) (checkDist_dump hs hdn) defScale
    have h2 := withDist_load ho hload hload'
    have hc : ∀ b, (mkHnsw defScale dist (h.rdescr ty) (h.idx.resort P) b).cfg =
        h.cfg.withFlags true false := fun b => mkHnsw_cfg hs hm hd.idx.layers hde _ b
    have h3 : x.hnsw.cfg = h.cfg.withFlags true false := by rw [h2]; exact hc true
    have h4 : x.hnsw.idx = h.idx.resort P := by rw [h2]; rfl
    have h5 : x.hnsw.gen.maxlevel = nbLayerMax := by rw [h2]; rfl
    refine ⟨?_, rfl, ?_, ?_, ?_⟩
    · rw [h3, h4]
      have := ih.reach.reload
      rw [ih.idx] at this
      exact reachC_flags this true false
    · rw [h3]; exact ih.conn
    · rw [h3]; exact ih.lay
    · rw [h3, h5]; exact hd.idx.layers.symm

end
end Verif
