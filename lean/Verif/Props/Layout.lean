import Verif.Props.AnyBytes
import Verif.Props.Mmap
import Verif.Props.Header
import Verif.Props.Reload

set_option autoImplicit false

/-!
# The bytes of the files (C77) and `load_hnsw_with_dist` (C78, C79)
-/

namespace Verif
variable {T : Type} {P : Policy T} {ty : Ty T} {defScale : Nat → F64}

/-! ## C77 -/

/-- a name in a graph file -/
def fileStr (s : String) : Bytes := le 8 s.toUTF8.size ++ s.toUTF8.data.toList

/-- the header of a graph file of format 4 -/
def fileHeader (maxNb : Nat) (scale : F64) (ef nbPoint dim : Nat) (distName tName : String) : Bytes :=
  [0x79, 0x67, 0x2a, 0x00, 0x01, UInt8.ofNat maxNb] ++ le 8 scale.bits ++ [16] ++ le 8 ef ++
    le 8 nbPoint ++ le 8 dim ++ fileStr distName ++ fileStr tName

/-- the position of a point in a graph file -/
def filePid (p : PointId) : Bytes := [UInt8.ofNat p.layer] ++ le 4 p.rank

/-- a point of a graph file, with its 16 lists -/
def filePoint (nb : PointId → Nat → List (PWO T)) (p : Ref T) : Bytes :=
  [0x8f, 0x67, 0x0a, 0x00] ++ le 8 p.origin.toNat ++ filePid p.pid ++
    (List.range 16).flatMap fun l =>
      le 8 (nb p.pid l).length ++ (nb p.pid l).flatMap fun e =>
        le 8 e.pt.origin.toNat ++ filePid e.pt.pid ++ le 4 e.dist.bits

/-- a layer of a graph file -/
def fileLayer (nb : PointId → Nat → List (PWO T)) (ps : List (Ref T)) : Bytes :=
  [0x6f, 0x67, 0x0a, 0x00] ++ le 8 ps.length ++ ps.flatMap (filePoint nb)

theorem fileStr_eq (s : String) : dumpStr s = fileStr s := by
  unfold dumpStr fileStr strBytes
  rw [leBytes_le]
  rfl

theorem filePid_eq (p : PointId) : pidBytes p = filePid p := by
  unfold pidBytes filePid
  rw [leBytes_le]
  rfl

theorem filePoint_eq (s : Idx T) (p : Ref T) : pointGraphBytes true s p = filePoint s.nb p := by
  unfold pointGraphBytes filePoint getNeighborhoodId
  rw [leBytes_le 8, List.flatMap_map, if_pos rfl, filePid_eq]
  congr 1
  refine congrArg (fun f => List.flatMap f (List.range 16)) (funext fun l => ?_)
  unfold listBytes
  rw [List.length_map, leBytes_le, List.flatMap_map]
  congr 1
  refine congrArg (fun f => List.flatMap f (s.nb p.pid l)) (funext fun e => ?_)
  unfold nbBytes
  rw [leBytes_le, leBytes_le, if_pos rfl, filePid_eq]
  rfl

theorem fileLayer_eq (s : Idx T) (ps : List (Ref T)) : layerGraphBytes s ps = fileLayer s.nb ps := by
  unfold layerGraphBytes fileLayer
  rw [leBytes_le 8, ← List.append_assoc]
  rw [show pointGraphBytes true s = filePoint s.nb from funext fun p => filePoint_eq s p]
  rfl

/-- **C77** The two files of a dump, byte by byte. -/
theorem C77_layout (L : P.Lawful) (hT : ty.Lawful) (hn : ty.noData = false) {ml : Nat} {h : Hnsw T}
    {c : CSt T} (hr : HReach P ty defScale ml h c) (hs : Sizes ty h) {fs fs' : Dir}
    {base name : String} {draws : List Nat} (hfd : fileDump ty h fs base draws = some (fs', .ok name)) :
    ∃ e, h.idx.entry = some e ∧ h.idx.layers.length = 16 ∧
      fs' (name ++ ".hnsw.graph") = some (
        fileHeader h.cfg.maxNb h.getLevelScale h.cfg.efC h.idx.points.length e.data.length h.distName
          ty.name ++
        [16] ++ h.idx.layers.flatMap (fileLayer h.idx.nb) ++ le 8 e.origin.toNat ++ filePid e.pid) ∧
      fs' (name ++ ".hnsw.data") = some (
        [0x00, 0x00, 0x7f, 0xa6] ++ le 8 e.data.length ++
        h.idx.points.flatMap fun p => dataRecord (p.origin, p.data.flatMap ty.enc)) := by
  have hk := hr.ok L hT hn
  obtain ⟨-, hres, -, hf⟩ := fileDump_ok hfd
  have hd := hk.dumped L hs hres
  cases he : h.idx.entry with
  | none => exact absurd he hd.idx.entry
  | some e =>
  have hdump := hd.dump he
  have h16 : h.idx.layers.length = 16 := by
    rw [(hk.good L).ok.tab.len, hd.idx.layers]; rfl
  have hdim : getDataDimension h.idx = e.data.length := by unfold getDataDimension; rw [he]
  have h1 := hd.dim_lt
  have h2 := hd.ef
  have h3 := hd.idx.total
  have h4 := hd.idx.layers
  have h5 := hd.idx.count
  refine ⟨e, rfl, h16, ?_, ?_⟩
  · have hg := hf.graph
    rw [List.append_nil] at hg
    refine hg.trans (congrArg some ?_)
    rw [hdump]
    show (h.descr ty true).headBytes true ++ (h.descr ty true).tailBytes ++ idxGraphBytes h.idx e = _
    unfold idxGraphBytes
    rw [show layerGraphBytes h.idx = fileLayer h.idx.nb from funext fun p => fileLayer_eq h.idx p,
      leBytes_le, filePid_eq, h16]
    simp only [← List.append_assoc]
    congr 4
    unfold Descr.headBytes Descr.tailBytes fileHeader
    simp only [leBytes_le 8, fileStr_eq]
    simp only [← List.append_assoc]
    have e1 : (h.descr ty true).ef.toNat = h.cfg.efC := by
      simp only [Hnsw.descr, UInt64.toNat_ofNat']; omega
    have e2 : (h.descr ty true).nbPoint.toNat = h.idx.points.length := by
      simp only [Hnsw.descr, UInt64.toNat_ofNat', getNbPoint, h5]; omega
    have e3 : (h.descr ty true).dim.toNat = e.data.length := by
      simp only [Hnsw.descr, UInt64.toNat_ofNat', ← hdim]; omega
    rw [e1, e2, e3]
    have e4 : (h.descr ty true).nbLayer = 16 := by
      simp only [Hnsw.descr, h4]; rfl
    rw [e4]
    rfl
  · have hg := hf.data
    rw [List.append_nil] at hg
    refine hg.trans (congrArg some ?_)
    rw [hdump]
    show dataHeader h.idx ++ _ = _
    unfold dataHeader
    rw [hdim, leBytes_le 8]
    congr 1
    refine congrArg (fun f => List.flatMap f h.idx.points) (funext fun p => ?_)
    exact recordBytes_eq p.origin (ty.encVec p.data)

/-- what C77 says of the graph file of `io4`: 1165 bytes, the first and last of which are shown -/
example : (match fileDump u8Ty io4 (fun _ => none) "a" [] with
    | some (fs, _) => (fs "a.hnsw.graph").map fun (b : Bytes) => (b.length, b.take 7, b.drop 1152)
    | none => none) = some (1165, [121, 103, 42, 0, 1, 3, 154], [5, 0, 0, 0, 0, 0, 0, 0, 2, 0, 0, 0, 0]) := by
  decide +kernel

/-! ## C78 -/

/-- **C78** Whatever the files, without memory map `load_hnsw_with_dist` returns an index exactly if
`load_hnsw` does and the graph file has the full name of the distance; the index is the same, except that
it is not marked as possibly mapped. -/
theorem C78_with_dist (io : HnswIo) (fs : Dir) (dist : Dist T) (hm : io.opts.datamap = false)
    (hn : ty.noData = false) (hd : dist.name ≠ "") (x : Loaded T) :
    io.loadHnswWithDist P ty defScale dist fs = .ok x ↔
      (∃ x', io.loadHnsw P ty defScale dist fs = (io, .ok x') ∧ x'.hnsw.mapped = true ∧
        x = ⟨{ x'.hnsw with mapped := false }, x'.mapped⟩) ∧
      ∃ g d g', fs (graphName io.base) = some g ∧ loadDescr g = .ok (d, g') ∧ d.distName = dist.name := by
  have hmap : io.mapData ty fs = .ok io := by unfold HnswIo.mapData; simp [hm]
  constructor
  · intro hx
    unfold HnswIo.loadHnswWithDist at hx
    split at hx
    · cases hx
    rename_i d s hi
    obtain ⟨g, g', h1, h2⟩ := init_descr hi
    split at hx
    · cases hx
    rename_i u s1 hh
    split at hx
    · cases hx
    rename_i hc
    have hc' : dist.name = d.distName := by simpa [hn] using hc
    split at hx
    · cases hx
    rename_i idx m s2 hl
    injection hx with hx
    refine ⟨⟨⟨mkHnsw defScale dist d idx true, m⟩, ?_, rfl, hx.symm⟩, g, d, g', h1, h2, hc'.symm⟩
    unfold HnswIo.loadHnsw
    have hcd := checkDist_same ty (d := d) (by rw [← hc']; exact hd)
    rw [← hc'] at hcd
    rw [hi]
    simp only [hh, hcd, hmap, hl]
  · rintro ⟨⟨x', hx, -, rfl⟩, g, d, g', h1, h2, h3⟩
    obtain ⟨d', s, idx, m, s1, s2, hi, hh, hl, rfl⟩ :
        ∃ d' s idx m s1 s2, io.init fs = .ok (d', s) ∧ loadDataHeader d' s = .ok ((), s1) ∧
          loadIndexation P ty d' io.datamap io.opts s1 = .ok ((idx, m), s2) ∧
          x' = ⟨mkHnsw defScale dist d' idx true, m⟩ := by
      unfold HnswIo.loadHnsw at hx
      split at hx
      · cases hx
      rename_i d' s hi
      split at hx
      · cases hx
      rename_i u s1 hh
      split at hx
      · cases hx
      rw [hmap] at hx
      simp only at hx
      split at hx
      · cases hx
      rename_i idx m s2 hl
      rw [Prod.mk.injEq] at hx
      injection hx.2 with hx
      exact ⟨d', s, idx, m, s1, s2, hi, hh, hl, hx.symm⟩
    obtain ⟨ga, gb, h1', h2'⟩ := init_descr hi
    rw [h1] at h1'
    injection h1' with h1'
    subst h1'
    rw [h2] at h2'
    injection h2' with h2'
    rw [Prod.mk.injEq] at h2'
    obtain ⟨rfl, rfl⟩ := h2'
    unfold HnswIo.loadHnswWithDist
    rw [hi]
    simp only [hh, hl, h3, hn, Bool.not_false, bne_self_eq_false, Bool.and_false, Bool.false_eq_true,
      if_false]
    rfl

/-- **C78 is false with a memory map**: as `load_hnsw_with_dist` makes none, it returns no index, whatever
the files, when the first point is to be mapped and no map was made before. -/
theorem C78_mapped_refuted (L : P.Lawful) (io : HnswIo) (fs : Dir) (dist : Dist T) {g g' : Bytes}
    {d : Descr} (hg : fs (graphName io.base) = some g) (hd : loadDescr g = .ok (d, g'))
    (hm : io.opts.datamap = true) (h0 : io.datamap = none)
    (ht : io.opts.threshold < d.nbPoint.toNat) (hb : d.nbPoint.toNat < 2 ^ 63) (x : Loaded T) :
    io.loadHnswWithDist P ty defScale dist fs ≠ .ok x := by
  intro hx
  unfold HnswIo.loadHnswWithDist at hx
  split at hx
  · cases hx
  rename_i d' s hi
  obtain ⟨ga, gb, h1, h2⟩ := init_descr hi
  rw [hg] at h1
  injection h1 with h1
  subst h1
  rw [hd] at h2
  injection h2 with h2
  rw [Prod.mk.injEq] at h2
  obtain ⟨rfl, rfl⟩ := h2
  split at hx
  · cases hx
  split at hx
  · cases hx
  rw [h0] at hx
  split at hx
  · cases hx
  rename_i idx m s2 hl
  have ha : asI64 d.nbPoint.toNat = d.nbPoint.toNat := by unfold asI64; rw [if_pos hb]
  have ha' : asI64 io.opts.threshold = io.opts.threshold := by unfold asI64; rw [if_pos (by omega)]
  obtain ⟨hfl, -⟩ := loadIndexation_flags hl (by rw [ha]; omega)
  obtain ⟨-, -, ⟨e, -, he⟩, -, -, -, -, ps, vs, hps, hmp, hD, -⟩ := loadIndexation_ok L hl
  have hlen : ps.length = idx.points.length := by rw [← hps]; simp
  cases ps with
  | nil =>
    have := List.length_pos_of_mem he
    simp at hlen; omega
  | cons p ps =>
    cases vs with
    | nil => have := congrArg List.length hD.1; simp at this
    | cons v vs =>
      have hV := hD.2 0 p v rfl rfl
      rw [hmp, ← hlen, List.length_cons, flagsFrom_succ, List.map_cons] at hfl
      have hp : p.mapped = true := by
        have := (List.cons.inj hfl).1
        rw [this]
        unfold pointUseMmap
        rw [hm, ha, ha']
        simp
        omega
      unfold VecOf at hV
      rw [hp] at hV
      simp only [if_true, mappedVec] at hV
      cases hV

/-- result of `load_hnsw_with_dist` on the dump of `io4` by a new reloader: the number of points, or the
failure -/
def withDistLoad (dist : Dist UInt8) (o : ReloadOptions) : Option (Except Fail Nat) :=
  match fileDump u8Ty io4 (fun _ => none) "a" [] with
  | some (fs', .ok name) =>
    some (((HnswIo.new name o).loadHnswWithDist (listPolicy UInt8) u8Ty exScale dist fs').map
      (·.hnsw.idx.points.length))
  | _ => none

/-- Both cases for the dump of `io4`: without map the index is returned if the full name is right, with a
map there is a panic. -/
example :
    (withDistLoad (u8Dist io4.distName) .default).map Except.toOption = some (some 4) ∧
    (withDistLoad (u8Dist "mycrate::DistL1") .default).map Except.toOption = some none ∧
    (withDistLoad (u8Dist io4.distName) ⟨true, 0⟩).map
      (fun r => match r with | .error .panic => true | _ => false) = some true := by
  refine ⟨?_, ?_, ?_⟩ <;> decide +kernel

/-- **C78** (dumps) `load_hnsw_with_dist`, asked for the distance of the index by its full name, loads every
dump, and gives the dumped points, entry point and count, and the dumped lists sorted again. -/
theorem C78_reload (L : P.Lawful) (hT : ty.Lawful) (hn : ty.noData = false) {ml : Nat} {h : Hnsw T}
    {c : CSt T} (hr : HReach P ty defScale ml h c) (hs : Sizes ty h) (hu : SameDim h.idx)
    {fs fs' : Dir} {base name : String} {draws : List Nat}
    (hfd : fileDump ty h fs base draws = some (fs', .ok name)) (o : ReloadOptions)
    (ho : o.datamap = false) (dist : Dist T) (hdn : dist.name = h.distName) :
    ∃ x, (HnswIo.new name o).loadHnswWithDist P ty defScale dist fs' = .ok x ∧ x.hnsw.mapped = false ∧
      x.hnsw.idx.layers = h.idx.layers ∧ x.hnsw.idx.entry = h.idx.entry ∧
      x.hnsw.idx.nbPoint = h.idx.nbPoint ∧ ∀ p l, x.hnsw.idx.nb p l = P.sort (h.idx.nb p l) := by
  have hk := hr.ok L hT hn
  obtain ⟨-, hres, -, hf⟩ := fileDump_ok hfd
  have hd := hk.dumped L hs hres
  obtain ⟨io', hl⟩ := load_uniform (io := HnswIo.new name o) L hT hn hd hu
    (fun h => by simp [HnswIo.new, ho] at h) hf
    (fun _ => by simp only [List.length_nil]; omega) (checkDist_dump hs hdn) defScale
  obtain ⟨io2, x, hx, h1, h2, h3, h4, -⟩ := C40_reload_same_partial L hT hn hr hs hu hfd o
    (fun h => by rw [ho] at h; cases h) dist hdn
  have hio : (HnswIo.new name o).loadHnsw P ty defScale dist fs' = (HnswIo.new name o, .ok x) := by
    have hmap : (HnswIo.new name o).mapData ty fs' = .ok (HnswIo.new name o) := by
      unfold HnswIo.mapData; simp [HnswIo.new, ho]
    have h1 : ((HnswIo.new name o).loadHnsw P ty defScale dist fs').1 = HnswIo.new name o := by
      unfold HnswIo.loadHnsw
      rw [hmap]
      split
      · rfl
      · split
        · rfl
        · split
          · rfl
          · simp only
            split <;> rfl
    rw [hx] at h1 ⊢
    exact congrArg (·, _) h1
  obtain ⟨g, d, rest, hg, hld, -, -, -, -, -, -, -, -, hdd, -⟩ := C43_file L hT hn hr hs hfd
  have hm : x.hnsw.mapped = true := by
    rw [hio] at hl
    injection hl with _ hl
    injection hl with hl
    rw [hl]; rfl
  refine ⟨_, (C78_with_dist (HnswIo.new name o) fs' dist ho hn (by rw [hdn]; exact hs.named) _).2
    ⟨⟨x, hio, hm, rfl⟩, g, d, rest, hg, hld, hdd.trans hdn.symm⟩, rfl, h1, h2, h3, h4⟩

/-- a history in which a dump is loaded by `load_hnsw_with_dist` and a point is inserted afterwards -/
example : ∃ (h : Hnsw UInt8) (c : CSt UInt8), HReach (listPolicy UInt8) u8Ty exScale 16 h c ∧
    h.idx.points.length = 5 ∧ h.mapped = false := by
  obtain ⟨c, hr⟩ := io4_reach
  have hu : SameDim io4.idx := by unfold SameDim Stored; decide +kernel
  have hres : (io4.dump u8Ty true).res = .ok () := res_ok (by decide +kernel)
  obtain ⟨fs', hfd⟩ := fileDump_new (ty := u8Ty) (h := io4) rfl hres "a" []
  obtain ⟨x, hx, hm, h1, -⟩ := C78_reload listPolicy_lawful u8Ty_lawful rfl hr io4_sizes
    hu hfd .default rfl u8Dist rfl
  have hr2 := HReach.reloadWithDist .default hr io4_sizes hu (by decide +kernel) rfl hfd rfl rfl hx
  have hk := hr2.ok listPolicy_lawful u8Ty_lawful rfl
  have hr3 := hr2.insert listPolicy_lawful u8Ty_lawful rfl ⟨[40, 4], 11, 0⟩ (by rw [hk.lay]; decide)
  refine ⟨_, _, hr3, ?_, hm⟩
  obtain ⟨r, -, -, -, -, hperm, -⟩ := insert_spec listPolicy_lawful (hk.reach.goodC listPolicy_lawful)
    (j := ⟨[40, 4], 11, 0⟩) (by rw [hk.lay]; decide) x.hnsw.cfg.extend x.hnsw.cfg.keepPruned rfl
  have := hperm.length_eq
  rw [List.length_cons] at this
  have h5 : x.hnsw.idx.points = io4.idx.points := by unfold Idx.points; rw [h1]
  simp only [h5] at this
  rw [show io4.idx.points.length = 4 by decide +kernel] at this
  exact this

/-! ## C79 -/

/-- a program that maps the dump of `io4` with `load_hnsw`, drops the index, gets one from
`load_hnsw_with_dist` and dumps it under the same name: which points are mapped, and is the mapped data
file written over -/
def overwritten : Option (List Bool × Bool) :=
  match fileDump u8Ty io4 (fun _ => none) "a" [] with
  | some (fs, .ok name) =>
    match (HnswIo.new name ⟨true, 0⟩).loadHnsw (listPolicy UInt8) u8Ty exScale (u8Dist io4.distName) fs with
    | (io, .ok _) =>
      match io.loadHnswWithDist (listPolicy UInt8) u8Ty exScale (u8Dist io4.distName) fs with
      | .ok x =>
        match fileDump u8Ty x.hnsw fs name [] with
        | some (_, .ok name') => some (x.mapped, name' == name)
        | _ => none
      | .error _ => none
    | _ => none
  | _ => none

/-- **C79 is false**: all the points of the index it returns may be mapped, and
`file_dump` of it writes over the mapped file. -/
theorem C79_refuted : overwritten = some ([true, true, true, true], true) := by
  decide +kernel

/-- **C79** (partial: the reloader made no map before) No point of an index returned by
`load_hnsw_with_dist` is mapped. -/
theorem C79_unmapped_partial (L : P.Lawful) (io : HnswIo) (fs : Dir) (dist : Dist T)
    (h0 : io.datamap = none) {x : Loaded T}
    (hx : io.loadHnswWithDist P ty defScale dist fs = .ok x) :
    x.mapped = List.replicate x.hnsw.idx.points.length false := by
  unfold HnswIo.loadHnswWithDist at hx
  split at hx
  · cases hx
  split at hx
  · cases hx
  split at hx
  · cases hx
  rw [h0] at hx
  split at hx
  · cases hx
  rename_i idx m s2 hl
  injection hx with hx
  subst hx
  obtain ⟨-, -, -, -, -, -, -, ps, vs, hps, hmp, hD, -⟩ := loadIndexation_ok L hl
  show m = List.replicate idx.points.length false
  rw [hmp, List.eq_replicate_iff]
  refine ⟨by rw [← hps]; simp, ?_⟩
  intro b hb
  obtain ⟨p, hp, rfl⟩ := List.mem_map.1 hb
  obtain ⟨i, hi, hp⟩ := List.getElem_of_mem hp
  have hl : vs.length = ps.length := by
    have := congrArg List.length hD.1
    simpa using this
  have hV := hD.2 i p vs[i] (by rw [← hp]; simp) (by simp)
  cases hm : p.mapped with
  | false => rfl
  | true =>
    unfold VecOf at hV
    rw [hm] at hV
    simp only [if_true, mappedVec] at hV
    cases hV

example : ∃ x, (match fileDump u8Ty io4 (fun _ => none) "a" [] with
    | some (fs', .ok name) => ((HnswIo.new name .default).loadHnswWithDist (listPolicy UInt8) u8Ty exScale
        (u8Dist io4.distName) fs').toOption
    | _ => none) = some x := by
  refine Option.isSome_iff_exists.1 ?_
  decide +kernel

end Verif
