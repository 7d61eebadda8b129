import Verif.Props.Reload
import Verif.HeaderLemmas

set_option autoImplicit false

/-!
# Header of a dump, parameters and type names (C43-C47)
-/

namespace Verif
variable {T T' : Type} {P : Policy T} {ty : Ty T} {defScale : Nat → F64} {ml : Nat} {h : Hnsw T}
  {c : CSt T} {fs fs' : Dir} {base name : String} {draws : List Nat}

/-! ## C43 -/

/-- **C43** (partial: names of at most 256 bytes) What `Description::dump` writes is read back by
`load_description`, which stops exactly at its end; the mode is that of the dump, the version is that of the magic number. -/
theorem C43_header_partial (d : Descr) (full : Bool) (hok : (dumpDescr d full).res = .ok ())
    (h1 : (strBytes d.distName).length ≤ 256) (h2 : (strBytes d.tName).length ≤ 256) (rest : Bytes) :
    loadDescr ((dumpDescr d full).g ++ rest) =
      .ok (⟨4, if full then 1 else 0, d.maxNb, d.scale, d.nbLayer, d.ef, d.nbPoint, d.dim,
        d.distName, d.tName⟩, rest) := by
  unfold dumpDescr at hok ⊢
  split at hok
  · cases hok
  · rename_i hx
    rw [if_neg hx]
    exact parses_loadDescr h1 h2 rest

/-- **C43 is false** for longer names (of the element type or of the distance), which are written all
the same: whatever the rest of the header and whatever follows it, it is refused. -/
theorem C43_long_refused (d : Descr) (full : Bool) (hok : (dumpDescr d full).res = .ok ())
    (h : 256 < (strBytes d.distName).length ∨ 256 < (strBytes d.tName).length)
    (h1 : (strBytes d.distName).length < 2 ^ 64) (h2 : (strBytes d.tName).length < 2 ^ 64)
    (rest : Bytes) : loadDescr ((dumpDescr d full).g ++ rest) = .error .err := by
  unfold dumpDescr at hok ⊢
  split at hok
  · cases hok
  · rename_i hx
    rw [if_neg hx]
    exact loadDescr_long h1 h2 h rest

/-- a header with a name of 257 letters -/
example : (dumpDescr ⟨4, 1, 16, F64.one, 16, 200, 3, 2, String.ofList (List.replicate 257 'd'), "u8"⟩
      true).res = .ok () ∧
    256 < (strBytes (String.ofList (List.replicate 257 'd'))).length :=
  ⟨rfl, by decide +kernel⟩

/-- **C41** for the names that `C41_truncated` leaves out: a dump of an index whose distance or element
type has a name of more than 256 bytes is never reloaded, cut or not, even with `NoData`. -/
theorem C41_long_names {P' : Policy T'} (h1 : (strBytes h.distName).length < 2 ^ 64)
    (h2 : (strBytes ty.name).length < 2 ^ 64)
    (hl : 256 < (strBytes h.distName).length ∨ 256 < (strBytes ty.name).length)
    (hfd : fileDump ty h fs base draws = some (fs', .ok name)) {gfull g : Bytes}
    (hgf : fs' (graphName name) = some gfull) (hg : g <+: gfull) {fs2 : Dir}
    (h2g : fs2 (graphName name) = some g) (ty' : Ty T') (defScale' : Nat → F64) (dist : Dist T')
    (io : HnswIo) (hio : io.base = name) (x : Loaded T') :
    (io.loadHnsw P' ty' defScale' dist fs2).2 ≠ .ok x := by
  intro hx
  obtain ⟨-, hres, -, hf⟩ := fileDump_ok hfd
  obtain ⟨tg, htg⟩ := hg
  have e1 : (h.dump ty true).g = gfull := by
    have := hf.graph; rw [hgf] at this; simpa using (Option.some.inj this).symm
  have hx' : io.loadHnsw P' ty' defScale' dist fs2 =
      ((io.loadHnsw P' ty' defScale' dist fs2).1, .ok x) := by rw [← hx]
  obtain ⟨g', d, rest, h3, h4, -⟩ := load_ok_descr hx'
  rw [hio, h2g] at h3
  cases h3
  have hok : (dumpDescr (h.descr ty true) true).res = .ok () := by
    unfold Hnsw.dump Out.seq at hres
    split at hres
    · rename_i a ha
      exact ha
    · rename_i e he
      rw [he] at hres
      cases hres
  have hdg : ∃ r, (h.dump ty true).g = (dumpDescr (h.descr ty true) true).g ++ r := by
    unfold Hnsw.dump
    generalize (Out.data (dataHeader h.idx)).seq (dumpIdx ty true h.idx) = o
    unfold Out.seq
    rw [hok]
    exact ⟨_, rfl⟩
  obtain ⟨r, hr⟩ := hdg
  have h5 := C43_long_refused (h.descr ty true) true hok hl h1 h2 r
  rw [← hr, e1, ← htg] at h5
  have h6 := ext_loadDescr.1 h4 tg
  rw [h5] at h6
  cases h6

/-- the index `io4` with a distance whose name has 257 letters: it is dumped -/
example : ∃ fs', fileDump u8Ty { io4 with distName := String.ofList (List.replicate 257 'd') }
    (fun _ => none) "b" [] = some (fs', .ok "b") := ⟨_, rfl⟩

/-- **C43** Headers of formats 2 and 3 have no level scale; it is taken to be 1. -/
theorem C43_old_header (magic v : Nat) (hm : magic = 0x002a677f ∧ v = 2 ∨ magic = 0x002a6771 ∧ v = 3)
    (mode maxNb nbLayer : UInt8) (ef nbPoint dim : UInt64) (distName tName : String)
    (h1 : (strBytes distName).length ≤ 256) (h2 : (strBytes tName).length ≤ 256) (rest : Bytes) :
    loadDescr (leBytes 4 magic ++ [mode, maxNb, nbLayer] ++ leBytes 8 ef.toNat ++
        leBytes 8 nbPoint.toNat ++ leBytes 8 dim.toNat ++
        leBytes 8 (strBytes distName).length ++ strBytes distName ++
        leBytes 8 (strBytes tName).length ++ strBytes tName ++ rest) =
      .ok (⟨v, mode, maxNb, F64.one, nbLayer, ef, nbPoint, dim, distName, tName⟩, rest) := by
  have hv : versionOf magic = some v ∧ magic < 256 ^ 4 ∧ v ≠ 4 := by
    rcases hm with ⟨rfl, rfl⟩ | ⟨rfl, rfl⟩ <;> decide
  have := parses_loadDescr_old (d := ⟨v, mode, maxNb, F64.one, nbLayer, ef, nbPoint, dim, distName, tName⟩)
    hv.2.1 hv.1 hv.2.2 h1 h2 rest
  rw [← this]
  congr 1
  simp [Descr.oldBytes, Descr.tailBytes, dumpStr, List.append_assoc]

/-- **C43** Any other magic number is refused. -/
theorem C43_magic (b : Bytes) (hb : ∀ v ∈ [0x002a677f, 0x002a6771, 0x002a6779], ofLE (b.take 4) ≠ v) :
    loadDescr b = .error .err := by
  have hv : versionOf (ofLE (b.take 4)) = none := by
    unfold versionOf
    rw [if_neg (hb _ (by simp [magicDescr2])), if_neg (hb _ (by simp [magicDescr3])),
      if_neg (hb _ (by simp [magicDescr4]))]
  unfold loadDescr
  by_cases hl : 4 ≤ b.length
  · have : readNat .err 4 b = .ok (ofLE (b.take 4), b.drop 4) := by
      simp [readNat, readExact, hl, Bind.bind, Rd.bind, Pure.pure, Rd.pure]
    simp only [Bind.bind, Rd.bind, this, hv, Rd.fail]
  · have : readNat .err 4 b = .error .err := by
      simp [readNat, readExact, hl, Bind.bind, Rd.bind]
    simp only [Bind.bind, Rd.bind, this]

/-- The header in the file of a dump tells the parameters of the index. -/
theorem C43_file (L : P.Lawful) (hT : ty.Lawful) (hn : ty.noData = false)
    (hr : HReach P ty defScale ml h c) (hs : Sizes ty h)
    (hfd : fileDump ty h fs base draws = some (fs', .ok name)) :
    ∃ g d rest, fs' (graphName name) = some g ∧ loadDescr g = .ok (d, rest) ∧
      d.version = 4 ∧ d.mode = 1 ∧ d.maxNb.toNat = h.cfg.maxNb % 256 ∧ d.scale = h.getLevelScale ∧
      d.nbLayer.toNat = 16 ∧ d.ef.toNat = h.cfg.efC ∧ d.nbPoint.toNat = h.idx.points.length ∧
      d.dim.toNat = getDataDimension h.idx ∧ d.distName = h.distName ∧ d.tName = ty.name := by
  have hk := hr.ok L hT hn
  obtain ⟨-, hres, -, hf⟩ := fileDump_ok hfd
  have hd := hk.dumped L hs hres
  obtain ⟨e, he⟩ := Option.ne_none_iff_exists'.mp hd.idx.entry
  have hg := hf.graph
  rw [hd.dump he] at hg
  refine ⟨_, h.rdescr ty, idxGraphBytes h.idx e ++ [], hg, ?_, rfl, rfl, ?_, rfl, ?_, ?_, ?_, ?_, rfl, rfl⟩
  · have := hd.parses_descr (idxGraphBytes h.idx e ++ [])
    rw [List.append_assoc (_ ++ _)]
    exact this
  · simp only [Hnsw.rdescr, Hnsw.descr]
    rw [UInt8.toNat_ofNat']
  · exact hd.nbLayer
  · have := hd.ef
    simp only [Hnsw.rdescr, Hnsw.descr]
    rw [UInt64.toNat_ofNat', Nat.mod_eq_of_lt this]
  · rw [hd.nbPoint_eq]
    exact hd.idx.count
  · exact hd.dim_eq

/-- a header, and what follows -/
example : (loadDescr ((dumpDescr (io4.descr u8Ty true) true).g ++ [1, 2, 3])).toOption =
    some (⟨4, 1, 3, F64.fifth, 16, 10, 4, 2, "anndists::dist::distances::DistL1", "u8"⟩, [1, 2, 3]) := by
  decide +kernel

/-! ## C44, C45 -/

/-- **C44 is false**: on reload the recorded scale multiplies the default one.  Whatever the default
scale, the scale of the reloaded index is their product. -/
theorem C44_scale_multiplied (L : P.Lawful) (hT : ty.Lawful) (hn : ty.noData = false)
    (hr : HReach P ty defScale ml h c) (hs : Sizes ty h)
    (hfd : fileDump ty h fs base draws = some (fs', .ok name)) (hm : h.cfg.maxNb ≤ 255)
    (o : ReloadOptions) (dist : Dist T) {io : HnswIo} {x : Loaded T}
    (hx : (HnswIo.new name o).loadHnsw P ty defScale dist fs' = (io, .ok x)) :
    x.hnsw.getLevelScale = F64.mul (defScale h.cfg.maxNb) h.getLevelScale := by
  have hk := hr.ok L hT hn
  obtain ⟨-, hres, -, hf⟩ := fileDump_ok hfd
  have hd := hk.dumped L hs hres
  obtain ⟨d, idx, b, hd', hxx⟩ := load_ok_mk hd hf hx
  subst hd'
  rw [hxx]
  simp only [mkHnsw, LayerGen.newWithScale, Hnsw.getLevelScale, Hnsw.rdescr, Hnsw.descr]
  rw [UInt8.toNat_ofNat', Nat.mod_eq_of_lt (by omega)]

/-- the double nearest to `1 / ln(16)`: the default scale for 16 connections -/
def scale16 : F64 := ⟨false, Fin.ofNat _ 0x3fd71547652b82fe⟩

/-- an index of 16 connections, as created by default -/
def ioScale : Hnsw UInt8 := ioH (fun _ => scale16) 16 16 u8Dist [(([10, 1], 7), 0)]

theorem ioScale_reach : ∃ c, HReach (listPolicy UInt8) u8Ty (fun _ => scale16) 16 ioScale c :=
  ioH_reach u8Ty_lawful rfl _ (by decide) _ _ (by decide)

/-- what is left of an index after a dump and a reload -/
def dumpLoad (defScale : Nat → F64) (h : Hnsw UInt8) (dist : Dist UInt8) (o : ReloadOptions) :
    Option (Hnsw UInt8) :=
  match fileDump u8Ty h (fun _ => none) "a" [] with
  | some (fs', .ok name) =>
    ((HnswIo.new name o).loadHnsw (listPolicy UInt8) u8Ty defScale dist fs').2.toOption.map (·.hnsw)
  | _ => none

/-- **C44 is false**: the scale was 0.36, it is 0.13 after one reload and 0.047 after two. -/
theorem C44_refuted : (∃ c, HReach (listPolicy UInt8) u8Ty (fun _ => scale16) 16 ioScale c) ∧
    ioScale.getLevelScale = scale16 ∧
    (dumpLoad (fun _ => scale16) ioScale u8Dist .default).map Hnsw.getLevelScale =
      some ⟨false, Fin.ofNat _ 0x3fc0a6a4c7c29f9a⟩ ∧
    F64.lt ⟨false, Fin.ofNat _ 0x3fc0a6a4c7c29f9a⟩ scale16 = true :=
  ⟨ioScale_reach, by decide +kernel, by decide +kernel, by decide +kernel⟩

/-- **C44** (partial) The scale survives if the default one is 1. -/
theorem C44_scale_partial (L : P.Lawful) (hT : ty.Lawful) (hn : ty.noData = false)
    (hr : HReach P ty defScale ml h c) (hs : Sizes ty h)
    (hfd : fileDump ty h fs base draws = some (fs', .ok name)) (hm : h.cfg.maxNb ≤ 255)
    (h1 : defScale h.cfg.maxNb = F64.one) (hnan : h.getLevelScale.isNaN = false)
    (o : ReloadOptions) (dist : Dist T) {io : HnswIo} {x : Loaded T}
    (hx : (HnswIo.new name o).loadHnsw P ty defScale dist fs' = (io, .ok x)) :
    x.hnsw.getLevelScale = h.getLevelScale := by
  rw [C44_scale_multiplied L hT hn hr hs hfd hm o dist hx, h1]
  exact F64.one_mul hnan

/-- **C45** (partial: at most 255 connections; without the two flags) The numbers of connections, of
candidates and of layers, and the distance asked for, are those of the dumped index. -/
theorem C45_params_partial (L : P.Lawful) (hT : ty.Lawful) (hn : ty.noData = false)
    (hr : HReach P ty defScale ml h c) (hs : Sizes ty h)
    (hfd : fileDump ty h fs base draws = some (fs', .ok name)) (hm : h.cfg.maxNb ≤ 255)
    (o : ReloadOptions) (dist : Dist T) {io : HnswIo} {x : Loaded T}
    (hx : (HnswIo.new name o).loadHnsw P ty defScale dist fs' = (io, .ok x)) :
    x.hnsw.cfg.maxNb = h.cfg.maxNb ∧ x.hnsw.cfg.efC = h.cfg.efC ∧
      x.hnsw.cfg.maxLayer = h.cfg.maxLayer ∧ x.hnsw.gen.maxlevel = h.gen.maxlevel ∧
      x.hnsw.cfg.eval = dist.eval ∧ x.hnsw.distName = dist.name := by
  have hk := hr.ok L hT hn
  obtain ⟨-, hres, -, hf⟩ := fileDump_ok hfd
  have hd := hk.dumped L hs hres
  obtain ⟨d, idx, b, hd', hxx⟩ := load_ok_mk hd hf hx
  subst hd'
  rw [hxx]
  have h1 := hs.ef
  have hl := hd.idx.layers
  simp only [mkHnsw, LayerGen.newWithScale, Hnsw.rdescr, Hnsw.descr]
  rw [UInt8.toNat_ofNat', UInt8.toNat_ofNat', UInt64.toNat_ofNat', Nat.mod_eq_of_lt (by omega),
    Nat.mod_eq_of_lt h1, Nat.mod_eq_of_lt (by rw [hl]; decide), hk.gen, hl]
  simp

/-- **C45 is false** for the two flags: whatever they were, the reloaded index extends candidates and
does not keep pruned ones. -/
theorem C45_flags_lost (L : P.Lawful) (hT : ty.Lawful) (hn : ty.noData = false)
    (hr : HReach P ty defScale ml h c) (hs : Sizes ty h)
    (hfd : fileDump ty h fs base draws = some (fs', .ok name))
    (o : ReloadOptions) (dist : Dist T) {io : HnswIo} {x : Loaded T}
    (hx : (HnswIo.new name o).loadHnsw P ty defScale dist fs' = (io, .ok x)) :
    x.hnsw.cfg.extend = true ∧ x.hnsw.cfg.keepPruned = false := by
  have hk := hr.ok L hT hn
  obtain ⟨-, hres, -, hf⟩ := fileDump_ok hfd
  obtain ⟨d, idx, b, -, hxx⟩ := load_ok_mk (hk.dumped L hs hres) hf hx
  rw [hxx]
  exact ⟨rfl, rfl⟩

/-- an index of 256 connections, the largest number accepted -/
def io256 : Hnsw UInt8 := ioH exScale 256 16 u8Dist [(([10, 1], 7), 0), (([20, 2], 8), 1)]

theorem io256_reach : ∃ c, HReach (listPolicy UInt8) u8Ty exScale 16 io256 c :=
  ioH_reach u8Ty_lawful rfl _ (by decide) _ _ (by decide)

/-- **C45 is false** also for 256 connections, which come back as 0. -/
theorem C45_refuted :
    (∃ c, HReach (listPolicy UInt8) u8Ty exScale 16 io256 c) ∧ io256.cfg.maxNb = 256 ∧
    io256.cfg.extend = false ∧
    (dumpLoad exScale io256 u8Dist .default).map (fun h => (h.cfg.maxNb, h.cfg.extend)) =
      some (0, true) :=
  ⟨io256_reach, by decide +kernel, by decide +kernel, by decide +kernel⟩

/-- after which an insertion leaves the new point (second in the list) without any neighbour -/
example : (dumpLoad exScale io256 u8Dist .default).map (fun h =>
    ((insertAll (listPolicy UInt8) h.cfg { (CSt.new 16 : CSt UInt8) with idx := h.idx } [(([15, 1], 9), 0)]).map
      fun c => c.idx.points.map fun p => (c.idx.nb p.pid 0).length)) =
    some (some [0, 0, 1]) := by decide +kernel

/-! ## C46, C47 -/

/-- **C47** Whatever the files, `load_hnsw` returns `Ok` only if the name of the element type it is
called with is the one in the graph file, or it is `NoData`. -/
theorem C47_type_name {io io' : HnswIo} {dist : Dist T} {x : Loaded T}
    (hx : io.loadHnsw P ty defScale dist fs = (io', .ok x)) (hn : ty.noData = false) :
    ∃ g d rest, fs (graphName io.base) = some g ∧ loadDescr g = .ok (d, rest) ∧ ty.name = d.tName := by
  obtain ⟨g, d, rest, h1, h2, h3, -⟩ := load_ok_descr hx
  exact ⟨g, d, rest, h1, h2, h3.resolve_left (by rw [hn]; decide)⟩

/-- **C47** For a dump: no reload with another type name returns `Ok`. -/
theorem C47_dump {P' : Policy T'} (L : P.Lawful) (hT : ty.Lawful) (hn : ty.noData = false)
    (hr : HReach P ty defScale ml h c) (hs : Sizes ty h)
    (hfd : fileDump ty h fs base draws = some (fs', .ok name)) (ty' : Ty T') (hn' : ty'.noData = false)
    (hne : ty'.name ≠ ty.name) (io : HnswIo) (hio : io.base = name) (defScale' : Nat → F64)
    (dist : Dist T') (x : Loaded T') :
    (io.loadHnsw P' ty' defScale' dist fs').2 ≠ .ok x := by
  intro hx
  obtain ⟨g, d, rest, h1, h2, h3⟩ := C47_type_name (P := P') (io := io) (io' := _) (Prod.ext rfl hx) hn'
  obtain ⟨g', d', rest', h1', h2', -, -, -, -, -, -, -, -, -, h4⟩ := C43_file L hT hn hr hs hfd
  rw [hio, h1'] at h1
  obtain rfl := Option.some.inj h1
  rw [h2'] at h2
  injection h2 with h2
  rw [Prod.mk.injEq] at h2
  rw [← h2.1, h4] at h3
  exact hne h3

/-- `i8`: the same size, another name -/
def i8Ty : Ty UInt8 := { u8Ty with name := "i8" }

example : (match fileDump u8Ty io4 (fun _ => none) "a" [] with
    | some (fs', .ok _) =>
      some (outcomeOf ((HnswIo.new "a" .default).loadHnsw (listPolicy UInt8) i8Ty exScale u8Dist fs').2)
    | _ => none) = some (some .panic) := by decide +kernel

/-- `l` is the part of `s` after its last `::` -/
def IsLastSegment (s : String) (l : List Char) : Prop :=
  (s.toList = l ∨ ∃ p, s.toList = p ++ [':', ':'] ++ l) ∧ ¬ [':', ':'] <:+: l

/-- **C46** (partial: names are compared from their last `::` on) Whatever the files, `load_hnsw`
returns `Ok` for another type than `NoData` only if the name of the distance it is called with and the
name in the graph file have the same last segment (for names that do not end with `::`). -/
theorem C46_distance_partial {io io' : HnswIo} {dist : Dist T} {x : Loaded T}
    (hx : io.loadHnsw P ty defScale dist fs = (io', .ok x)) (hn : ty.noData = false) :
    ∃ g d rest, fs (graphName io.base) = some g ∧ loadDescr g = .ok (d, rest) ∧
      (¬ [':', ':'] <:+ dist.name.toList → ¬ [':', ':'] <:+ d.distName.toList →
        ∃ l, IsLastSegment dist.name l ∧ IsLastSegment d.distName l) := by
  obtain ⟨g, d, rest, h1, h2, -, h3⟩ := load_ok_descr hx
  refine ⟨g, d, rest, h1, h2, fun e1 e2 => ?_⟩
  unfold checkDist at h3
  rw [hn] at h3
  simp only [Bool.false_eq_true, if_false] at h3
  split at h3
  · rename_i a b ha hb
    split at h3
    · rename_i hab
      subst hab
      exact ⟨a, rsplit_last_aux ha e1, rsplit_last_aux hb e2⟩
    · cases h3
  · cases h3

/-- **C46 is false** for the full names: a dump made with `DistL1` of one crate is reloaded with the
`DistL1` of another one. -/
theorem C46_refuted :
    io4.distName = "anndists::dist::distances::DistL1" ∧
    (dumpLoad exScale io4 (u8Dist "mycrate::DistL1") .default).map (·.distName) =
      some "mycrate::DistL1" ∧
    (dumpLoad exScale io4 (u8Dist "mycrate::DistL2") .default).map (·.distName) = none := by
  refine ⟨?_, ?_, ?_⟩ <;> decide +kernel

/-- **C46** for `load_hnsw_with_dist`, which compares the full names. -/
theorem C46_with_dist {io : HnswIo} {dist : Dist T} {x : Loaded T}
    (hx : io.loadHnswWithDist P ty defScale dist fs = .ok x) (hn : ty.noData = false) :
    ∃ g d rest, fs (graphName io.base) = some g ∧ loadDescr g = .ok (d, rest) ∧
      dist.name = d.distName := by
  unfold HnswIo.loadHnswWithDist at hx
  split at hx
  · cases hx
  · rename_i d s hi
    obtain ⟨g, rest, h1, h2⟩ := init_descr hi
    split at hx
    · cases hx
    · split at hx
      · cases hx
      · rename_i hc
        simp only [hn, Bool.not_false, Bool.true_and, bne_iff_ne, ne_eq, Decidable.not_not] at hc
        exact ⟨g, d, rest, h1, h2, hc⟩

end Verif
