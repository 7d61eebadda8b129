import Verif.MmapLemmas
import Verif.Props.Header

set_option autoImplicit false

/-!
# Memory mapping of the data file (C50-C54)
-/

namespace Verif
variable {T T' : Type} {P : Policy T} {ty : Ty T} {defScale : Nat → F64} {ml : Nat} {h : Hnsw T}
  {c : CSt T} {fs fs' : Dir} {base name : String} {draws : List Nat}

/-! ## C50 -/

/-- **C50** (partial: `0 < t < 2^63`) With `set_mmap_threshold(t)`, whatever the files: if the reload
returns `Ok` and has loaded the `n` points the header promises, then exactly the last `min t n` of them
in the order of the dump are in memory, and all the others are mapped. -/
theorem C50_threshold_partial {io io' : HnswIo} {dist : Dist T} {x : Loaded T} {t : Nat} (h0 : 0 < t)
    (ht : t < 2 ^ 63) {o : ReloadOptions} (ho : io.opts = o.setThreshold t)
    (hx : io.loadHnsw P ty defScale dist fs = (io', .ok x)) {g : Bytes} {d : Descr} {rest : Bytes}
    (hg : fs (graphName io.base) = some g) (hd : loadDescr g = .ok (d, rest)) {n : Nat}
    (hn : d.nbPoint.toNat = n) (hn63 : n < 2 ^ 63) (hall : x.hnsw.idx.points.length = n) :
    x.mapped = List.replicate (n - min t n) true ++ List.replicate (min t n) false := by
  have hopt : io.opts = ⟨true, t⟩ := by rw [ho]; unfold ReloadOptions.setThreshold; rw [if_pos h0]
  have := (load_flags hx hg hd (by omega)).1
  rw [this, hopt, hn, hall]
  exact flagsFrom_threshold ht

/-- **C50** For dumps (vectors of one length, distinct ids) the reload does return `Ok`. -/
theorem C50_dump_partial (L : P.Lawful) (hT : ty.Lawful) (hn : ty.noData = false)
    (hr : HReach P ty defScale ml h c) (hs : Sizes ty h) (hu : SameDim h.idx)
    (hi : DistinctIds h.idx) (hfd : fileDump ty h fs base draws = some (fs', .ok name)) {t : Nat}
    (h0 : 0 < t) (ht : t < 2 ^ 63) (o : ReloadOptions) (dist : Dist T) (hdn : dist.name = h.distName) :
    ∃ io x, (HnswIo.new name (o.setThreshold t)).loadHnsw P ty defScale dist fs' = (io, .ok x) ∧
      x.mapped = List.replicate (h.idx.points.length - min t h.idx.points.length) true ++
        List.replicate (min t h.idx.points.length) false := by
  obtain ⟨io, x, hx, hl, -⟩ := C40_reload_same_partial L hT hn hr hs hu hfd (o.setThreshold t)
    (fun _ => hi) dist hdn
  obtain ⟨g, d, rest, h1, h2, -, -, -, -, -, -, h3, -⟩ := C43_file L hT hn hr hs hfd
  have hk := hr.ok L hT hn
  have hd := hk.dumped L hs (fileDump_ok hfd).2.1
  exact ⟨io, x, hx, C50_threshold_partial h0 ht rfl hx h1 h2 h3 hd.idx.total
    (by unfold Idx.points; rw [hl])⟩

/-- With `set_mmap(true)` and no threshold all points are mapped; with the default options none is. -/
theorem C50_no_threshold {io io' : HnswIo} {dist : Dist T} {x : Loaded T}
    (hx : io.loadHnsw P ty defScale dist fs = (io', .ok x)) {g : Bytes} {d : Descr} {rest : Bytes}
    (hg : fs (graphName io.base) = some g) (hd : loadDescr g = .ok (d, rest))
    (hn63 : d.nbPoint.toNat < 2 ^ 63) :
    (io.opts = ReloadOptions.default.setMmap true → ∀ b ∈ x.mapped, b = true) ∧
    (io.opts.datamap = false → ∀ b ∈ x.mapped, b = false) := by
  obtain ⟨h1, h2⟩ := load_flags hx hg hd hn63
  constructor
  · intro ho b hb
    rw [h1, ho] at hb
    unfold flagsFrom at hb
    obtain ⟨i, hi, rfl⟩ := List.mem_map.1 hb
    have := List.mem_range.1 hi
    have h3 : asI64 (ReloadOptions.default.setMmap true).threshold = 0 := by decide
    unfold pointUseMmap
    rw [h3, decide_eq_false (by omega)]
    rfl
  · intro ho b hb
    rw [h1] at hb
    unfold flagsFrom at hb
    obtain ⟨i, -, rfl⟩ := List.mem_map.1 hb
    simp [pointUseMmap, ho]

/-- the flags of a reload of `io4` -/
def io4Flags (o : ReloadOptions) : Option (List Bool) :=
  match fileDump u8Ty io4 (fun _ => none) "a" [] with
  | some (fs', .ok name) =>
    ((HnswIo.new name o).loadHnsw (listPolicy UInt8) u8Ty exScale u8Dist fs').2.toOption.map (·.mapped)
  | _ => none

example : io4Flags (ReloadOptions.default.setThreshold 1) = some [true, true, true, false] ∧
    io4Flags (ReloadOptions.default.setThreshold 3) = some [true, false, false, false] ∧
    io4Flags (ReloadOptions.default.setThreshold 9) = some [false, false, false, false] := by
  refine ⟨?_, ?_, ?_⟩ <;> decide +kernel

/-- **C50 is false** for `t = 0`, which leaves the options unchanged (nothing is mapped), and for
`t >= 2^63`, which becomes negative (everything is mapped). -/
theorem C50_refuted :
    io4Flags (ReloadOptions.default.setThreshold 0) = some [false, false, false, false] ∧
    io4Flags (ReloadOptions.default.setThreshold (2 ^ 64 - 1)) = some [true, true, true, true] := by
  refine ⟨?_, ?_⟩ <;> decide +kernel

/-! ## C51 -/

/-- **C51** The map of a dump (vectors of one length, distinct ids) gives for every id the vector
inserted under it, nothing for other ids, the number of points, and the ids in the order of the
file. -/
theorem C51_datamap (L : P.Lawful) (hT : ty.Lawful) (hn : ty.noData = false)
    (hr : HReach P ty defScale ml h c) (hs : Sizes ty h) (hu : SameDim h.idx)
    (hi : DistinctIds h.idx) (hfd : fileDump ty h fs base draws = some (fs', .ok name)) :
    ∃ m, DataMap.fromDump ty fs' name = .ok m ∧
      (∀ p ∈ h.idx.points, m.getData ty p.origin = .ok (some p.data)) ∧
      (∀ id, (∀ p ∈ h.idx.points, p.origin ≠ id) → m.getData ty id = .ok none) ∧
      m.nbData = h.idx.points.length ∧ m.ids = h.idx.points.map (·.origin) := by
  have hk := hr.ok L hT hn
  obtain ⟨-, hres, -, hf⟩ := fileDump_ok hfd
  have hd := hk.dumped L hs hres
  have hm := dumpMap_hmap (ty := ty) hi []
  have hids : (dumpMap ty h []).ids = h.idx.points.map (·.origin) := by
    unfold DataMap.ids
    rw [hm, recAddrs_keys]
  refine ⟨dumpMap ty h [], fromDump_eq hT hd hu hf (by simp only [List.length_nil]; omega) rfl rfl,
    fun p hp => getData_eq hT hu hi hp [], ?_, ?_, hids⟩
  · intro id hne
    unfold DataMap.getData
    rw [imGet_none]
    show id ∉ (dumpMap ty h []).ids
    rw [hids]
    intro hmem
    obtain ⟨p, hp, rfl⟩ := List.mem_map.1 hmem
    exact hne p hp rfl
  · have := congrArg List.length hids
    simpa [DataMap.ids, DataMap.nbData] using this

/-- the map of the dump of `io4` -/
def io4Map : Option DataMap :=
  match fileDump u8Ty io4 (fun _ => none) "a" [] with
  | some (fs', .ok name) => (DataMap.fromDump u8Ty fs' name).toOption
  | _ => none

example : io4Map.map DataMap.ids = some [7, 9, 8, 5] ∧ io4Map.map DataMap.nbData = some 4 ∧
    io4Map.map (fun m => (m.getData u8Ty 9).toOption) = some (some (some [30, 3])) ∧
    io4Map.map (fun m => (m.getData u8Ty 6).toOption) = some (some none) := by
  refine ⟨?_, ?_, ?_, ?_⟩ <;> decide +kernel

/-! ## C52 -/

/-- **C52** (partial: distinct ids, vectors of one length) A reload with a map, whatever the
threshold, gives the same index as a reload without: points, vectors, entry point and links. -/
theorem C52_mmap_same_partial (L : P.Lawful) (hT : ty.Lawful) (hn : ty.noData = false)
    (hr : HReach P ty defScale ml h c) (hs : Sizes ty h) (hu : SameDim h.idx)
    (hi : DistinctIds h.idx) (hfd : fileDump ty h fs base draws = some (fs', .ok name)) (t : Nat)
    (dist : Dist T) (hdn : dist.name = h.distName) :
    ∃ io x io' y, (HnswIo.new name .default).loadHnsw P ty defScale dist fs' = (io, .ok x) ∧
      (HnswIo.new name ⟨true, t⟩).loadHnsw P ty defScale dist fs' = (io', .ok y) ∧
      x.hnsw = y.hnsw := by
  have hk := hr.ok L hT hn
  obtain ⟨-, hres, -, hf⟩ := fileDump_ok hfd
  have hd := hk.dumped L hs hres
  obtain ⟨io, h1⟩ := load_uniform (io := HnswIo.new name .default) L hT hn hd hu (fun _ => hi) hf
    (fun _ => by simp only [List.length_nil]; omega) (checkDist_dump hs hdn) defScale
  obtain ⟨io', h2⟩ := load_uniform (io := HnswIo.new name ⟨true, t⟩) L hT hn hd hu (fun _ => hi) hf
    (fun _ => by simp only [List.length_nil]; omega) (checkDist_dump hs hdn) defScale
  exact ⟨io, _, io', _, h1, h2, rfl⟩

/-- two points inserted under the same id -/
def ioDup : Hnsw UInt8 := ioH exScale 3 16 u8Dist [(([10, 1], 7), 0), (([20, 2], 7), 0)]

theorem ioDup_reach : ∃ c, HReach (listPolicy UInt8) u8Ty exScale 16 ioDup c :=
  ioH_reach u8Ty_lawful rfl _ (by decide) _ _ (by decide)

/-- **C52 is false** if an id was used twice: both points get the vector of the last one. -/
theorem C52_refuted :
    (∃ c, HReach (listPolicy UInt8) u8Ty exScale 16 ioDup c) ∧
    (dumpLoad exScale ioDup u8Dist .default).map (fun h => h.idx.points.map (·.data)) =
      some [[10, 1], [20, 2]] ∧
    (dumpLoad exScale ioDup u8Dist ⟨true, 0⟩).map (fun h => h.idx.points.map (·.data)) =
      some [[20, 2], [20, 2]] :=
  ⟨ioDup_reach, by decide +kernel, by decide +kernel⟩

/-! ## C53 -/

theorem recAddrs_dataAddr (hi : DistinctIds h.idx) {i : Nat} {p : Ref T}
    (hp : h.idx.points[i]? = some p) :
    (dumpMap ty h []).dataAddr p.origin =
      some (32 + i * (20 + getDataDimension h.idx * ty.size)) := by
  have ha : imGet (dumpMap ty h []).hmap p.origin =
      some (12 + i * (20 + getDataDimension h.idx * ty.size) + 12) := by
    rw [dumpMap_hmap hi]
    exact imGet_mem (by rw [recAddrs_keys]; exact hi) (recAddrs_getElem hp)
  unfold DataMap.dataAddr
  rw [ha]
  simp only [Option.map_some, Option.some.injEq]
  omega

/-- **C53** (partial: alignment 1, 2 or 4; the size of a type is a multiple of its alignment) The
offset in the file of the slice of any point is a multiple of the alignment of its elements. (Files are
mapped at the beginning of a page.) -/
theorem C53_aligned_partial (L : P.Lawful) (hT : ty.Lawful) (hn : ty.noData = false)
    (hr : HReach P ty defScale ml h c) (hs : Sizes ty h) (hu : SameDim h.idx)
    (hi : DistinctIds h.idx) (hfd : fileDump ty h fs base draws = some (fs', .ok name))
    (ha : ty.align ∣ 4) (hsz : ty.align ∣ ty.size) :
    ∃ m, DataMap.fromDump ty fs' name = .ok m ∧
      ∀ p ∈ h.idx.points, ∃ a, m.dataAddr p.origin = some a ∧ ty.align ∣ a := by
  have hk := hr.ok L hT hn
  obtain ⟨-, hres, -, hf⟩ := fileDump_ok hfd
  have hd := hk.dumped L hs hres
  refine ⟨dumpMap ty h [], fromDump_eq hT hd hu hf (by simp only [List.length_nil]; omega) rfl rfl, ?_⟩
  intro p hp
  obtain ⟨i, hlt, hi'⟩ := List.mem_iff_getElem.mp hp
  refine ⟨_, recAddrs_dataAddr hi (by rw [List.getElem?_eq_getElem hlt, hi']), ?_⟩
  have h32 : ty.align ∣ 32 := Nat.dvd_trans ha (by decide)
  have h20 : ty.align ∣ 20 := Nat.dvd_trans ha (by decide)
  exact Nat.dvd_add h32 (Nat.dvd_mul_left_of_dvd
    (Nat.dvd_add h20 (Nat.dvd_mul_left_of_dvd hsz _)) _)

/-- **C53 is false** for alignment 8 (`f64`, `u64`, `usize`): in every dump every second slice is
misaligned, whatever the dimension. -/
theorem C53_refuted (L : P.Lawful) (hT : ty.Lawful) (hn : ty.noData = false)
    (hr : HReach P ty defScale ml h c) (hs : Sizes ty h) (hu : SameDim h.idx)
    (hi : DistinctIds h.idx) (hfd : fileDump ty h fs base draws = some (fs', .ok name))
    (ha : ty.align = 8) (hsz : ty.align ∣ ty.size) :
    ∃ m, DataMap.fromDump ty fs' name = .ok m ∧
      ∀ (i : Nat) p, h.idx.points[i]? = some p → ∃ a, m.dataAddr p.origin = some a ∧
        a % 8 = if i % 2 = 0 then 0 else 4 := by
  have hk := hr.ok L hT hn
  obtain ⟨-, hres, -, hf⟩ := fileDump_ok hfd
  have hd := hk.dumped L hs hres
  refine ⟨dumpMap ty h [], fromDump_eq hT hd hu hf (by simp only [List.length_nil]; omega) rfl rfl, ?_⟩
  intro i p hp
  refine ⟨_, recAddrs_dataAddr hi hp, ?_⟩
  rw [ha] at hsz
  obtain ⟨k, hk⟩ := hsz
  rw [hk, Nat.mul_left_comm]
  generalize getDataDimension h.idx * k = q
  have : i * (20 + 8 * q) = 8 * (i * q) + 20 * i := by
    rw [Nat.mul_add, Nat.mul_left_comm]; omega
  rw [this]
  split <;> omega

/-- a type of 8 bytes -/
def u64Ty : Ty UInt64 where
  name := "u64"
  noData := false
  size := 8
  align := 8
  enc x := leBytes 8 x.toNat
  dec b := UInt64.ofNat (ofLE b)
  bincode _ := none

theorem u64Ty_lawful : u64Ty.Lawful :=
  ⟨fun x => by simp [u64Ty], fun x => by
    show UInt64.ofNat (ofLE (leBytes 8 x.toNat)) = x
    rw [ofLE_leBytes (UInt64.lt_pow x)]
    simp⟩

/-- two points of that type -/
def io8 : Hnsw UInt64 :=
  ioH exScale 3 16 ⟨"anndists::dist::distances::DistL1", fun a b =>
    absDist (a.map UInt64.toNat) (b.map UInt64.toNat)⟩ [(([10, 1, 5], 7), 0), (([20, 2, 5], 8), 1)]

/-- such an index exists, its second slice is at offset 76 -/
example : (∃ c, HReach (listPolicy UInt64) u64Ty exScale 16 io8 c) ∧
    (match fileDump u64Ty io8 (fun _ => none) "a" [] with
     | some (fs', .ok name) => (DataMap.fromDump u64Ty fs' name).toOption.map fun m =>
        (m.dataAddr 7, m.dataAddr 8)
     | _ => none) = some (some 32, some 76) :=
  ⟨ioH_reach u64Ty_lawful rfl _ (by decide) _ _ (by decide), by decide +kernel⟩

/-! ## C54 -/

/-- **C54** (partial: names without `::`, as those of primitive types) `check_data_type` is true if and
only if the names are equal. -/
theorem C54_check_partial (m : DataMap) (name : String) (h0 : name ≠ "") (h1 : m.tName ≠ "")
    (h2 : ¬ [':', ':'] <:+: name.toList) (h3 : ¬ [':', ':'] <:+: m.tName.toList) :
    ∃ b, m.checkDataType name = .ok b ∧ (b = true ↔ name = m.tName) := by
  refine ⟨m.tName.toList == name.toList, ?_, ?_⟩
  · unfold DataMap.checkDataType
    rw [rsplitTerm_simple h0 h2, rsplitTerm_simple h1 h3]
    rfl
  · rw [beq_iff_eq]
    exact ⟨fun h => (String.toList_inj.mp h).symm, fun h => by rw [h]⟩

/-- **C54** (one direction) The dumped type is always recognised. -/
theorem C54_same (m : DataMap) (h1 : m.tName ≠ "") : m.checkDataType m.tName = .ok true := by
  unfold DataMap.checkDataType
  have := rsplitTerm_ne_nil h1
  cases hl : (rsplitTerm m.tName).getLast? with
  | none => exact absurd (List.getLast?_eq_none_iff.mp hl) this
  | some a => simp

/-- **C54 is false** for types of the same crate: only the first segments of the names are compared. -/
theorem C54_refuted : ∃ m : DataMap, m.tName = "mycrate::A" ∧
    (m.checkDataType "mycrate::B").toOption = some true ∧
    (m.checkDataType "u8").toOption = some false :=
  ⟨⟨[], [], "mycrate::A", 0, ""⟩, rfl, by decide +kernel, by decide +kernel⟩

example : ((DataMap.mk [] [] "f32" 0 "").checkDataType "u32").toOption = some false ∧
    ((DataMap.mk [] [] "f32" 0 "").checkDataType "f32").toOption = some true := by
  constructor <;> decide +kernel

end Verif
