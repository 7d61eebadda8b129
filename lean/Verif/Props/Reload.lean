import Verif.IoExamples
import Verif.Filter

set_option autoImplicit false

/-!
# Dump and reload (C38-C42, C55, C56, C62)

`HReach P ty defScale ml h c`: `h` is an index a program can have (creation with `max_layer = ml`,
settings, concurrent insertions, reloads).
`Sizes ty h`: the numbers of `h` fit the fields of the files.
`fileDump ty h fs base draws = some (fs', .ok name)`: `file_dump` in a directory whose content is `fs`
returned `Ok(name)` and left the content `fs'`.
-/

namespace Verif
variable {T T' : Type} {P : Policy T} {ty : Ty T} {defScale : Nat → F64} {ml : Nat} {h : Hnsw T}
  {c : CSt T} {fs fs' : Dir} {base name : String} {draws : List Nat}

/-- `s'` has the points, entry point and links of `s`, as far as ids, point ids and distances go; the
lists of neighbours have the same entries and distances, ties may be permuted. -/
structure SameGraph (s : Idx T) (s' : Idx T') : Prop where
  points : s'.layers.map (fun l => l.map fun p => (p.pid, p.origin)) =
    s.layers.map (fun l => l.map fun p => (p.pid, p.origin))
  count : getNbPoint s' = getNbPoint s
  entry : s'.entry.map (fun p => (p.pid, p.origin)) = s.entry.map (fun p => (p.pid, p.origin))
  lists : ∀ p ∈ s.points, ∀ p' ∈ s'.points, p'.pid = p.pid → ∀ (l : Nat) ns ns',
    (getNeighborhoodId s p)[l]? = some ns → (getNeighborhoodId s' p')[l]? = some ns' →
    ns'.Perm ns ∧ ns'.map (·.distance.key) = ns.map (·.distance.key)
  links : ∀ p ∈ s'.points, ∀ l, ∀ e ∈ s'.nb p.pid l, e.pt ∈ s'.points

theorem sorted_keys_eq {l l' : List Neighbour} (hp : l.Perm l')
    (h : l.Pairwise fun a b => a.distance.key ≤ b.distance.key)
    (h' : l'.Pairwise fun a b => a.distance.key ≤ b.distance.key) :
    l.map (·.distance.key) = l'.map (·.distance.key) := by
  refine List.Perm.eq_of_pairwise (le := fun a b : Int => a ≤ b)
    (fun a b _ _ h1 h2 => Int.le_antisymm h1 h2) ?_ ?_ (hp.map _)
  · rw [List.pairwise_map]; exact h
  · rw [List.pairwise_map]; exact h'

theorem sameGraph_reloaded {s : Idx T} (hok : Coherent s) {P' : Policy T'}
    (L : P'.Lawful) (cv : Ref T → List T') : SameGraph s (reloaded P' cv s) where
  points := by
    simp only [reloaded, List.map_map]
    refine List.map_congr_left fun l _ => ?_
    simp [Function.comp_def, convRef]
  count := rfl
  entry := by
    simp only [reloaded, Option.map_map]
    rfl
  lists := by
    intro p _ p' _ hpid l ns ns' h1 h2
    have e1 := neighborhood_get h1
    have e2 := neighborhood_get h2
    rw [hpid] at e2
    have hperm : ns'.Perm ns := by
      rw [e1, e2]
      have := (L.sort_perm ((s.nb p.pid l).map (convPWO cv))).map neighbourOf
      rw [List.map_map] at this
      exact this
    refine ⟨hperm, sorted_keys_eq hperm ?_ ?_⟩
    · rw [e2, List.pairwise_map]
      refine L.sort_sorted _ fun e he => ?_
      obtain ⟨e0, he0, rfl⟩ := List.mem_map.1 he
      exact hok.num p.pid l e0 he0
    · rw [e1, List.pairwise_map]
      exact hok.sorted p.pid l
  links := by
    intro p _ l e he
    have h1 := (L.sort_perm ((s.nb p.pid l).map (convPWO cv))).mem_iff.1 he
    obtain ⟨e0, he0, rfl⟩ := List.mem_map.1 h1
    have h2 := hok.stored p.pid l e0 he0
    unfold Stored at h2
    show convRef cv e0.pt ∈ (reloaded P' cv s).layers.flatten
    simp only [reloaded]
    rw [← List.map_flatten]
    exact List.mem_map.2 ⟨_, h2, rfl⟩

/-! ## C38, C40 -/

/-- **C38** (partial: no vector is shorter than the one of the entry point, sizes fit) Reloading the
files written by `file_dump` gives the same points, entry point, count and links. -/
theorem C38_reload_graph_partial (L : P.Lawful) (hT : ty.Lawful) (hn : ty.noData = false)
    (hr : HReach P ty defScale ml h c) (hs : Sizes ty h)
    (hl : ∀ p ∈ h.idx.points, getDataDimension h.idx ≤ p.data.length)
    (hfd : fileDump ty h fs base draws = some (fs', .ok name))
    (dist : Dist T) (hdn : dist.name = h.distName) :
    ∃ io' x, (HnswIo.new name .default).loadHnsw P ty defScale dist fs' = (io', .ok x) ∧
      SameGraph h.idx x.hnsw.idx := by
  have hk := hr.ok L hT hn
  obtain ⟨-, hres, -, hf⟩ := fileDump_ok hfd
  have hd := hk.dumped L hs hres
  refine ⟨_, _, load_long (io := HnswIo.new name .default) L hT hn hd hl rfl hf
    (checkDist_dump hs hdn) defScale, ?_⟩
  exact sameGraph_reloaded hd.idx.ok L _

/-- **C38**, **C40** (partial: the vectors have the same length) The reloaded index has the same table
of points, vectors included, the same entry point and count, and the lists of the dumped one sorted
again; with any reload options if ids are distinct, without map otherwise. -/
theorem C40_reload_same_partial (L : P.Lawful) (hT : ty.Lawful) (hn : ty.noData = false)
    (hr : HReach P ty defScale ml h c) (hs : Sizes ty h) (hu : SameDim h.idx)
    (hfd : fileDump ty h fs base draws = some (fs', .ok name)) (o : ReloadOptions)
    (ho : o.datamap = true → DistinctIds h.idx) (dist : Dist T) (hdn : dist.name = h.distName) :
    ∃ io' x, (HnswIo.new name o).loadHnsw P ty defScale dist fs' = (io', .ok x) ∧
      x.hnsw.idx.layers = h.idx.layers ∧ x.hnsw.idx.entry = h.idx.entry ∧
      x.hnsw.idx.nbPoint = h.idx.nbPoint ∧
      (∀ p l, x.hnsw.idx.nb p l = P.sort (h.idx.nb p l)) ∧ SameGraph h.idx x.hnsw.idx := by
  have hk := hr.ok L hT hn
  obtain ⟨-, hres, -, hf⟩ := fileDump_ok hfd
  have hd := hk.dumped L hs hres
  obtain ⟨io', hload⟩ := load_uniform (io := HnswIo.new name o) L hT hn hd hu ho hf
    (fun _ => by simp only [List.length_nil]; omega) (checkDist_dump hs hdn) defScale
  refine ⟨io', _, hload, rfl, rfl, rfl, fun _ _ => rfl, ?_⟩
  have := sameGraph_reloaded hd.idx.ok L (·.data)
  rw [reloaded_data] at this
  exact this

/-- the hypotheses are met by the four points of `io4`, which are dumped -/
example : (∃ c, HReach (listPolicy UInt8) u8Ty exScale 16 io4 c) ∧ Sizes u8Ty io4 ∧
    SameDim io4.idx ∧ DistinctIds io4.idx ∧
    ((fileDump u8Ty io4 (fun _ => none) "a" []).bind fun x => x.2.toOption) = some "a" ∧
    io4.idx.points.length = 4 :=
  ⟨io4_reach, io4_sizes, by unfold SameDim Stored; decide +kernel, by unfold DistinctIds; decide +kernel,
    by decide +kernel, by decide +kernel⟩

/-- two points, the second one having a shorter vector than the entry point -/
def ioShort : Hnsw UInt8 := ioH exScale 3 16 u8Dist [(([10, 1], 7), 0), (([20], 8), 0)]

/-- two points, the second one having a longer vector than the entry point -/
def ioLong : Hnsw UInt8 := ioH exScale 3 16 u8Dist [(([10], 7), 0), (([20, 2], 8), 0)]

/-- two points, and a distance whose name has 257 bytes -/
def ioName : Hnsw UInt8 :=
  ioH exScale 3 16 (u8Dist (String.ofList (List.replicate 257 'a'))) [(([10], 7), 0), (([20], 8), 0)]

theorem ioShort_reach : ∃ c, HReach (listPolicy UInt8) u8Ty exScale 16 ioShort c :=
  ioH_reach u8Ty_lawful rfl _ (by decide) _ _ (by decide)

theorem ioLong_reach : ∃ c, HReach (listPolicy UInt8) u8Ty exScale 16 ioLong c :=
  ioH_reach u8Ty_lawful rfl _ (by decide) _ _ (by decide)

theorem ioName_reach : ∃ c, HReach (listPolicy UInt8) u8Ty exScale 16 ioName c :=
  ioH_reach u8Ty_lawful rfl _ (by decide) _ _ (by decide)

theorem ioShort_sizes : Sizes u8Ty ioShort :=
  ⟨by decide +kernel, by decide +kernel, by decide +kernel, by decide +kernel, by decide +kernel,
    by decide +kernel⟩

theorem ioLong_sizes : Sizes u8Ty ioLong :=
  ⟨by decide +kernel, by decide +kernel, by decide +kernel, by decide +kernel, by decide +kernel,
    by decide +kernel⟩

/-- the result and directory of a dump of a never reloaded index in an empty directory -/
theorem fileDump_new {h : Hnsw T} (hm : h.mapped = false) (hres : (h.dump ty true).res = .ok ())
    (base : String) (draws : List Nat) :
    ∃ fs', fileDump ty h (fun _ => none) base draws = some (fs', .ok base) := by
  refine ⟨Dir.write (Dir.write (fun _ => none) (graphName base) (h.dump ty true).g) (dataName base)
    (h.dump ty true).d, ?_⟩
  unfold fileDump dumpName
  simp only [hm, hres]
  rfl

theorem res_ok {r : Except Fail Unit} (h : r.toOption = some ()) : r = .ok () := by
  cases r with
  | ok u => rfl
  | error e => cases h

/-- **C38 is false** in general: with a vector shorter than the one of the entry point `file_dump`
returns `Ok`, but the reload builds a slice beyond the end of the buffer it has read (undefined
behaviour). -/
theorem C38_refuted : ∃ (h : Hnsw UInt8) (c : CSt UInt8) (fs' : Dir),
    HReach (listPolicy UInt8) u8Ty exScale 16 h c ∧ Sizes u8Ty h ∧
    fileDump u8Ty h (fun _ => none) "a" [] = some (fs', .ok "a") ∧
    ((HnswIo.new "a" .default).loadHnsw (listPolicy UInt8) u8Ty exScale u8Dist fs').2 = .error .ub := by
  obtain ⟨c, hr⟩ := ioShort_reach
  have hres : (ioShort.dump u8Ty true).res = .ok () := res_ok (by decide +kernel)
  obtain ⟨fs', hfd⟩ := fileDump_new (ty := u8Ty) (h := ioShort) rfl hres "a" []
  obtain ⟨-, -, -, hf⟩ := fileDump_ok hfd
  have hk := hr.ok listPolicy_lawful u8Ty_lawful rfl
  have hd := hk.dumped listPolicy_lawful ioShort_sizes hres
  refine ⟨ioShort, c, fs', hr, ioShort_sizes, hfd, ?_⟩
  have hsh : ∃ p, Stored ioShort.idx p ∧ p.data.length < getDataDimension ioShort.idx :=
    ⟨⟨⟨0, 1⟩, 8, [20]⟩, by unfold Stored; decide +kernel, by decide +kernel⟩
  rw [load_short (io := HnswIo.new "a" .default) u8Ty_lawful rfl (by decide) hd hsh rfl hf
    (listPolicy UInt8) exScale (checkDist_dump ioShort_sizes rfl)]

/-- **C38 is false** also for distances whose type name has more than 256 bytes: `file_dump` returns
`Ok`, the reload panics. -/
theorem C38_refuted_name : (∃ c, HReach (listPolicy UInt8) u8Ty exScale 16 ioName c) ∧
    (match fileDump u8Ty ioName (fun _ => none) "a" [] with
     | some (fs', .ok _) =>
       match ((HnswIo.new "a" .default).loadHnsw (listPolicy UInt8) u8Ty exScale
          (u8Dist ioName.distName) fs').2 with
       | .error .panic => true
       | _ => false
     | _ => false) = true :=
  ⟨ioName_reach, by decide +kernel⟩

/-- **C40 is false** in general: a vector longer than the one of the entry point comes back cut, and
the reload says `Ok`. -/
theorem C40_refuted : ∃ (h : Hnsw UInt8) (c : CSt UInt8) (fs' : Dir) (io : HnswIo) (x : Loaded UInt8),
    HReach (listPolicy UInt8) u8Ty exScale 16 h c ∧ Sizes u8Ty h ∧
    fileDump u8Ty h (fun _ => none) "a" [] = some (fs', .ok "a") ∧
    (HnswIo.new "a" .default).loadHnsw (listPolicy UInt8) u8Ty exScale u8Dist fs' = (io, .ok x) ∧
    h.idx.points.map (·.data) = [[10], [20, 2]] ∧ x.hnsw.idx.points.map (·.data) = [[10], [20]] := by
  obtain ⟨c, hr⟩ := ioLong_reach
  have hres : (ioLong.dump u8Ty true).res = .ok () := res_ok (by decide +kernel)
  obtain ⟨fs', hfd⟩ := fileDump_new (ty := u8Ty) (h := ioLong) rfl hres "a" []
  obtain ⟨-, -, -, hf⟩ := fileDump_ok hfd
  have hk := hr.ok listPolicy_lawful u8Ty_lawful rfl
  have hd := hk.dumped listPolicy_lawful ioLong_sizes hres
  refine ⟨ioLong, c, fs', _, _, hr, ioLong_sizes, hfd, load_long (io := HnswIo.new "a" .default)
    listPolicy_lawful u8Ty_lawful rfl hd (by unfold Stored; decide +kernel) rfl hf
    (checkDist_dump ioLong_sizes rfl) exScale, by decide +kernel, by decide +kernel⟩

/-! ## C39 -/

theorem dump_res_ok (L : P.Lawful) (hk : HOk P ml h c) (hl : h.cfg.maxLayer = nbLayerMax)
    (he : h.idx.entry ≠ none) : (h.dump ty true).res = .ok () := by
  obtain ⟨e, he⟩ := Option.ne_none_iff_exists'.mp he
  have hok := (hk.good L).ok
  unfold Hnsw.dump dumpDescr
  rw [if_neg (by simp [Hnsw.descr, hl, nbLayerMax])]
  unfold dumpIdx
  rw [dumpLayers_eq (i := 0) (fun k l hk r p hp => by
    rw [hok.tab.ids k r p (by rw [layer_eq hk]; exact hp)]; simp), dumpEntry, he]
  simp [Out.seq, Out.graph, Out.data]

/-- **C39** `file_dump` returns `Ok` if and only if the index was created with `max_layer >= 16` and
holds at least one point, also after insertions that panicked. -/
theorem C39_dump_ok_iff (L : P.Lawful) (hT : ty.Lawful) (hn : ty.noData = false)
    (hr : HReach P ty defScale ml h c) {r : Except Fail String}
    (hfd : fileDump ty h fs base draws = some (fs', r)) :
    (∃ name, r = .ok name) ↔ 16 ≤ ml ∧ h.idx.points ≠ [] := by
  have hk := hr.ok L hT hn
  have hG := hk.good L
  constructor
  · rintro ⟨name, rfl⟩
    obtain ⟨-, hres, -, -⟩ := fileDump_ok hfd
    have h1 := dump_res_layers ty h (by rw [hk.lay]; exact Nat.min_le_left _ _) hres
    obtain ⟨e, he⟩ := Option.ne_none_iff_exists'.mp (dump_res_entry ty h hres)
    refine ⟨?_, ?_⟩
    · rw [hk.lay] at h1
      simp only [nbLayerMax] at h1
      omega
    · intro h0
      have := hG.ok.entry e he
      unfold Stored at this
      rw [h0] at this
      cases this
  · rintro ⟨h1, h2⟩
    have hl : h.cfg.maxLayer = nbLayerMax := by
      rw [hk.lay]; exact Nat.min_eq_left h1
    have hres := dump_res_ok (ty := ty) L hk hl (hG.entry h2)
    unfold fileDump at hfd
    rw [Option.map_eq_some_iff] at hfd
    obtain ⟨n, -, hx⟩ := hfd
    simp only [hres, Prod.mk.injEq] at hx
    exact ⟨n, hx.2.symm⟩

/-- both cases occur: the four points of `io4`, an empty index, an index with 15 layers -/
example :
    let ok := fun (h : Hnsw UInt8) =>
      (fileDump u8Ty h (fun _ => none) "a" []).map fun x => x.2.toOption.isSome
    ok io4 = some true ∧ ok (ioH exScale 3 16 u8Dist []) = some false ∧
    ok (ioH exScale 3 15 u8Dist [(([1], 1), 0)]) = some false ∧
    ok (ioH exScale 3 99 u8Dist [(([1], 1), 0)]) = some true := by decide +kernel

/-! ## C41 -/

/-- **C41** If either file of a dump is cut at any byte, `load_hnsw` does not return `Ok`, whatever the
options, the element type and the distance it is called with. -/
theorem C41_truncated {P' : Policy T'} (L : P.Lawful) (hT : ty.Lawful) (hn : ty.noData = false)
    (hr : HReach P ty defScale ml h c) (hs : Sizes ty h)
    (hfd : fileDump ty h fs base draws = some (fs', .ok name))
    {gfull dfull g d : Bytes} (hgf : fs' (graphName name) = some gfull)
    (hdf : fs' (dataName name) = some dfull) (hg : g <+: gfull) (hd : d <+: dfull)
    (hcut : g ≠ gfull ∨ d ≠ dfull) {fs2 : Dir} (h2g : fs2 (graphName name) = some g)
    (h2d : fs2 (dataName name) = some d) (ty' : Ty T') (defScale' : Nat → F64) (dist : Dist T')
    (io : HnswIo) (hio : io.base = name) (x : Loaded T') :
    (io.loadHnsw P' ty' defScale' dist fs2).2 ≠ .ok x := by
  intro hx
  have hk := hr.ok L hT hn
  obtain ⟨-, hres, -, hf⟩ := fileDump_ok hfd
  have hdm := hk.dumped L hs hres
  obtain ⟨tg, htg⟩ := hg
  obtain ⟨td, htd⟩ := hd
  have e1 : (h.dump ty true).g = gfull := by
    have := hf.graph; rw [hgf] at this; simpa using (Option.some.inj this).symm
  have e2 : (h.dump ty true).d = dfull := by
    have := hf.data; rw [hdf] at this; simpa using (Option.some.inj this).symm
  subst hio
  have := truncated_not_ok hdm (io := io) h2g h2d (htg.trans e1.symm) (htd.trans e2.symm) P' ty'
    defScale' dist hx
  rw [this.1, List.append_nil] at htg
  rw [this.2, List.append_nil] at htd
  exact hcut.elim (fun h => h htg) (fun h => h htd)

/-- **C41**, and it has no undefined behaviour: with the dumped element type, without map, no vector
being shorter than the one of the entry point. -/
theorem C41_truncated_no_ub (L : P.Lawful) (hT : ty.Lawful) (hn : ty.noData = false)
    (hr : HReach P ty defScale ml h c) (hs : Sizes ty h)
    (hl : ∀ p ∈ h.idx.points, getDataDimension h.idx ≤ p.data.length)
    (hfd : fileDump ty h fs base draws = some (fs', .ok name))
    {gfull dfull g d : Bytes} (hgf : fs' (graphName name) = some gfull)
    (hdf : fs' (dataName name) = some dfull) (hg : g <+: gfull) (hd : d <+: dfull)
    {fs2 : Dir} (h2g : fs2 (graphName name) = some g) (h2d : fs2 (dataName name) = some d)
    (dist : Dist T) : 
    ((HnswIo.new name .default).loadHnsw P ty defScale dist fs2).2 ≠ .error .ub := by
  intro hx
  have hk := hr.ok L hT hn
  obtain ⟨-, hres, -, hf⟩ := fileDump_ok hfd
  have hdm := hk.dumped L hs hres
  obtain ⟨tg, htg⟩ := hg
  obtain ⟨td, htd⟩ := hd
  have e1 : (h.dump ty true).g = gfull := by
    have := hf.graph; rw [hgf] at this; simpa using (Option.some.inj this).symm
  have e2 : (h.dump ty true).d = dfull := by
    have := hf.data; rw [hdf] at this; simpa using (Option.some.inj this).symm
  have hub := load_ub_ext (P := P) (ty' := ty) (io := HnswIo.new name .default) rfl h2g h2d
    (fs' := fs') (tg := tg) (td := td) (by rw [htg]; exact hgf) (by rw [htd]; exact hdf) hx
  cases hc : checkDist ty dist.name (h.rdescr ty) with
  | ok u =>
    have := load_long (io := HnswIo.new name .default) L hT hn hdm hl rfl hf hc defScale
    rw [this] at hub
    cases hub
  | error e =>
    have := load_dist_err (io := HnswIo.new name .default) (P := P) (ty' := ty) hdm hf hc defScale
    rw [this] at hub
    have : e ≠ .ub := by
      unfold checkDist at hc
      split at hc
      · cases hc
      · split at hc
        · split at hc
          · cases hc
          · injection hc with hc; rw [← hc]; decide
        · injection hc with hc; rw [← hc]; decide
    simp only at hub
    injection hub with hub
    exact this hub

/-- there are 1165 cuts of the graph file of `io4` and 100 of its data file -/
example : ((io4.dump u8Ty true).g.length, (io4.dump u8Ty true).d.length) = (1165, 100) := by
  decide +kernel

/-! ## C42 -/

/-- **C42** (partial: the dumped element type, no map) Bytes following a complete dump in either file
do not change the result of `load_hnsw`, be it `Ok`, an error or undefined behaviour, for any distance
asked for. -/
theorem C42_trailing_partial (L : P.Lawful) (hT : ty.Lawful) (hn : ty.noData = false)
    (hsize : 0 < ty.size) (hr : HReach P ty defScale ml h c) (hs : Sizes ty h)
    (hfd : fileDump ty h fs base draws = some (fs', .ok name))
    {g d tg td : Bytes} (hg : fs' (graphName name) = some g) (hd : fs' (dataName name) = some d)
    {fs2 : Dir} (h2g : fs2 (graphName name) = some (g ++ tg))
    (h2d : fs2 (dataName name) = some (d ++ td)) (dist : Dist T) :
    (HnswIo.new name .default).loadHnsw P ty defScale dist fs2 =
      (HnswIo.new name .default).loadHnsw P ty defScale dist fs' := by
  have hk := hr.ok L hT hn
  obtain ⟨-, hres, -, hf⟩ := fileDump_ok hfd
  have hdm := hk.dumped L hs hres
  have e1 : (h.dump ty true).g = g := by
    have := hf.graph; rw [hg] at this; simpa using (Option.some.inj this).symm
  have e2 : (h.dump ty true).d = d := by
    have := hf.data; rw [hd] at this; simpa using (Option.some.inj this).symm
  have hf2 : FilesAt ty h fs2 name tg td := ⟨by rw [e1]; exact h2g, by rw [e2]; exact h2d⟩
  cases hc : checkDist ty dist.name (h.rdescr ty) with
  | error e =>
    rw [load_dist_err (io := HnswIo.new name .default) hdm hf hc,
      load_dist_err (io := HnswIo.new name .default) hdm hf2 hc]
  | ok u =>
    by_cases hl : ∀ p, Stored h.idx p → getDataDimension h.idx ≤ p.data.length
    · rw [load_long (io := HnswIo.new name .default) L hT hn hdm hl rfl hf hc,
        load_long (io := HnswIo.new name .default) L hT hn hdm hl rfl hf2 hc]
    · have hsh : ∃ p, Stored h.idx p ∧ p.data.length < getDataDimension h.idx := by
        refine Classical.byContradiction fun hne => hl fun p hp => ?_
        refine Classical.byContradiction fun hlt => hne ⟨p, hp, by omega⟩
      rw [load_short (io := HnswIo.new name .default) hT hn hsize hdm hsh rfl hf P defScale hc,
        load_short (io := HnswIo.new name .default) hT hn hsize hdm hsh rfl hf2 P defScale hc]

/-- **C42** (partial) The same with any reload options, for vectors of one length and distinct ids, if
there are fewer trailing bytes in the data file than a record has. -/
theorem C42_trailing_mmap_partial (L : P.Lawful) (hT : ty.Lawful) (hn : ty.noData = false)
    (hr : HReach P ty defScale ml h c) (hs : Sizes ty h) (hu : SameDim h.idx)
    (hi : DistinctIds h.idx) (hfd : fileDump ty h fs base draws = some (fs', .ok name))
    {g d tg td : Bytes} (hg : fs' (graphName name) = some g) (hd : fs' (dataName name) = some d)
    (htd : td.length < 20 + getDataDimension h.idx * ty.size)
    {fs2 : Dir} (h2g : fs2 (graphName name) = some (g ++ tg))
    (h2d : fs2 (dataName name) = some (d ++ td)) (o : ReloadOptions) (dist : Dist T)
    (hdn : dist.name = h.distName) :
    ∃ x, ((HnswIo.new name o).loadHnsw P ty defScale dist fs2).2 = .ok x ∧
      ((HnswIo.new name o).loadHnsw P ty defScale dist fs').2 = .ok x := by
  have hk := hr.ok L hT hn
  obtain ⟨-, hres, -, hf⟩ := fileDump_ok hfd
  have hdm := hk.dumped L hs hres
  have e1 : (h.dump ty true).g = g := by
    have := hf.graph; rw [hg] at this; simpa using (Option.some.inj this).symm
  have e2 : (h.dump ty true).d = d := by
    have := hf.data; rw [hd] at this; simpa using (Option.some.inj this).symm
  have hf2 : FilesAt ty h fs2 name tg td := ⟨by rw [e1]; exact h2g, by rw [e2]; exact h2d⟩
  obtain ⟨io1, h1⟩ := load_uniform (io := HnswIo.new name o) L hT hn hdm hu (fun _ => hi) hf2
    (fun _ => htd) (checkDist_dump hs hdn) defScale
  obtain ⟨io2, h2⟩ := load_uniform (io := HnswIo.new name o) L hT hn hdm hu (fun _ => hi) hf
    (fun _ => by simp only [List.length_nil]; omega) (checkDist_dump hs hdn) defScale
  rw [h1, h2]
  exact ⟨_, rfl, rfl⟩

/-- **C42** for a reload without vectors -/
theorem C42_trailing_noData {P' : Policy T'} (L' : P'.Lawful) (L : P.Lawful) (hT : ty.Lawful)
    (hn : ty.noData = false) (hr : HReach P ty defScale ml h c) (hs : Sizes ty h)
    (hfd : fileDump ty h fs base draws = some (fs', .ok name))
    {g d tg td : Bytes} (hg : fs' (graphName name) = some g) (hd : fs' (dataName name) = some d)
    {fs2 : Dir} (h2g : fs2 (graphName name) = some (g ++ tg))
    (h2d : fs2 (dataName name) = some (d ++ td)) (ty' : Ty T') (hn' : ty'.noData = true)
    (dist : Dist T') :
    (HnswIo.new name .default).loadHnsw P' ty' defScale dist fs2 =
      (HnswIo.new name .default).loadHnsw P' ty' defScale dist fs' := by
  have hk := hr.ok L hT hn
  obtain ⟨-, hres, -, hf⟩ := fileDump_ok hfd
  have hdm := hk.dumped L hs hres
  have e1 : (h.dump ty true).g = g := by
    have := hf.graph; rw [hg] at this; simpa using (Option.some.inj this).symm
  have e2 : (h.dump ty true).d = d := by
    have := hf.data; rw [hd] at this; simpa using (Option.some.inj this).symm
  have hf2 : FilesAt ty h fs2 name tg td := ⟨by rw [e1]; exact h2g, by rw [e2]; exact h2d⟩
  rw [load_noData (io := HnswIo.new name .default) L' hn' hdm rfl hf,
    load_noData (io := HnswIo.new name .default) L' hn' hdm rfl hf2]

/-- the files of a dump, each followed by some bytes -/
def withTrail (x : Option (Dir × Except Fail String)) (name : String) (tg td : Bytes) : Dir :=
  match x with
  | some (fs, _) => fun n =>
    if n = graphName name then (fs n).map (· ++ tg) else if n = dataName name then (fs n).map (· ++ td)
    else fs n
  | none => fun _ => none

/-- what a reload returned -/
def outcomeOf {α : Type} : Except Fail α → Option Fail
  | .ok _ => none
  | .error e => some e

/-- **C42 is false** with a map: 22 zero bytes after the data file of `io4` (the size of one record)
make the reload panic. -/
theorem C42_refuted_mmap :
    outcomeOf ((HnswIo.new "a" ⟨true, 0⟩).loadHnsw (listPolicy UInt8) u8Ty exScale u8Dist
      (withTrail (fileDump u8Ty io4 (fun _ => none) "a" []) "a" [] [])).2 = none ∧
    outcomeOf ((HnswIo.new "a" ⟨true, 0⟩).loadHnsw (listPolicy UInt8) u8Ty exScale u8Dist
      (withTrail (fileDump u8Ty io4 (fun _ => none) "a" []) "a" [] (List.replicate 22 0))).2 =
        some .panic := by
  constructor <;> decide +kernel

/-! ## C55 -/

/-- **C55** Reloading any dump without vectors, for any distance type, gives the same ids, point ids,
links and distances; vectors are empty. -/
theorem C55_nodata {P' : Policy T'} (L' : P'.Lawful) (L : P.Lawful) (hT : ty.Lawful)
    (hn : ty.noData = false) (hr : HReach P ty defScale ml h c) (hs : Sizes ty h)
    (hfd : fileDump ty h fs base draws = some (fs', .ok name)) (ty' : Ty T') (hn' : ty'.noData = true)
    (dist : Dist T') (defScale' : Nat → F64) :
    ∃ io' x, (HnswIo.new name .default).loadHnsw P' ty' defScale' dist fs' = (io', .ok x) ∧
      SameGraph h.idx x.hnsw.idx ∧ ∀ p ∈ x.hnsw.idx.points, p.data = [] := by
  have hk := hr.ok L hT hn
  obtain ⟨-, hres, -, hf⟩ := fileDump_ok hfd
  have hdm := hk.dumped L hs hres
  refine ⟨_, _, load_noData (io := HnswIo.new name .default) L' hn' hdm rfl hf dist defScale',
    sameGraph_reloaded hdm.idx.ok L' _, ?_⟩
  intro p hp
  have : p ∈ (h.idx.layers.map fun l => l.map (convRef (fun _ => ([] : List T')))).flatten := hp
  rw [← List.map_flatten] at this
  obtain ⟨q, -, rfl⟩ := List.mem_map.1 this
  rfl

/-- `NoData` -/
def noDataTy : Ty Unit where
  name := "hnsw_rs::hnsw::NoData"
  noData := true
  size := 0
  align := 1
  enc _ := []
  dec _ := ()
  bincode _ := none

/-- heterogeneous vectors do not matter here (`ioShort`); the options do: with a map the reload
without vectors panics -/
example :
    outcomeOf ((HnswIo.new "a" .default).loadHnsw (listPolicy Unit) noDataTy exScale
      ⟨"NoDist", fun _ _ => F32.zero⟩ (withTrail (fileDump u8Ty ioShort (fun _ => none) "a" []) "a" [] [])).2 =
        none ∧
    outcomeOf ((HnswIo.new "a" ⟨true, 0⟩).loadHnsw (listPolicy Unit) noDataTy exScale
      ⟨"NoDist", fun _ _ => F32.zero⟩ (withTrail (fileDump u8Ty io4 (fun _ => none) "a" []) "a" [] [])).2 =
        some .panic := by
  constructor <;> decide +kernel

/-! ## C56 -/

/-- **C56** (vectors of one length; sizes fit) If the sort leaves sorted lists unchanged, searches on
the reloaded index answer as on the dumped one, for all queries, parameters and filters, also in
parallel, and whatever the reload options if ids are distinct. -/
theorem C56_search_same (L : P.Lawful)
    (hsort : ∀ l : List (PWO T), l.Pairwise (fun a b => a.dist.key ≤ b.dist.key) → P.sort l = l)
    (hT : ty.Lawful) (hn : ty.noData = false)
    (hr : HReach P ty defScale ml h c) (hs : Sizes ty h) (hu : SameDim h.idx)
    (hfd : fileDump ty h fs base draws = some (fs', .ok name)) (o : ReloadOptions)
    (ho : o.datamap = true → DistinctIds h.idx) (dist : Dist T) (hdn : dist.name = h.distName)
    (hde : dist.eval = h.cfg.eval) :
    ∃ io' x, (HnswIo.new name o).loadHnsw P ty defScale dist fs' = (io', .ok x) ∧
      (∀ q knbn ef filt, searchFilter P x.hnsw.cfg x.hnsw.idx q knbn ef filt =
        searchFilter P h.cfg h.idx q knbn ef filt) ∧
      ∀ qs knbn ef order, parallelSearch P x.hnsw.cfg x.hnsw.idx qs knbn ef order =
        parallelSearch P h.cfg h.idx qs knbn ef order := by
  have hk := hr.ok L hT hn
  obtain ⟨io', x, hx, h1, h2, h3, h4, -⟩ := C40_reload_same_partial L hT hn hr hs hu hfd o ho dist hdn
  have hG := hk.good L
  have hidx : x.hnsw.idx = h.idx := by
    have h5 : x.hnsw.idx.nb = h.idx.nb := by
      funext p l
      rw [h4, hsort _ (hG.ok.sorted p l)]
    cases hxi : x.hnsw.idx
    cases hhi : h.idx
    simp only [hxi, hhi] at h1 h2 h3 h5
    subst h1 h2 h3 h5
    rfl
  have hev : x.hnsw.cfg.eval = h.cfg.eval := by
    obtain ⟨-, hres, -, hf⟩ := fileDump_ok hfd
    have hd := hk.dumped L hs hres
    obtain ⟨io2, hload⟩ := load_uniform (io := HnswIo.new name o) L hT hn hd hu ho hf
      (fun _ => by simp only [List.length_nil]; omega) (checkDist_dump hs hdn) defScale
    rw [hx] at hload
    injection hload with _ hload
    injection hload with hload
    rw [hload]
    exact hde
  have hsf : ∀ q knbn ef filt, searchFilter P x.hnsw.cfg x.hnsw.idx q knbn ef filt =
      searchFilter P h.cfg h.idx q knbn ef filt := by
    intro q knbn ef filt
    unfold searchFilter
    rw [hidx, hev]
  refine ⟨io', x, hx, hsf, ?_⟩
  intro qs knbn ef order
  have har : ∀ order, arrivals P x.hnsw.cfg x.hnsw.idx qs knbn ef order =
      arrivals P h.cfg h.idx qs knbn ef order := by
    intro order
    induction order with
    | nil => rfl
    | cons i is ih =>
      simp only [arrivals, search]
      rw [ih]
      simp only [hsf]
  unfold parallelSearch
  rw [har]

/-- the sort of the example policy, an insertion sort, leaves sorted lists unchanged -/
example (l : List (PWO UInt8)) (hl : l.Pairwise (fun a b => a.dist.key ≤ b.dist.key)) :
    (listPolicy UInt8).sort l = l := by
  show sortAsc l = l
  induction l with
  | nil => rfl
  | cons a l ih =>
    rw [List.pairwise_cons] at hl
    rw [sortAsc, ih hl.2]
    cases l with
    | nil => rfl
    | cons b l =>
      have := hl.1 b (by simp)
      simp [insAsc, this]

/-! ## C62 -/

/-- **C62** Whatever the history of creations, settings, concurrent insertions (some of which may have
panicked), dumps and reloads (with or without map) of an index: it is reachable in the sense of the
other theorems, which therefore apply to it; in particular ids are positions, the count is exact,
degrees are bounded by the current parameter, lists are sorted, without duplicates nor self links, lead
to stored points, and there is an entry point if there is a point, which is stored. -/
theorem C62_histories (L : P.Lawful) (hT : ty.Lawful) (hn : ty.noData = false)
    (hr : HReach P ty defScale ml h c) :
    Reach P h.cfg h.idx ∧
    (∀ (l r : Nat) (p : Ref T), (h.idx.layer l)[r]? = some p → p.pid = ⟨l, r⟩) ∧
    getNbPoint h.idx = h.idx.points.length ∧
    (∀ p ∈ h.idx.points, ∀ (l : Nat) ns, (getNeighborhoodId h.idx p)[l]? = some ns →
      ns.length ≤ (if l = 0 then 2 * h.cfg.maxNb else h.cfg.maxNb) ∧
      ns.Pairwise (fun a b => a.distance.key ≤ b.distance.key) ∧ (ns.map (·.pId)).Nodup ∧
      ∀ n ∈ ns, n.pId ≠ p.pid ∧ ∃ q ∈ h.idx.points, q.pid = n.pId ∧ q.origin = n.dId) ∧
    (h.idx.points ≠ [] → ∃ e ∈ h.idx.points, h.idx.entry = some e) ∧
    h.cfg.maxLayer = min 16 ml ∧ h.cfg.maxNb ≤ 256 := by
  have hk := hr.ok L hT hn
  have hG := hk.good L
  have hreach : Reach P h.cfg h.idx := ⟨c, hk.reach, hk.idx⟩
  refine ⟨hreach, ?_, hG.count, ?_, ?_, hk.lay, hk.conn⟩
  · exact hG.ok.tab.ids
  · intro p _ l ns hns
    exact ⟨C20_degree L hreach p l ns hns, C21_lists L hreach p l ns hns⟩
  · intro hne
    obtain ⟨e, he⟩ := Option.ne_none_iff_exists'.mp (hG.entry hne)
    exact ⟨e, hG.ok.entry e he, he⟩

/-- a history with a reload, with map, followed by an insertion -/
example : ∃ (h : Hnsw UInt8) (c : CSt UInt8), HReach (listPolicy UInt8) u8Ty exScale 16 h c ∧
    h.idx.points.length = 5 ∧ h.mapped = true := by
  obtain ⟨c, hr⟩ := io4_reach
  have hu : SameDim io4.idx := by unfold SameDim Stored; decide +kernel
  have hi : DistinctIds io4.idx := by unfold DistinctIds; decide +kernel
  have hres : (io4.dump u8Ty true).res = .ok () := res_ok (by decide +kernel)
  obtain ⟨fs', hfd⟩ := fileDump_new (ty := u8Ty) (h := io4) rfl hres "a" []
  obtain ⟨io', x, hx, h1, -⟩ := C40_reload_same_partial listPolicy_lawful u8Ty_lawful rfl hr io4_sizes
    hu hfd ⟨true, 1⟩ (fun _ => hi) u8Dist rfl
  have hr2 := HReach.reload (io := io') (x := x) ⟨true, 1⟩ hr io4_sizes hu (by decide +kernel) (fun _ => hi) hfd rfl rfl hx
  have hk := hr2.ok listPolicy_lawful u8Ty_lawful rfl
  have hr3 := hr2.insert listPolicy_lawful u8Ty_lawful rfl ⟨[40, 4], 11, 0⟩ (by rw [hk.lay]; decide)
  have hk3 := hr3.ok listPolicy_lawful u8Ty_lawful rfl
  refine ⟨_, _, hr3, ?_, ?_⟩
  · obtain ⟨r, -, -, -, -, hperm, -⟩ := insert_spec listPolicy_lawful (hk.reach.goodC listPolicy_lawful)
      (j := ⟨[40, 4], 11, 0⟩) (by rw [hk.lay]; decide) x.hnsw.cfg.extend x.hnsw.cfg.keepPruned rfl
    have := hperm.length_eq
    rw [List.length_cons] at this
    have h5 : x.hnsw.idx.points = io4.idx.points := by unfold Idx.points; rw [h1]
    simp only [h5] at this
    rw [show io4.idx.points.length = 4 by decide +kernel] at this
    exact this
  · have hk4 := hr.ok listPolicy_lawful u8Ty_lawful rfl
    obtain ⟨io2, hload⟩ := load_uniform (io := HnswIo.new "a" ⟨true, 1⟩) listPolicy_lawful u8Ty_lawful
      rfl (hk4.dumped listPolicy_lawful io4_sizes hres) hu (fun _ => hi) (fileDump_ok hfd).2.2.2
      (fun _ => by simp only [List.length_nil]; omega) (checkDist_dump io4_sizes (name := u8Dist.name) rfl) exScale
    rw [hx] at hload
    injection hload with _ hload
    injection hload with hload
    rw [hload]
    rfl

end Verif
