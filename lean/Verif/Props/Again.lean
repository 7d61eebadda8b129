import Verif.Props.Header
import Verif.Props.Layout

set_option autoImplicit false

/-!
# C119: dump, reload and dump again

A program that saves its index and starts again from the saved files many times: what becomes of the files.
-/

namespace Verif
variable {T : Type} {P : Policy T} {ty : Ty T} {defScale : Nat → F64} {ml : Nat} {h h' : Hnsw T} {c : CSt T}

/-- `h'` is obtained from `h` by `n` dumps, each followed by a reload of the files of the dump (with or without memory
map, in any directory, under any name) with the same distance. -/
inductive Cycles (P : Policy T) (ty : Ty T) (defScale : Nat → F64) (h : Hnsw T) : Nat → Hnsw T → Prop
  | zero : Cycles P ty defScale h 0 h
  | succ {n : Nat} {h1 : Hnsw T} {fs fs' : Dir} {base name : String} {draws : List Nat} (o : ReloadOptions)
      {dist : Dist T} {io : HnswIo} {x : Loaded T} :
      Cycles P ty defScale h n h1 → fileDump ty h1 fs base draws = some (fs', .ok name) →
      (o.datamap = true → DistinctIds h1.idx) → dist.name = h1.distName → dist.eval = h1.cfg.eval →
      (HnswIo.new name o).loadHnsw P ty defScale dist fs' = (io, .ok x) → Cycles P ty defScale h (n + 1) x.hnsw

/-- the scale of the levels after `n` dumps and reloads: multiplied `n` times by the default scale -/
def scaleAfter (defScale : Nat → F64) (maxNb : Nat) (s : F64) : Nat → F64
  | 0 => s
  | n + 1 => F64.mul (defScale maxNb) (scaleAfter defScale maxNb s n)

/-- two indexes that differ by their scale, flags and map only have dumps that differ by the scale only -/
theorem dump_scale (hi : h'.idx = h.idx) (hm : h'.cfg.maxNb = h.cfg.maxNb) (he : h'.cfg.efC = h.cfg.efC)
    (hl : h'.cfg.maxLayer = h.cfg.maxLayer) (hd : h'.distName = h.distName) :
    (h'.dump ty true).res = (h.dump ty true).res ∧ (h'.dump ty true).d = (h.dump ty true).d ∧
    ∃ A B, A.length = 6 ∧ (h.dump ty true).g = A ++ leBytes 8 h.gen.scale.bits ++ B ∧
      (h'.dump ty true).g = A ++ leBytes 8 h'.gen.scale.bits ++ B := by
  have hx : h'.descr ty true = { h.descr ty true with scale := h'.gen.scale } := by
    unfold Hnsw.descr
    rw [hi, hm, he, hl, hd]
  unfold Hnsw.dump
  rw [hx, hi]
  unfold dumpDescr
  split
  · refine ⟨rfl, rfl, leBytes 4 magicDescr4 ++ [modeByte true] ++ [(h.descr ty true).maxNb],
      [(h.descr ty true).nbLayer], by simp, ?_, ?_⟩
    · simp only [Out.seq, Descr.headBytes, List.append_assoc]; rfl
    · simp only [Out.seq, Descr.headBytes, List.append_assoc]
  · refine ⟨?_, ?_, leBytes 4 magicDescr4 ++ [modeByte true] ++ [(h.descr ty true).maxNb],
      [(h.descr ty true).nbLayer] ++ (h.descr ty true).tailBytes ++
        ((Out.data (dataHeader h.idx)).seq (dumpIdx ty true h.idx)).g, by simp, ?_, ?_⟩
    · rfl
    · rfl
    · simp only [Out.seq, Out.graph, Descr.headBytes, List.append_assoc]; rfl
    · simp only [Out.seq, Out.graph, Descr.headBytes, List.append_assoc]; rfl

/-- what stays the same through the cycles -/
theorem Cycles.same (L : P.Lawful) (hT : ty.Lawful) (hn : ty.noData = false)
    (hr : HReach P ty defScale ml h c) (hs : Sizes ty h) (hu : SameDim h.idx) (hm : h.cfg.maxNb ≤ 255)
    (hsort : ∀ p l, P.sort (h.idx.nb p l) = h.idx.nb p l) {n : Nat} (hc : Cycles P ty defScale h n h') :
    (∃ c', HReach P ty defScale ml h' c') ∧ Sizes ty h' ∧ h'.idx = h.idx ∧ h'.cfg.maxNb = h.cfg.maxNb ∧
      h'.cfg.efC = h.cfg.efC ∧ h'.cfg.maxLayer = h.cfg.maxLayer ∧ h'.cfg.eval = h.cfg.eval ∧
      h'.distName = h.distName ∧
      h'.getLevelScale = scaleAfter defScale h.cfg.maxNb h.getLevelScale n := by
  induction hc with
  | zero => exact ⟨⟨c, hr⟩, hs, rfl, rfl, rfl, rfl, rfl, rfl, rfl⟩
  | @succ n h1 fs fs' base name draws o dist io x _ hfd ho hdn hde hx ih =>
    obtain ⟨⟨c1, hr1⟩, hs1, h2, h3, h4, h5, h6, h7, h8⟩ := ih
    have hu1 : SameDim h1.idx := by rw [h2]; exact hu
    have hm1 : h1.cfg.maxNb ≤ 255 := by omega
    have hr2 := HReach.reload (io := io) (x := x) o hr1 hs1 hu1 hm1 ho hfd hdn hde hx
    obtain ⟨io2, x2, hx2, e1, e2, e3, e4, -⟩ := C40_reload_same_partial L hT hn hr1 hs1 hu1 hfd o ho dist hdn
    rw [hx] at hx2
    injection hx2 with _ hx2
    injection hx2 with hx2
    subst hx2
    obtain ⟨p1, p2, p3, -, p5, p6⟩ := C45_params_partial L hT hn hr1 hs1 hfd hm1 o dist hx
    have hsc := C44_scale_multiplied L hT hn hr1 hs1 hfd hm1 o dist hx
    have hidx : x.hnsw.idx = h1.idx := by
      have e5 : x.hnsw.idx.nb = h1.idx.nb := by
        funext p l
        rw [e4, h2, hsort]
      cases hxi : x.hnsw.idx
      cases hhi : h1.idx
      simp only [hxi, hhi] at e1 e2 e3 e5
      subst e1 e2 e3 e5
      rfl
    refine ⟨⟨_, hr2⟩, ?_, hidx.trans h2, p1.trans h3, p2.trans h4, p3.trans h5, (p5.trans hde).trans h6,
      (p6.trans hdn).trans h7, ?_⟩
    · refine ⟨?_, ?_, ?_, ?_, hs1.tname, ?_⟩
      · rw [hidx]; exact hs1.ranks
      · rw [p2]; exact hs1.ef
      · rw [p6, hdn]; exact hs1.named
      · rw [p6, hdn]; exact hs1.dist
      · rw [hidx]; exact hs1.vec
    · rw [hsc, h8, h3]
      rfl

/-- **C119** (partial: the 8 bytes of the scale apart, see `C119_refuted`; vectors of one length, at most 255 connections, the
sort leaves the lists of the index as they are) However often an index is dumped and reloaded, a dump of it succeeds if
the first one did, and gives the very same data file, and the same graph file except for the bytes 6 to 13, which hold
the scale of the levels; that one is multiplied by the default scale each time. -/
theorem C119_again_partial (L : P.Lawful) (hT : ty.Lawful) (hn : ty.noData = false)
    (hr : HReach P ty defScale ml h c) (hs : Sizes ty h) (hu : SameDim h.idx) (hm : h.cfg.maxNb ≤ 255)
    (hsort : ∀ p l, P.sort (h.idx.nb p l) = h.idx.nb p l) {n : Nat} (hc : Cycles P ty defScale h n h')
    {fs fs' fs2 fs2' : Dir} {base base2 name : String} {draws draws2 : List Nat} {res : Except Fail String}
    (hfd : fileDump ty h fs base draws = some (fs', .ok name))
    (hfd2 : fileDump ty h' fs2 base2 draws2 = some (fs2', res)) :
    ∃ name2, res = .ok name2 ∧ ∃ A B D : Bytes, A.length = 6 ∧
      fs' (name ++ ".hnsw.data") = some D ∧ fs2' (name2 ++ ".hnsw.data") = some D ∧
      fs' (name ++ ".hnsw.graph") = some (A ++ le 8 h.getLevelScale.bits ++ B) ∧
      fs2' (name2 ++ ".hnsw.graph") =
        some (A ++ le 8 (scaleAfter defScale h.cfg.maxNb h.getLevelScale n).bits ++ B) := by
  obtain ⟨-, -, hi, h1, h2, h3, -, h5, h6⟩ := hc.same L hT hn hr hs hu hm hsort
  obtain ⟨hres, hd, A, B, hA, hg, hg'⟩ := dump_scale (ty := ty) hi h1 h2 h3 h5
  obtain ⟨-, hok, -, hf⟩ := fileDump_ok hfd
  have hok' : (h'.dump ty true).res = .ok () := hres.trans hok
  obtain ⟨name2, rfl⟩ : ∃ name2, res = .ok name2 := by
    unfold fileDump at hfd2
    rw [Option.map_eq_some_iff] at hfd2
    obtain ⟨n2, -, hx⟩ := hfd2
    simp only [Prod.mk.injEq, hok'] at hx
    exact ⟨n2, hx.2.symm⟩
  obtain ⟨-, -, -, hf2⟩ := fileDump_ok hfd2
  refine ⟨name2, rfl, A, B, (h.dump ty true).d, hA, ?_, ?_, ?_, ?_⟩
  · exact hf.data.trans (by rw [List.append_nil])
  · exact hf2.data.trans (by rw [List.append_nil, hd])
  · exact hf.graph.trans (by rw [List.append_nil, hg, leBytes_le]; rfl)
  · exact hf2.graph.trans (by rw [List.append_nil, hg', leBytes_le, ← h6]; rfl)

/-- a cycle of the four points of `io4` -/
theorem io4_cycle : ∃ h', Cycles (listPolicy UInt8) u8Ty exScale io4 1 h' := by
  obtain ⟨c, hr⟩ := io4_reach
  have hu : SameDim io4.idx := by unfold SameDim Stored; decide +kernel
  have hres : (io4.dump u8Ty true).res = .ok () := res_ok (by decide +kernel)
  obtain ⟨fs', hfd⟩ := fileDump_new (ty := u8Ty) (h := io4) rfl hres "a" []
  obtain ⟨io', x, hx, -⟩ := C40_reload_same_partial listPolicy_lawful u8Ty_lawful rfl hr io4_sizes
    hu hfd ⟨false, 0⟩ (fun h => by cases h) u8Dist rfl
  exact ⟨_, .succ ⟨false, 0⟩ .zero hfd (fun h => by cases h) rfl rfl hx⟩

/-- a stable sort leaves sorted lists as they are -/
theorem sortAsc_fix : ∀ (l : List (PWO T)), l.Pairwise (fun a b => a.dist.key ≤ b.dist.key) → sortAsc l = l
  | [], _ => rfl
  | x :: xs, hp => by
    rw [List.pairwise_cons] at hp
    show insAsc x (sortAsc xs) = x :: xs
    rw [sortAsc_fix xs hp.2]
    cases xs with
    | nil => rfl
    | cons y ys =>
      simp only [insAsc]
      rw [if_pos (hp.1 y (by simp))]

/-- a dump in an empty directory gets the name that is asked for -/
theorem fileDump_empty (hres : (h.dump ty true).res = .ok ()) (base : String) (draws : List Nat) :
    ∃ fs', fileDump ty h (fun _ => none) base draws = some (fs', .ok base) := by
  refine ⟨Dir.write (Dir.write (fun _ => none) (graphName base) (h.dump ty true).g) (dataName base)
    (h.dump ty true).d, ?_⟩
  unfold fileDump dumpName
  simp only [hres]
  cases h.mapped <;> rfl

/-- **C119 is false** for the graph file: the one of the second dump of `io4` has another scale. -/
theorem C119_refuted : ∃ (h' : Hnsw UInt8) (fs' fs2' : Dir), (∃ c, HReach (listPolicy UInt8) u8Ty exScale 16 io4 c) ∧
    Cycles (listPolicy UInt8) u8Ty exScale io4 1 h' ∧
    fileDump u8Ty io4 (fun _ => none) "a" [] = some (fs', .ok "a") ∧
    fileDump u8Ty h' (fun _ => none) "a" [] = some (fs2', .ok "a") ∧
    fs2' "a.hnsw.graph" ≠ fs' "a.hnsw.graph" := by
  obtain ⟨c, hr⟩ := io4_reach
  obtain ⟨h', hc⟩ := io4_cycle
  have hu : SameDim io4.idx := by unfold SameDim Stored; decide +kernel
  have hG := (hr.ok listPolicy_lawful u8Ty_lawful rfl).good listPolicy_lawful
  have hm : io4.cfg.maxNb ≤ 255 := by decide +kernel
  have hsort : ∀ p l, (listPolicy UInt8).sort (io4.idx.nb p l) = io4.idx.nb p l :=
    fun p l => sortAsc_fix _ (hG.ok.sorted p l)
  have hres : (io4.dump u8Ty true).res = .ok () := res_ok (by decide +kernel)
  obtain ⟨fs', hfd⟩ := fileDump_new (ty := u8Ty) (h := io4) rfl hres "a" []
  obtain ⟨-, -, hi, h1, h2, h3, -, h5, -⟩ := hc.same listPolicy_lawful u8Ty_lawful rfl hr io4_sizes hu hm hsort
  have hres' : (h'.dump u8Ty true).res = .ok () := (dump_scale (ty := u8Ty) hi h1 h2 h3 h5).1.trans hres
  obtain ⟨fs2', hfd2⟩ := fileDump_empty (ty := u8Ty) hres' "a" []
  refine ⟨h', fs', fs2', ⟨c, hr⟩, hc, hfd, hfd2, ?_⟩
  obtain ⟨n2, hn2, A, B, D, hA, -, -, hg, hg2⟩ := C119_again_partial listPolicy_lawful u8Ty_lawful rfl hr io4_sizes hu hm
    hsort hc hfd hfd2
  cases hn2
  have e : "a" ++ ".hnsw.graph" = "a.hnsw.graph" := by decide
  rw [e] at hg hg2
  rw [hg, hg2]
  intro h
  injection h with h
  rw [List.append_assoc, List.append_assoc, List.append_cancel_left_eq] at h
  have h7 := List.append_inj_left h (by rw [← leBytes_le, ← leBytes_le, leBytes_length, leBytes_length])
  revert h7
  decide +kernel

/-! ## C120 -/

/-- **C120** (vectors of one length) If dumps of two indexes are the same bytes, the indexes are the same: points with their
places, ids and vectors, entry point, lists of links with their order and distances, counter, and recorded parameters. -/
theorem C120_injective (L : P.Lawful) (hT : ty.Lawful) (hn : ty.noData = false) {ml1 ml2 : Nat} {h1 h2 : Hnsw T}
    {c1 c2 : CSt T} (hr1 : HReach P ty defScale ml1 h1 c1) (hr2 : HReach P ty defScale ml2 h2 c2)
    (hs1 : Sizes ty h1) (hs2 : Sizes ty h2) (hu1 : SameDim h1.idx) (hu2 : SameDim h2.idx)
    {fs1 fs1' fs2 fs2' : Dir} {base1 base2 name1 name2 : String} {draws1 draws2 : List Nat}
    (hf1 : fileDump ty h1 fs1 base1 draws1 = some (fs1', .ok name1))
    (hf2 : fileDump ty h2 fs2 base2 draws2 = some (fs2', .ok name2))
    (hg : fs1' (name1 ++ ".hnsw.graph") = fs2' (name2 ++ ".hnsw.graph"))
    (hd : fs1' (name1 ++ ".hnsw.data") = fs2' (name2 ++ ".hnsw.data")) :
    h1.idx = h2.idx ∧ h1.getLevelScale = h2.getLevelScale ∧ h1.cfg.efC = h2.cfg.efC ∧
      h1.cfg.maxNb % 256 = h2.cfg.maxNb % 256 ∧ h1.distName = h2.distName := by
  have hk1 := hr1.ok L hT hn
  have hk2 := hr2.ok L hT hn
  obtain ⟨-, hres1, -, hfa1⟩ := fileDump_ok hf1
  obtain ⟨-, hres2, -, hfa2⟩ := fileDump_ok hf2
  have hd1 := hk1.dumped L hs1 hres1
  have hd2 := hk2.dumped L hs2 hres2
  have hfb : FilesAt ty h2 fs1' name1 [] [] := ⟨hg.trans hfa2.graph, hd.trans hfa2.data⟩
  obtain ⟨e1, he1⟩ := Option.ne_none_iff_exists'.mp hd1.idx.entry
  obtain ⟨e2, he2⟩ := Option.ne_none_iff_exists'.mp hd2.idx.entry
  have hde : h1.rdescr ty = h2.rdescr ty := by
    have i1 := FilesAt.init (io := HnswIo.new name1 ⟨false, 0⟩) hd1 he1 hfa1
    have i2 := FilesAt.init (io := HnswIo.new name1 ⟨false, 0⟩) hd2 he2 hfb
    rw [i1] at i2
    injection i2 with i2
    exact (Prod.mk.inj i2).1
  have hname : h1.distName = h2.distName := congrArg Descr.distName hde
  obtain ⟨io1, hl1⟩ := load_uniform (P := listPolicy T) (io := HnswIo.new name1 ⟨false, 0⟩) listPolicy_lawful hT hn hd1 hu1
    (fun h => by cases h) hfa1 (fun h => by cases h) (dist := ⟨h1.distName, h1.cfg.eval⟩)
    (checkDist_dump hs1 rfl) defScale
  obtain ⟨io2, hl2⟩ := load_uniform (P := listPolicy T) (io := HnswIo.new name1 ⟨false, 0⟩) listPolicy_lawful hT hn hd2 hu2
    (fun h => by cases h) hfb (fun h => by cases h) (dist := ⟨h1.distName, h1.cfg.eval⟩)
    (checkDist_dump hs2 hname) defScale
  rw [hl1] at hl2
  injection hl2 with _ hl2
  injection hl2 with hl2
  have hidx : h1.idx.resort (listPolicy T) = h2.idx.resort (listPolicy T) := congrArg (fun x => x.hnsw.idx) hl2
  have hfix : ∀ {h : Hnsw T}, (∀ p l, (h.idx.nb p l).Pairwise (fun a b => a.dist.key ≤ b.dist.key)) →
      h.idx.resort (listPolicy T) = h.idx := by
    intro h hp
    unfold Idx.resort
    have : (fun p l => (listPolicy T).sort (h.idx.nb p l)) = h.idx.nb := by
      funext p l
      exact sortAsc_fix _ (hp p l)
    rw [this]
  rw [hfix (hk1.good L).ok.sorted, hfix (hk2.good L).ok.sorted] at hidx
  refine ⟨hidx, congrArg Descr.scale hde, ?_, ?_, hname⟩
  · have := congrArg (fun d => d.ef.toNat) hde
    simp only [Hnsw.rdescr, Hnsw.descr, UInt64.toNat_ofNat'] at this
    have a := hs1.ef
    have b := hs2.ef
    omega
  · have := congrArg (fun d => d.maxNb.toNat) hde
    simpa only [Hnsw.rdescr, Hnsw.descr, UInt8.toNat_ofNat'] using this

/-- the hypotheses are met by `io4` dumped under two names in two directories; the theorem then gives nothing new, but
shows that a dump of an index whose first vector is `[11, 1]` instead of `[10, 1]` has other files -/
example : ∃ (h2 : Hnsw UInt8), (∃ c, HReach (listPolicy UInt8) u8Ty exScale 16 h2 c) ∧ Sizes u8Ty h2 ∧ SameDim h2.idx ∧
    h2.idx ≠ io4.idx ∧ ∃ fs' fs2', fileDump u8Ty io4 (fun _ => none) "a" [] = some (fs', .ok "a") ∧
    fileDump u8Ty h2 (fun _ => none) "b" [] = some (fs2', .ok "b") ∧
    ¬ (fs' "a.hnsw.graph" = fs2' "b.hnsw.graph" ∧ fs' "a.hnsw.data" = fs2' "b.hnsw.data") := by
  have hr2 : ∃ c, HReach (listPolicy UInt8) u8Ty exScale 16 (ioH exScale 3 16 u8Dist
      [(([11, 1], 7), 0), (([20, 2], 8), 1), (([30, 3], 9), 0), (([25, 4], 5), 2)]) c :=
    ioH_reach u8Ty_lawful rfl _ (by decide) _ _ (by decide)
  have hs2 : Sizes u8Ty (ioH exScale 3 16 u8Dist
      [(([11, 1], 7), 0), (([20, 2], 8), 1), (([30, 3], 9), 0), (([25, 4], 5), 2)]) :=
    ⟨by decide +kernel, by decide +kernel, by decide +kernel, by decide +kernel, by decide +kernel, by decide +kernel⟩
  generalize hh : ioH exScale 3 16 u8Dist
      [(([11, 1], 7), 0), (([20, 2], 8), 1), (([30, 3], 9), 0), (([25, 4], 5), 2)] = h2 at hr2 hs2
  have hu2 : SameDim h2.idx := by rw [← hh]; unfold SameDim Stored; decide +kernel
  have hne : h2.idx.points ≠ io4.idx.points := by rw [← hh]; decide +kernel
  have hu : SameDim io4.idx := by unfold SameDim Stored; decide +kernel
  have hres : (io4.dump u8Ty true).res = .ok () := res_ok (by decide +kernel)
  have hres2 : (h2.dump u8Ty true).res = .ok () := by rw [← hh]; exact res_ok (by decide +kernel)
  obtain ⟨fs', hfd⟩ := fileDump_empty (ty := u8Ty) hres "a" []
  obtain ⟨fs2', hfd2⟩ := fileDump_empty (ty := u8Ty) hres2 "b" []
  obtain ⟨c, hr⟩ := io4_reach
  obtain ⟨c2, hr2⟩ := hr2
  refine ⟨h2, ⟨c2, hr2⟩, hs2, hu2, fun h => hne (by rw [h]), fs', fs2', hfd, hfd2, fun ⟨hg, hd⟩ => hne ?_⟩
  have e1 : "a" ++ ".hnsw.graph" = "a.hnsw.graph" := by decide
  have e2 : "b" ++ ".hnsw.graph" = "b.hnsw.graph" := by decide
  have e3 : "a" ++ ".hnsw.data" = "a.hnsw.data" := by decide
  have e4 : "b" ++ ".hnsw.data" = "b.hnsw.data" := by decide
  have := (C120_injective listPolicy_lawful u8Ty_lawful rfl hr hr2 io4_sizes hs2 hu hu2 hfd hfd2
    (by rw [e1, e2]; exact hg) (by rw [e3, e4]; exact hd)).1
  rw [this]

end Verif
