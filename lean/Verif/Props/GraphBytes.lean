import Verif.GraphParse
import Verif.MmapLemmas
import Verif.Props.Layout

set_option autoImplicit false

/-!
# The graph files that a reload accepts (C90)
-/

namespace Verif
variable {T : Type} {P : Policy T} {ty : Ty T} {defScale : Nat → F64} {dist : Dist T}
  {io io' : HnswIo} {fs : Dir} {x : Loaded T}

/-- the header of a graph file of format 2, 3 or 4 -/
def headerOf (d : Descr) : Bytes :=
  (if d.version = 2 then [0x7f, 0x67, 0x2a, 0x00]
    else if d.version = 3 then [0x71, 0x67, 0x2a, 0x00]
    else [0x79, 0x67, 0x2a, 0x00]) ++
  [d.mode, d.maxNb] ++ (if d.version = 4 then le 8 d.scale.bits else []) ++ [d.nbLayer] ++
  le 8 d.ef.toNat ++ le 8 d.nbPoint.toNat ++ le 8 d.dim.toNat ++ fileStr d.distName ++ fileStr d.tName

/-- a link in a graph file: the position is there in full mode only -/
def linkOf (mode : UInt8) (n : Neighbour) : Bytes :=
  le 8 n.dId.toNat ++ (if mode = 1 then filePid n.pId else []) ++ le 4 n.distance.bits

/-- a point in a graph file -/
def pointOf (mode : UInt8) (f : FilePt) : Bytes :=
  [0x8f, 0x67, 0x0a, 0x00] ++ le 8 f.id.toNat ++ filePid f.pid ++
    f.lists.flatMap fun ns => le 8 ns.length ++ ns.flatMap (linkOf mode)

/-- a layer in a graph file -/
def layerOf (mode : UInt8) (l : List FilePt) : Bytes :=
  [0x6f, 0x67, 0x0a, 0x00] ++ le 8 l.length ++ l.flatMap (pointOf mode)

/-- `g` is a graph file with the header `d`, the points `ls` by layer and the entry point at `epid`, and
fulfils what a reload demands. -/
structure GraphFile (g : Bytes) (d : Descr) (ls : List (List FilePt)) (epid : PointId) : Prop where
  bytes : ∃ (eid : DataId) (tail : Bytes), g = headerOf d ++ [UInt8.ofNat ls.length] ++
    ls.flatMap (layerOf d.mode) ++ le 8 eid.toNat ++ filePid epid ++ tail
  version : d.version = 2 ∨ d.version = 3 ∨ d.version = 4
  scale : d.version ≠ 4 → d.scale = F64.one
  distLen : d.distName.toUTF8.size ≤ 256
  tLen : d.tName.toUTF8.size ≤ 256
  /-- see `Readable` in GraphLemmas.lean: points at their places, links that lead to points, the
  numbers of layers, lists and points -/
  readable : Readable d ls
  entry : ∃ l ∈ ls, ∃ f ∈ l, f.pid = epid

/-- `b` is a data file for these points, and fulfils what a reload without map demands. -/
structure DataFile (ty : Ty T) (b : Bytes) (d : Descr) (ls : List (List FilePt)) : Prop where
  bytes : ∃ (rs : List (DataId × Bytes)) (tail : Bytes),
    b = [0x00, 0x00, 0x7f, 0xa6] ++ le 8 d.dim.toNat ++ rs.flatMap dataRecord ++ tail ∧
    rs.map (·.1) = ls.flatten.map (·.id) ∧
    ∀ r ∈ rs, ty.noData = true ∨ (d.version = 2 ∧ (ty.bincode r.2).isSome) ∨
      (d.version ≠ 2 ∧ d.dim.toNat * ty.size ≤ r.2.length)

/-! ### from the model's bytes -/

theorem anyHeader_eq (d : Descr) : anyHeader d = headerOf d := by
  unfold anyHeader headerOf Descr.tailBytes magicOf
  simp only [leBytes_le 8, fileStr_eq]
  have h2 : leBytes 4 magicDescr2 = [0x7f, 0x67, 0x2a, 0x00] := by decide
  have h3 : leBytes 4 magicDescr3 = [0x71, 0x67, 0x2a, 0x00] := by decide
  have h4 : leBytes 4 magicDescr4 = [0x79, 0x67, 0x2a, 0x00] := by decide
  have : leBytes 4 (if d.version = 2 then magicDescr2 else if d.version = 3 then magicDescr3 else magicDescr4) =
      (if d.version = 2 then [0x7f, 0x67, 0x2a, 0x00] else if d.version = 3 then [0x71, 0x67, 0x2a, 0x00]
        else [0x79, 0x67, 0x2a, 0x00]) := by
    split
    · exact h2
    · split
      · exact h3
      · exact h4
  rw [this]
  simp only [List.append_assoc, List.cons_append, List.nil_append]

theorem anyLink_eq (mode : UInt8) (n : Neighbour) : anyLink mode n = linkOf mode n := by
  unfold anyLink linkOf anyPid
  simp only [leBytes_le, filePid_eq]

theorem anyPoint_eq (mode : UInt8) (f : FilePt) : anyPoint mode f = pointOf mode f := by
  unfold anyPoint pointOf
  have h : leBytes 4 magicPoint = [0x8f, 0x67, 0x0a, 0x00] := by decide
  have h2 : anyList mode = fun ns => le 8 ns.length ++ ns.flatMap (linkOf mode) := by
    funext ns
    unfold anyList
    rw [leBytes_le, show anyLink mode = linkOf mode from funext (anyLink_eq mode)]
  rw [h, h2, leBytes_le, filePid_eq]

theorem anyLayer_eq (mode : UInt8) (l : List FilePt) : anyLayer mode l = layerOf mode l := by
  unfold anyLayer layerOf
  have h : leBytes 4 magicLayer = [0x6f, 0x67, 0x0a, 0x00] := by decide
  rw [h, leBytes_le, show anyPoint mode = pointOf mode from funext (anyPoint_eq mode)]

theorem strBytes_size (s : String) : (strBytes s).length = s.toUTF8.size := by
  unfold strBytes
  rfl

/-- what the tables loaded from a graph file are -/
structure IndexOf (idx : Idx T) (ls : List (List FilePt)) (epid : PointId) : Prop where
  /-- the points: ids and positions, layer by layer -/
  points : (idx.layers.map fun l => l.map fun p => (p.origin, p.pid)) =
    (ls.map fun l => l.map fun f => (f.id, f.pid))
  /-- a list that is not in the file is empty -/
  empty : ∀ l ∈ ls, ∀ f ∈ l, ∀ k, f.lists.length ≤ k → idx.nb f.pid k = []
  /-- a list has the links of the file, by position and distance -/
  links : ∀ l ∈ ls, ∀ f ∈ l, ∀ (k : Nat) ns, f.lists[k]? = some ns →
    ((idx.nb f.pid k).map fun e => (e.pt.pid, e.dist)).Perm (ns.map fun n => (n.pId, n.distance))
  entry : ∃ e, idx.entry = some e ∧ e.pid = epid

theorem graphFile_of_load (L : P.Lawful) {g b g' : Bytes} {d : Descr} {s1 s2 : Two} {idx : Idx T}
    {m : List Bool} {dm : Option DataMap} {o : ReloadOptions} (hd : loadDescr g = .ok (d, g'))
    (hh : loadDataHeader d (g', b) = .ok ((), s1)) (hl : loadIndexation P ty d dm o s1 = .ok ((idx, m), s2)) :
    ∃ ls epid, GraphFile g d ls epid ∧ IndexOf idx ls epid := by
  obtain ⟨e1, e2⟩ := loadDataHeader_ok hh
  obtain ⟨h1, h2, h3, h4, h5⟩ := loadDescr_ok hd
  obtain ⟨ls, eid, e, k1, k2, k3, k4, k5, k6⟩ := loadIndexation_graph L hl
  refine ⟨ls, e.pid, ⟨⟨eid, s2.1, ?_⟩, h2, h3, ?_, ?_, k3, k4⟩, ⟨k5, ?_, ?_, e, k1, rfl⟩⟩
  · rw [h1, ← anyHeader_eq]
    have : g' = s1.1 := e2.symm
    rw [this, k2, show anyLayer d.mode = layerOf d.mode from funext (anyLayer_eq d.mode), leBytes_le, filePid_eq]
    simp only [List.append_assoc]
  · rw [← strBytes_size]; exact h4
  · rw [← strBytes_size]; exact h5
  · intro l hl f hf k hk
    exact (k6 l hl f hf).1 k (List.getElem?_eq_none_iff.2 hk)
  · intro l hl f hf k ns hk
    exact (k6 l hl f hf).2 k ns hk

/-- **C90** Whatever the files and the options, `load_hnsw` returns an index only if the graph file is a
graph file: magic numbers, header, layers, points at their places, links that lead to points of the file.
The index has the settings of the header, the points of the file and their links, the lists being sorted
anew. -/
theorem C90_graph_file (L : P.Lawful) (hx : io.loadHnsw P ty defScale dist fs = (io', .ok x)) :
    ∃ g d ls epid, fs (io.base ++ ".hnsw.graph") = some g ∧ GraphFile g d ls epid ∧
      IndexOf x.hnsw.idx ls epid ∧
      x.hnsw.cfg.maxNb = d.maxNb.toNat ∧ x.hnsw.cfg.efC = d.ef.toNat ∧
      x.hnsw.cfg.maxLayer = d.nbLayer.toNat ∧
      x.hnsw.gen = LayerGen.newWithScale defScale d.maxNb.toNat d.scale 16 := by
  obtain ⟨g, b, d, g', s1, idx, m, s2, h1, -, h3, h4, h5, rfl⟩ := load_ok_parts hx
  obtain ⟨ls, epid, k1, k2⟩ := graphFile_of_load L h3 h4 h5
  exact ⟨g, d, ls, epid, h1, k1, k2, rfl, rfl, rfl, rfl⟩

/-! ## which files are accepted -/

theorem anyBytes_len {α : Type} {f : α → Bytes} {l : List α} {a : α} (h : a ∈ l) :
    (f a).length ≤ (l.flatMap f).length := by
  induction l with
  | nil => cases h
  | cons b l ih =>
    rw [List.flatMap_cons, List.length_append]
    rcases List.mem_cons.1 h with rfl | h
    · omega
    · have := ih h
      omega

theorem flatMap_len_ge {α : Type} {f : α → Bytes} (hf : ∀ a, 1 ≤ (f a).length) (l : List α) :
    l.length ≤ (l.flatMap f).length := by
  induction l with
  | nil => simp
  | cons b l ih =>
    rw [List.flatMap_cons, List.length_append, List.length_cons]
    have := hf b
    omega

theorem le_length (k n : Nat) : (le k n).length = k := by simp [le]

theorem recordVec_ok_iff {d : Descr} (hv : d.version = 2 ∨ d.version = 3 ∨ d.version = 4) (b : Bytes) :
    (∃ v, recordVec ty d b = .ok v) ↔ ty.noData = true ∨ (d.version = 2 ∧ (ty.bincode b).isSome) ∨
      (d.version ≠ 2 ∧ d.dim.toNat * ty.size ≤ b.length) := by
  unfold recordVec
  cases hn : ty.noData with
  | true => simp
  | false =>
    simp only [Bool.false_eq_true, if_false, false_or]
    by_cases h2 : d.version = 2
    · rw [if_pos h2]
      cases ty.bincode b with
      | none => simp [h2]
      | some v => simp [h2]
    · rw [if_neg h2]
      have h34 : d.version = 3 ∨ d.version = 4 := by
        rcases hv with h | h | h
        · exact absurd h h2
        · exact Or.inl h
        · exact Or.inr h
      rw [if_pos h34]
      by_cases hd : d.dim.toNat * ty.size ≤ b.length
      · rw [if_pos hd]; simp [h2, hd]
      · rw [if_neg hd]; simp [h2, hd]

/-- the data file has a record for each point in order, and a vector is found for each of them -/
def DataFound (ty : Ty T) (dm : Option DataMap) (o : ReloadOptions) (b : Bytes) (d : Descr)
    (ls : List (List FilePt)) : Prop :=
  ∃ (rs : List (DataId × Bytes)) (tail : Bytes),
    b = [0x00, 0x00, 0x7f, 0xa6] ++ le 8 d.dim.toNat ++ rs.flatMap dataRecord ++ tail ∧
    rs.map (·.1) = ls.flatten.map (·.id) ∧
    ∀ (i : Nat) r, rs[i]? = some r →
      ∃ v, vecFrom ty d dm (pointUseMmap o (asI64 d.nbPoint.toNat - (i : Nat))) r.1 r.2 = .ok v

/-- the parts of the reload succeed together exactly on the files described above -/
theorem load_parts_found (L : P.Lawful) {g b : Bytes} (hgl : g.length < 2 ^ 64) (hbl : b.length < 2 ^ 64)
    {dm : Option DataMap} {o : ReloadOptions} (d : Descr)
    (hS : (∀ v, P.sortPanics v = false) ∨ ∀ d ls epid, GraphFile g d ls epid → NoNaNLinks ls) :
    (∃ g' s1 y s2, loadDescr g = .ok (d, g') ∧ loadDataHeader d (g', b) = .ok ((), s1) ∧
      loadIndexation P ty d dm o s1 = .ok (y, s2)) ↔
    ∃ ls epid, GraphFile g d ls epid ∧ DataFound ty dm o b d ls ∧ (ty.noData = true ∨ ty.name = d.tName) := by
  constructor
  · rintro ⟨g', s1, ⟨idx, m⟩, s2, h1, h2, h3⟩
    obtain ⟨ls, epid, k1, k2⟩ := graphFile_of_load L h1 h2 h3
    refine ⟨ls, epid, k1, ?_, ?_⟩
    · obtain ⟨-, -, -, -, -, -, -, ps, vs, i1, i2, i3, i4⟩ := loadIndexation_ok L h3
      obtain ⟨e1, -⟩ := loadDataHeader_ok h2
      refine ⟨vs, s2.2, ?_, ?_, ?_⟩
      · have : b = (g', b).2 := rfl
        rw [this, e1, i4, recordsOf_eq, leBytes_le 8]
        have : leBytes 4 magicDataP = [0x00, 0x00, 0x7f, 0xa6] := by decide
        rw [this]
        simp only [List.append_assoc]
      · have hp := congrArg (fun l => l.flatten.map (·.1)) k2.points
        simp only [← List.map_flatten, List.map_map] at hp
        rw [i3.1]
        have h4 : ps.map (·.pt.origin) = (ps.map (·.pt)).map (·.origin) := by rw [List.map_map]; rfl
        rw [h4, i1]
        exact hp
      · intro i r hr
        have hi := (List.getElem?_eq_some_iff.1 hr).1
        have hl : i < ps.length := by
          have := congrArg List.length i3.1
          simp only [List.length_map] at this
          omega
        have hv := i3.2 i ps[i] r (List.getElem?_eq_getElem hl) hr
        have h0 : 0 ≤ asI64 d.nbPoint.toNat := by
          unfold asI64
          rw [if_pos k1.readable.announced]
          omega
        obtain ⟨hfl, -⟩ := loadIndexation_flags h3 h0
        have hm : ps[i].mapped = pointUseMmap o (asI64 d.nbPoint.toNat - (i : Nat)) := by
          have h5 : (ps.map (·.mapped))[i]? = some ps[i].mapped := by
            rw [List.getElem?_map, List.getElem?_eq_getElem hl]; rfl
          have h6 : i < idx.points.length := by
            rw [← i1, List.length_map]; exact hl
          rw [← i2, hfl] at h5
          unfold flagsFrom at h5
          rw [List.getElem?_map, List.getElem?_range h6] at h5
          simp only [Option.map_some, Option.some.injEq] at h5
          exact h5.symm
        have hid : ps[i].pt.origin = r.1 := by
          have h5 := congrArg (fun l => l[i]?) i3.1
          simp only [List.getElem?_map, hr, List.getElem?_eq_getElem hl, Option.map_some,
            Option.some.injEq] at h5
          exact h5.symm
        refine ⟨ps[i].pt.data, ?_⟩
        unfold VecOf at hv
        unfold vecFrom
        rw [← hm, ← hid]
        exact (by
          cases hc : ps[i].mapped with
          | true => rw [hc] at hv; simpa using hv
          | false => rw [hc] at hv; simpa using hv)
    · unfold loadIndexation at h3
      replace h3 := Rd.bind_ok h3
      obtain ⟨_, t, h4, -⟩ := h3
      obtain ⟨c, -⟩ := Rd.require_ok h4
      simpa using c
  · rintro ⟨ls, epid, k1, ⟨rs, tb, k2, k3, k4⟩, k5⟩
    obtain ⟨eid, tg, hg⟩ := k1.bytes
    have hdescr := parses_anyHeader k1.version k1.scale (by rw [strBytes_size]; exact k1.distLen)
      (by rw [strBytes_size]; exact k1.tLen)
    have hlen : ∀ l ∈ ls, ∀ f ∈ l, ∀ ns ∈ f.lists, ns.length < 2 ^ 64 := by
      intro l hl f hf ns hns
      have a1 := anyBytes_len (f := layerOf d.mode) hl
      have a2 := anyBytes_len (f := pointOf d.mode) hf
      have a3 := anyBytes_len (f := fun ns : List Neighbour => le 8 ns.length ++ ns.flatMap (linkOf d.mode)) hns
      have a4 := flatMap_len_ge (f := linkOf d.mode) (fun n => by
        unfold linkOf; simp only [List.length_append, le_length]; omega) ns
      rw [hg] at hgl
      simp only [List.length_append] at hgl a3
      have a5 : (l.flatMap (pointOf d.mode)).length ≤ (layerOf d.mode l).length := by
        unfold layerOf; simp only [List.length_append]; omega
      have a6 : (f.lists.flatMap fun ns : List Neighbour => le 8 ns.length ++ ns.flatMap (linkOf d.mode)).length
          ≤ (pointOf d.mode f).length := by
        unfold pointOf; simp only [List.length_append]; omega
      omega
    have hrec : RecsOk ty d dm o (asI64 d.nbPoint.toNat) rs := by
      intro i r hi
      have hr := List.mem_of_getElem? hi
      refine ⟨?_, k4 i r hi⟩
      have a1 := anyBytes_len (f := dataRecord) hr
      have a2 : r.2.length ≤ (dataRecord r).length := by
        unfold dataRecord; simp only [List.length_append]; omega
      rw [k2] at hbl
      simp only [List.length_append] at hbl
      omega
    obtain ⟨y, hy⟩ := parses_anyIndexation L (dm := dm) k5 (eid := eid) k1.readable
      (hS.imp id fun h => h d ls epid k1) k1.entry hlen k3 hrec
    have hy' := hy tg tb
    generalize hG : [UInt8.ofNat ls.length] ++ ls.flatMap (anyLayer d.mode) ++ leBytes 8 eid.toNat ++
      pidBytes epid ++ tg = G at hy'
    have hgG : g = anyHeader d ++ G := by
      rw [hg, ← hG, anyHeader_eq, show anyLayer d.mode = layerOf d.mode from funext (anyLayer_eq d.mode),
        leBytes_le, filePid_eq]
      simp only [List.append_assoc]
    refine ⟨G, _, y, _, by rw [hgG]; exact hdescr G, ?_, hy'⟩
    · rw [k2, ← recordsOf_eq]
      unfold loadDataHeader
      have m : ([0x00, 0x00, 0x7f, 0xa6] : Bytes) = leBytes 4 magicDataP := by decide
      rw [m, ← leBytes_le]
      simp only [List.append_assoc]
      have hp : Parses2 (do
          let magic ← onD (readNat .err 4)
          Rd.require (magic = magicDataP) .panic
          let dim ← onD (readNat .err 8)
          Rd.require (dim = d.dim.toNat) .panic) [] (leBytes 4 magicDataP ++ leBytes 8 d.dim.toNat) () := by
        refine (parses_readNat .err (by decide)).onD.bindD ?_
        refine (Parses2.require (by simp)).bind0 ?_
        refine Parses2.map (parses_readNat .err (UInt64.lt_pow _)).onD ?_
        exact Parses2.require (by simp)
      have := hp G (recordsOf rs ++ tb)
      rw [List.nil_append, List.append_assoc] at this
      exact this

/-- without map the vectors are found in the records -/
theorem dataFound_unmapped {dm : Option DataMap} {o : ReloadOptions} (ho : o.datamap = false) {b : Bytes}
    {d : Descr} {ls : List (List FilePt)} (hv : d.version = 2 ∨ d.version = 3 ∨ d.version = 4) :
    DataFound ty dm o b d ls ↔ DataFile ty b d ls := by
  have hmm : ∀ still, pointUseMmap o still = false := by intro still; unfold pointUseMmap; rw [ho]; rfl
  unfold DataFound
  simp only [hmm]
  constructor
  · rintro ⟨rs, tail, h1, h2, h3⟩
    refine ⟨⟨rs, tail, h1, h2, fun r hr => ?_⟩⟩
    obtain ⟨i, hi⟩ := List.mem_iff_getElem?.1 hr
    exact (recordVec_ok_iff hv r.2).1 (h3 i r hi)
  · rintro ⟨rs, tail, h1, h2, h3⟩
    exact ⟨rs, tail, h1, h2, fun i r hi => (recordVec_ok_iff hv r.2).2 (h3 r (List.mem_of_getElem? hi))⟩

/-- the parts of the reload without map succeed together exactly on the files described above -/
theorem load_parts_iff (L : P.Lawful) {g b : Bytes} (hgl : g.length < 2 ^ 64) (hbl : b.length < 2 ^ 64)
    {dm : Option DataMap} {o : ReloadOptions} (ho : o.datamap = false) (d : Descr)
    (hS : (∀ v, P.sortPanics v = false) ∨ ∀ d ls epid, GraphFile g d ls epid → NoNaNLinks ls) :
    (∃ g' s1 y s2, loadDescr g = .ok (d, g') ∧ loadDataHeader d (g', b) = .ok ((), s1) ∧
      loadIndexation P ty d dm o s1 = .ok (y, s2)) ↔
    ∃ ls epid, GraphFile g d ls epid ∧ DataFile ty b d ls ∧ (ty.noData = true ∨ ty.name = d.tName) := by
  rw [load_parts_found L hgl hbl d hS]
  constructor
  · rintro ⟨ls, epid, k1, k2, k3⟩
    exact ⟨ls, epid, k1, (dataFound_unmapped ho k1.version).1 k2, k3⟩
  · rintro ⟨ls, epid, k1, k2, k3⟩
    exact ⟨ls, epid, k1, (dataFound_unmapped ho k1.version).2 k2, k3⟩

/-- the names of distances that pass -/
theorem checkDist_ok_iff (d : Descr) : checkDist ty dist.name d = .ok () ↔
    (ty.noData = true ∨ ∃ seg, (rsplitTerm dist.name).head? = some seg ∧
      (rsplitTerm d.distName).head? = some seg) := by
  unfold checkDist
  cases hn : ty.noData with
  | true => simp
  | false =>
    simp only [Bool.false_eq_true, if_false, false_or]
    cases h1 : (rsplitTerm dist.name).head? with
    | none => simp
    | some a =>
      cases h2 : (rsplitTerm d.distName).head? with
      | none => simp
      | some c =>
        simp only [Option.some.injEq]
        by_cases hac : a = c
        · simp [hac]
        · simp only [if_neg hac]
          constructor
          · intro h; cases h
          · rintro ⟨s, rfl, rfl⟩; exact absurd rfl hac

/-- **C90** (partial: the file has no NaN among the distances of its links, or sorting does not panic on
NaN) Without map, `load_hnsw` returns an index exactly when the graph file is a graph file, the data
file has a record that can be decoded for each point in order, and the type and the distance (from its
last `::` on) are the ones named in the header (`NoData`: any).  Files shorter than 2^64 bytes. -/
theorem C90_accepted_partial (L : P.Lawful) (ho : io.opts.datamap = false) {g b : Bytes}
    (hg : fs (io.base ++ ".hnsw.graph") = some g) (hb : fs (io.base ++ ".hnsw.data") = some b)
    (hgl : g.length < 2 ^ 64) (hbl : b.length < 2 ^ 64)
    (hS : (∀ v, P.sortPanics v = false) ∨ ∀ d ls epid, GraphFile g d ls epid → NoNaNLinks ls) :
    (∃ x, (io.loadHnsw P ty defScale dist fs).2 = .ok x) ↔
    ∃ d ls epid, GraphFile g d ls epid ∧ DataFile ty b d ls ∧
      (ty.noData = true ∨ ty.name = d.tName ∧ ∃ seg, (rsplitTerm dist.name).head? = some seg ∧
        (rsplitTerm d.distName).head? = some seg) := by
  have hdist := checkDist_ok_iff (ty := ty) (dist := dist)
  have hmap : io.mapData ty fs = .ok io := by unfold HnswIo.mapData; rw [ho]; rfl
  constructor
  · rintro ⟨x, hx⟩
    have hx' : io.loadHnsw P ty defScale dist fs = ((io.loadHnsw P ty defScale dist fs).1, .ok x) := by
      rw [← hx]
    generalize (io.loadHnsw P ty defScale dist fs).1 = io1 at hx'
    obtain ⟨g1, d1, rest1, q1, q2, -, q3⟩ := load_ok_descr hx'
    have hio : io1.opts.datamap = false := by rw [load_opts hx']; exact ho
    obtain ⟨g2, b2, d, g', s1, idx, m, s2, h1, h2, h3, h4, h5, -⟩ := load_ok_parts hx'
    have eg : g2 = g := by
      have : fs (graphName io.base) = some g := hg
      rw [this] at h1; injection h1 with h1; exact h1.symm
    have eb : b2 = b := by
      have : fs (dataName io.base) = some b := hb
      rw [this] at h2; injection h2 with h2; exact h2.symm
    have eg1 : g1 = g := by
      have : fs (graphName io.base) = some g := hg
      rw [this] at q1; injection q1 with q1; exact q1.symm
    subst eg eb eg1
    have ed : d1 = d := by
      rw [h3] at q2; injection q2 with q2; injection q2 with q2; exact q2.symm
    subst ed
    obtain ⟨ls, epid, k1, k2, k3⟩ := (load_parts_iff L hgl hbl hio d1 hS).1 ⟨g', s1, _, s2, h3, h4, h5⟩
    refine ⟨d1, ls, epid, k1, k2, ?_⟩
    rcases k3 with k3 | k3
    · exact Or.inl k3
    · rcases (hdist d1).1 q3 with k4 | k4
      · exact Or.inl k4
      · exact Or.inr ⟨k3, k4⟩
  · rintro ⟨d, ls, epid, k1, k2, k3⟩
    obtain ⟨g', s1, ⟨idx, m⟩, s2, h1, h2, h3⟩ :=
      (load_parts_iff (P := P) (ty := ty) (dm := io.datamap) L hgl hbl ho d hS).2 ⟨ls, epid, k1, k2, by
        rcases k3 with k3 | k3
        · exact Or.inl k3
        · exact Or.inr k3.1⟩
    have hinit : io.init fs = .ok (d, (g', b)) := by
      unfold HnswIo.init
      have hg' : fs (graphName io.base) = some g := hg
      have hb' : fs (dataName io.base) = some b := hb
      rw [hg', hb']
      simp only [h1]
    have hc := (hdist d).2 (by
      rcases k3 with k3 | k3
      · exact Or.inl k3
      · exact Or.inr k3.2)
    unfold HnswIo.loadHnsw
    simp only [hinit, h2, hc, hmap, h3]
    exact ⟨_, rfl⟩

/-- **C90** (partial: same) for `load_hnsw_with_dist`, which compares the full name of the distance. -/
theorem C90_accepted_with_dist_partial (L : P.Lawful) (ho : io.opts.datamap = false) {g b : Bytes}
    (hg : fs (io.base ++ ".hnsw.graph") = some g) (hb : fs (io.base ++ ".hnsw.data") = some b)
    (hgl : g.length < 2 ^ 64) (hbl : b.length < 2 ^ 64)
    (hS : (∀ v, P.sortPanics v = false) ∨ ∀ d ls epid, GraphFile g d ls epid → NoNaNLinks ls) :
    (∃ x, io.loadHnswWithDist P ty defScale dist fs = .ok x) ↔
    ∃ d ls epid, GraphFile g d ls epid ∧ DataFile ty b d ls ∧
      (ty.noData = true ∨ ty.name = d.tName ∧ dist.name = d.distName) := by
  have hg' : fs (graphName io.base) = some g := hg
  have hb' : fs (dataName io.base) = some b := hb
  have hinit : ∀ d s, io.init fs = .ok (d, s) ↔ ∃ g', loadDescr g = .ok (d, g') ∧ s = (g', b) := by
    intro d s
    unfold HnswIo.init
    rw [hg', hb']
    simp only
    cases h : loadDescr g with
    | error e => cases e <;> simp
    | ok r =>
      obtain ⟨d', g'⟩ := r
      simp only [Except.ok.injEq, Prod.mk.injEq]
      constructor
      · rintro ⟨rfl, rfl⟩; exact ⟨g', ⟨rfl, rfl⟩, rfl⟩
      · rintro ⟨g'', ⟨rfl, rfl⟩, rfl⟩; exact ⟨rfl, rfl⟩
  constructor
  · rintro ⟨x, hx⟩
    unfold HnswIo.loadHnswWithDist at hx
    split at hx
    · cases hx
    · rename_i d s hi
      obtain ⟨g', h1, rfl⟩ := (hinit d s).1 hi
      split at hx
      · cases hx
      · rename_i u s1 h2
        split at hx
        · cases hx
        · rename_i hc
          split at hx
          · cases hx
          · rename_i idx m s2 h3
            obtain ⟨ls, epid, k1, k2, k3⟩ :=
              (load_parts_iff L hgl hbl ho d hS).1 ⟨g', s1, _, s2, h1, h2, h3⟩
            refine ⟨d, ls, epid, k1, k2, ?_⟩
            cases hn : ty.noData with
            | true => exact Or.inl rfl
            | false =>
              right
              simp only [hn, Bool.not_false, Bool.true_and, bne_iff_ne, ne_eq, Decidable.not_not] at hc
              rw [hn] at k3
              simp only [Bool.false_eq_true, false_or] at k3
              exact ⟨k3, hc⟩
  · rintro ⟨d, ls, epid, k1, k2, k3⟩
    obtain ⟨g', s1, ⟨idx, m⟩, s2, h1, h2, h3⟩ :=
      (load_parts_iff (P := P) (ty := ty) (dm := io.datamap) L hgl hbl ho d hS).2 ⟨ls, epid, k1, k2, by
        rcases k3 with k3 | k3
        · exact Or.inl k3
        · exact Or.inr k3.1⟩
    have hi := (hinit d (g', b)).2 ⟨g', h1, rfl⟩
    unfold HnswIo.loadHnswWithDist
    have hc : (!ty.noData && dist.name != d.distName) = false := by
      rcases k3 with k3 | k3
      · simp [k3]
      · simp [k3.2]
    simp only [hi, h2, hc, Bool.false_eq_true, if_false, h3]
    exact ⟨_, rfl⟩

/-- the dump of `io4` with another id in the first link, or for the entry point: the reload does not look
at them -/
example : damagedLinks 128 77 = damagedLinks 128 9 ∧ damagedLinks 1152 77 = damagedLinks 1152 5 ∧
    damagedLinks 128 9 = some [(⟨0, 0⟩, [⟨0, 1⟩]), (⟨0, 1⟩, [⟨1, 0⟩, ⟨0, 0⟩]),
      (⟨1, 0⟩, [⟨0, 0⟩, ⟨0, 1⟩]), (⟨2, 0⟩, [⟨0, 1⟩, ⟨1, 0⟩, ⟨0, 0⟩])] := by
  decide +kernel

/-- refused: a wrong magic number of the header, a layer or a point, a point not at its place, a link to
nowhere, 17 layers, 17 lists, one point less announced -/
example : damagedLinks 0 0 = none ∧ damagedLinks 91 0 = none ∧ damagedLinks 103 0 = none ∧
    damagedLinks 116 1 = none ∧ damagedLinks 136 3 = none ∧ damagedLinks 90 17 = none ∧
    damagedLinks 14 17 = none ∧ damagedLinks 23 3 = none := by
  decide +kernel

/-- The hypotheses of `C90_accepted_partial` are met: the damaged file with another id is described by it. -/
example (g b : Bytes) (hg : damaged 128 77 "a.hnsw.graph" = some g) (hb : damaged 128 77 "a.hnsw.data" = some b) :
    ∃ d ls epid, GraphFile g d ls epid ∧ DataFile u8Ty b d ls := by
  have hgl : (damaged 128 77 "a.hnsw.graph").map List.length = some 1165 := by decide +kernel
  have hbl : ((damaged 128 77 "a.hnsw.data").map List.length).all (· < 1000) = true := by decide +kernel
  rw [hg] at hgl
  rw [hb] at hbl
  simp only [Option.map_some, Option.some.injEq] at hgl
  simp only [Option.map_some, Option.all_some, decide_eq_true_eq] at hbl
  obtain ⟨d, ls, epid, h1, h2, -⟩ := (C90_accepted_partial (io := HnswIo.new "a" .default) (P := listPolicy UInt8)
    (ty := u8Ty) (defScale := exScale) (dist := u8Dist) listPolicy_lawful rfl hg hb (by omega) (by omega)
    (Or.inl fun _ => rfl)).1
    (by
      have : (match ((HnswIo.new "a" .default).loadHnsw (listPolicy UInt8) u8Ty exScale u8Dist
          (damaged 128 77)).2 with | .ok _ => true | .error _ => false) = true := by decide +kernel
      split at this
      · rename_i x hx; exact ⟨x, hx⟩
      · cases this)
  exact ⟨d, ls, epid, h1, h2⟩

end Verif
