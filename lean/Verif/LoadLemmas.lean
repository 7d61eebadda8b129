import Verif.IoLemmas

set_option autoImplicit false

/-!
# Whole files
-/

namespace Verif
variable {T T' : Type}

/-- What is needed of an index to be dumped: `Dumpable`, and the other fields of the files are large
enough. -/
structure HDumpable (ty : Ty T) (h : Hnsw T) : Prop where
  idx : Dumpable h.cfg h.idx
  ef : h.cfg.efC < 2 ^ 64
  dist : (strBytes h.distName).length ≤ 256
  tname : (strBytes ty.name).length ≤ 256
  vec : ∀ p, Stored h.idx p → (ty.encVec p.data).length < 2 ^ 64 ∧ p.data.length < 2 ^ 64

section
variable {ty : Ty T} {h : Hnsw T}

/-- the header a reload reads -/
def Hnsw.rdescr (ty : Ty T) (h : Hnsw T) : Descr := { h.descr ty true with version := 4, mode := 1 }

theorem HDumpable.dim_lt (hd : HDumpable ty h) : getDataDimension h.idx < 2 ^ 64 := by
  unfold getDataDimension
  cases he : h.idx.entry with
  | none => simp
  | some e => exact (hd.vec e (hd.idx.ok.entry e he)).2

theorem HDumpable.nbLayer (hd : HDumpable ty h) : (h.descr ty true).nbLayer.toNat = nbLayerMax := by
  have := hd.idx.layers
  simp [Hnsw.descr, this, nbLayerMax]

/-- the files of a dump -/
theorem HDumpable.dump (hd : HDumpable ty h) {e : Ref T} (he : h.idx.entry = some e) :
    h.dump ty true =
      ⟨(h.descr ty true).headBytes true ++ (h.descr ty true).tailBytes ++ idxGraphBytes h.idx e,
       dataHeader h.idx ++ h.idx.points.flatMap (pointDataBytes ty), .ok ()⟩ := by
  unfold Hnsw.dump dumpDescr
  rw [hd.nbLayer, if_neg (by simp), hd.idx.dumpIdx he]
  simp [Out.seq, Out.graph, Out.data]

theorem HDumpable.parses_descr (hd : HDumpable ty h) :
    Parses loadDescr ((h.descr ty true).headBytes true ++ (h.descr ty true).tailBytes)
      (h.rdescr ty) :=
  parses_loadDescr hd.dist hd.tname

theorem HDumpable.parses_dataHeader (hd : HDumpable ty h) :
    Parses2 (loadDataHeader (h.rdescr ty)) [] (dataHeader h.idx) () := by
  have hdim := hd.dim_lt
  unfold loadDataHeader dataHeader
  refine Parses2.bindD (parses_readNat .err (by decide)).onD ?_
  refine Parses2.bind0 (Parses2.require (by simp)) ?_
  refine Parses2.map (parses_readNat .err (by omega)).onD ?_
  refine Parses2.require ?_
  have : (h.rdescr ty).dim.toNat = getDataDimension h.idx := by
    simp only [Hnsw.rdescr, Hnsw.descr]
    rw [UInt64.toNat_ofNat']; omega
  simp [this]

theorem HDumpable.nbPoint_eq (hd : HDumpable ty h) : (h.rdescr ty).nbPoint.toNat = h.idx.nbPoint := by
  have h1 := hd.idx.total
  have h2 := hd.idx.count
  simp only [Hnsw.rdescr, Hnsw.descr, getNbPoint]
  rw [UInt64.toNat_ofNat']; omega

theorem HDumpable.dim_eq (hd : HDumpable ty h) : (h.rdescr ty).dim.toNat = getDataDimension h.idx := by
  have hdim := hd.dim_lt
  simp only [Hnsw.rdescr, Hnsw.descr]
  rw [UInt64.toNat_ofNat']; omega

/-- The files of `h` are stored under `base`, possibly followed by other bytes. -/
structure FilesAt (ty : Ty T) (h : Hnsw T) (fs : Dir) (base : String) (tg td : Bytes) : Prop where
  graph : fs (graphName base) = some ((h.dump ty true).g ++ tg)
  data : fs (dataName base) = some ((h.dump ty true).d ++ td)

theorem FilesAt.init (hd : HDumpable ty h) {fs : Dir} {io : HnswIo} {tg td : Bytes} {e : Ref T}
    (he : h.idx.entry = some e) (hf : FilesAt ty h fs io.base tg td) :
    io.init fs = .ok (h.rdescr ty, (idxGraphBytes h.idx e ++ tg,
      dataHeader h.idx ++ (h.idx.points.flatMap (pointDataBytes ty) ++ td))) := by
  unfold HnswIo.init
  rw [hf.graph, hf.data, hd.dump he]
  have := hd.parses_descr (idxGraphBytes h.idx e ++ tg)
  simp only [List.append_assoc] at this ⊢
  rw [this]

/-- the whole reload of a dump -/
theorem load_dumped {P : Policy T'} (L : P.Lawful) {ty' : Ty T'} (hd : HDumpable ty h)
    {fs : Dir} {io io' : HnswIo} {tg td : Bytes} (hf : FilesAt ty h fs io.base tg td)
    {dist : Dist T'} (hdist : checkDist ty' dist.name (h.rdescr ty) = .ok ())
    (hname : ty'.noData = true ∨ ty'.name = ty.name)
    (hmap : io.mapData ty' fs = .ok io') {cv : Ref T → List T'}
    (hv : VecsLoad ty ty' (h.rdescr ty) io'.datamap cv io'.opts h.idx.nbPoint h.idx.points)
    (defScale : Nat → F64) :
    io.loadHnsw P ty' defScale dist fs =
      (io', .ok ⟨mkHnsw defScale dist (h.rdescr ty) (reloaded P cv h.idx) true,
        (List.range h.idx.points.length).map fun i =>
          pointUseMmap io'.opts ((h.idx.nbPoint : Int) - (i : Nat))⟩) := by
  obtain ⟨e, he⟩ := Option.ne_none_iff_exists'.mp hd.idx.entry
  unfold HnswIo.loadHnsw
  rw [hf.init hd he]
  have h1 := hd.parses_dataHeader (idxGraphBytes h.idx e ++ tg)
    (h.idx.points.flatMap (pointDataBytes ty) ++ td)
  rw [List.nil_append] at h1
  simp only [h1, hdist, hmap]
  have h2 := parses_loadIndexation L (d := h.rdescr ty) (o := io'.opts) (dm := io'.datamap) rfl
    hd.nbLayer hd.idx he hd.nbPoint_eq (hname.imp id (fun x => x)) hv tg td
  rw [h2]

end

/-! ## The map of the data file -/

/-- addresses of the records of points of dimension `dim`, the first one being at `a` -/
def recAddrs (R : Nat) : Nat → List (Ref T) → List (DataId × Nat)
  | _, [] => []
  | a, p :: ps => (p.origin, a + 12) :: recAddrs R (a + R) ps

theorem sliceAt_mid (pre x post : Bytes) {a n : Nat} (ha : a = pre.length) (hn : n = x.length) :
    sliceAt (pre ++ (x ++ post)) a n = .ok x := by
  subst ha hn
  unfold sliceAt
  rw [if_pos (by simp), List.drop_left, List.take_left]

theorem mapRecords_eq {ty : Ty T} (hT : ty.Lawful) {dim : Nat} {ps : List (Ref T)}
    (hdim : ∀ p ∈ ps, p.data.length = dim ∧ dim * ty.size < 2 ^ 64) {pre post : Bytes}
    {m : List (DataId × Nat)} :
    mapRecords ty.size dim (pre ++ (ps.flatMap (pointDataBytes ty) ++ post)) ps.length pre.length m =
      .ok ((recAddrs (20 + dim * ty.size) pre.length ps).foldl (fun m e => imInsert m e.1 e.2) m) := by
  induction ps generalizing pre m with
  | nil => rfl
  | cons p ps ih =>
    obtain ⟨hp, h64⟩ := hdim p (by simp)
    have hlen : (ty.encVec p.data).length = dim * ty.size := by rw [Ty.encVec_length hT, hp]
    have hb : pre ++ ((p :: ps).flatMap (pointDataBytes ty) ++ post) =
        pre ++ (leBytes 4 magicDataP ++ (leBytes 8 p.origin.toNat ++ (leBytes 8 (dim * ty.size) ++
          (ty.encVec p.data ++ (ps.flatMap (pointDataBytes ty) ++ post))))) := by
      simp [pointDataBytes, hlen, List.append_assoc]
    have s1 := sliceAt_mid pre (leBytes 4 magicDataP) (leBytes 8 p.origin.toNat ++
      (leBytes 8 (dim * ty.size) ++ (ty.encVec p.data ++ (ps.flatMap (pointDataBytes ty) ++ post))))
      (a := pre.length) (n := 4) rfl (by simp)
    have s2 := sliceAt_mid (pre ++ leBytes 4 magicDataP) (leBytes 8 p.origin.toNat)
      (leBytes 8 (dim * ty.size) ++ (ty.encVec p.data ++ (ps.flatMap (pointDataBytes ty) ++ post)))
      (a := pre.length + 4) (n := 8) (by simp) (by simp)
    have s3 := sliceAt_mid (pre ++ leBytes 4 magicDataP ++ leBytes 8 p.origin.toNat)
      (leBytes 8 (dim * ty.size)) (ty.encVec p.data ++ (ps.flatMap (pointDataBytes ty) ++ post))
      (a := pre.length + 12) (n := 8) (by simp) (by simp)
    have s4 := sliceAt_mid (pre ++ leBytes 4 magicDataP ++ leBytes 8 p.origin.toNat ++
      leBytes 8 (dim * ty.size)) (ty.encVec p.data) (ps.flatMap (pointDataBytes ty) ++ post)
      (a := pre.length + 20) (n := dim * ty.size) (by simp) hlen.symm
    simp only [List.append_assoc] at s2 s3 s4
    rw [hb]
    simp only [List.length_cons, mapRecords, s1, s2, s3, bind, Except.bind,
      ofLE_leBytes (k := 4) (n := magicDataP) (by decide),
      ofLE_leBytes (k := 8) (n := dim * ty.size) (by omega),
      ofLE_leBytes (k := 8) (n := p.origin.toNat) (UInt64.lt_pow _), ne_eq, not_true, if_false,
      s4, Nat.lt_irrefl, pure, Except.pure]
    have := ih (pre := pre ++ (leBytes 4 magicDataP ++ (leBytes 8 p.origin.toNat ++
      (leBytes 8 (dim * ty.size) ++ ty.encVec p.data))))
      (m := imInsert m p.origin (pre.length + 12)) (fun q hq => hdim q (by simp [hq]))
    have hl : (pre ++ (leBytes 4 magicDataP ++ (leBytes 8 p.origin.toNat ++
      (leBytes 8 (dim * ty.size) ++ ty.encVec p.data)))).length = pre.length + 20 + dim * ty.size := by
      simp [hlen]; omega
    rw [hl] at this
    simp only [List.append_assoc] at this
    rw [UInt64.ofNat_toNat, this, recAddrs, List.foldl_cons, Nat.add_assoc]

theorem imInsert_new {m : List (DataId × Nat)} {k : DataId} {v : Nat} (h : k ∉ m.map (·.1)) :
    imInsert m k v = m ++ [(k, v)] := by
  unfold imInsert
  rw [if_neg]
  intro ha
  rw [List.any_eq_true] at ha
  obtain ⟨x, hx, hx'⟩ := ha
  simp only [beq_iff_eq] at hx'
  exact h (hx' ▸ List.mem_map.mpr ⟨x, hx, rfl⟩)

theorem recAddrs_keys (R : Nat) (a : Nat) (ps : List (Ref T)) :
    (recAddrs R a ps).map (·.1) = ps.map (·.origin) := by
  induction ps generalizing a with
  | nil => rfl
  | cons p ps ih => simp [recAddrs, ih]

theorem foldl_imInsert {es m : List (DataId × Nat)} (h : ((m ++ es).map (·.1)).Nodup) :
    es.foldl (fun m e => imInsert m e.1 e.2) m = m ++ es := by
  induction es generalizing m with
  | nil => simp
  | cons e es ih =>
    have hn : e.1 ∉ m.map (·.1) := by
      simp only [List.map_append, List.map_cons] at h
      intro hm
      have := (List.nodup_append.mp h).2.2 e.1 hm e.1 (by simp)
      exact this rfl
    rw [List.foldl_cons, imInsert_new hn, ih]
    · simp
    · simpa using h

theorem imGet_mem {m : List (DataId × Nat)} (h : (m.map (·.1)).Nodup) {k : DataId} {v : Nat}
    (hk : (k, v) ∈ m) : imGet m k = some v := by
  induction m with
  | nil => cases hk
  | cons e m ih =>
    simp only [List.map_cons, List.nodup_cons] at h
    rcases List.mem_cons.mp hk with rfl | hk
    · simp [imGet]
    · have hne : e.1 ≠ k := by
        intro he
        exact h.1 (he ▸ List.mem_map.mpr ⟨(k, v), hk, rfl⟩)
      have := ih h.2 hk
      unfold imGet at this ⊢
      rw [List.find?_cons_of_neg (by simpa using hne)]
      exact this

theorem imGet_none {m : List (DataId × Nat)} {k : DataId} (h : k ∉ m.map (·.1)) :
    imGet m k = none := by
  unfold imGet
  rw [Option.map_eq_none_iff, List.find?_eq_none]
  intro e he hk
  simp only [beq_iff_eq] at hk
  exact h (hk ▸ List.mem_map.mpr ⟨e, he, rfl⟩)

theorem recAddrs_getElem {R a : Nat} {ps : List (Ref T)} {i : Nat} {p : Ref T} (h : ps[i]? = some p) :
    (p.origin, a + i * R + 12) ∈ recAddrs R a ps := by
  induction ps generalizing a i with
  | nil => simp at h
  | cons q ps ih =>
    cases i with
    | zero =>
      simp only [List.getElem?_cons_zero, Option.some.injEq] at h
      subst h
      simp [recAddrs]
    | succ i =>
      have := ih (a := a + R) (i := i) (by simpa using h)
      rw [recAddrs]
      refine List.mem_cons_of_mem _ ?_
      have e : a + (i + 1) * R + 12 = a + R + i * R + 12 := by rw [Nat.succ_mul]; omega
      rw [e]; exact this

theorem flatMap_length_const {α : Type} {f : α → Bytes} {R : Nat} {l : List α}
    (h : ∀ a ∈ l, (f a).length = R) : (l.flatMap f).length = l.length * R := by
  induction l with
  | nil => simp
  | cons a l ih =>
    rw [List.flatMap_cons, List.length_append, h a (by simp), ih (fun b hb => h b (by simp [hb])),
      List.length_cons, Nat.succ_mul, Nat.add_comm]

section
variable {ty : Ty T} {h : Hnsw T}

/-- the map of the file of a dump -/
def dumpMap (ty : Ty T) (h : Hnsw T) (td : Bytes) : DataMap where
  bytes := (dataHeader h.idx ++ h.idx.points.flatMap (pointDataBytes ty)) ++ td
  hmap := (recAddrs (20 + getDataDimension h.idx * ty.size) 12 h.idx.points).foldl
    (fun m e => imInsert m e.1 e.2) []
  tName := ty.name
  dim := getDataDimension h.idx
  distName := h.distName

theorem dataHeader_length (s : Idx T) : (dataHeader s).length = 12 := by simp [dataHeader]

theorem HDumpable.dimSize (hd : HDumpable ty h) (hT : ty.Lawful) :
    getDataDimension h.idx * ty.size < 2 ^ 64 := by
  unfold getDataDimension
  cases he : h.idx.entry with
  | none => simp
  | some e =>
    have := (hd.vec e (hd.idx.ok.entry e he)).1
    rwa [Ty.encVec_length hT] at this

theorem pointData_length {p : Ref T} (hT : ty.Lawful) :
    (pointDataBytes ty p).length = 20 + p.data.length * ty.size := by
  simp [pointDataBytes, Ty.encVec_length hT]; omega

theorem fromDump_eq (hT : ty.Lawful) (hd : HDumpable ty h) (hu : SameDim h.idx) {fs : Dir}
    {base : String} {tg td : Bytes} (hf : FilesAt ty h fs base tg td)
    (htd : td.length < 20 + getDataDimension h.idx * ty.size) {ty' : Ty T'}
    (hname : ty'.name = ty.name) (hsize : ty'.size = ty.size) :
    DataMap.fromDump ty' fs base = .ok (dumpMap ty h td) := by
  obtain ⟨e, he⟩ := Option.ne_none_iff_exists'.mp hd.idx.entry
  have hdim := hd.dim_lt
  have h64 := hd.dimSize hT
  unfold DataMap.fromDump
  rw [hf.graph, hf.data, hd.dump he]
  have hp := hd.parses_descr (idxGraphBytes h.idx e ++ tg)
  simp only [List.append_assoc] at hp ⊢
  rw [hp]
  have hb : dataHeader h.idx ++ (h.idx.points.flatMap (pointDataBytes ty) ++ td) =
      leBytes 4 magicDataP ++ (leBytes 8 (getDataDimension h.idx) ++
        (h.idx.points.flatMap (pointDataBytes ty) ++ td)) := by
    simp [dataHeader]
  have s1 := sliceAt_mid [] (leBytes 4 magicDataP) (leBytes 8 (getDataDimension h.idx) ++
    (h.idx.points.flatMap (pointDataBytes ty) ++ td)) (a := 0) (n := 4) rfl (by simp)
  have s2 := sliceAt_mid (leBytes 4 magicDataP) (leBytes 8 (getDataDimension h.idx))
    (h.idx.points.flatMap (pointDataBytes ty) ++ td) (a := 4) (n := 8) (by simp) (by simp)
  rw [List.nil_append, ← hb] at s1
  rw [← hb] at s2
  have hv : (h.rdescr ty).version = 4 := rfl
  have ht : (h.rdescr ty).tName = ty.name := rfl
  have hdn : (h.rdescr ty).distName = h.distName := rfl
  have hR : ((dataHeader h.idx ++ (h.idx.points.flatMap (pointDataBytes ty) ++ td)).length - 12) /
      (20 + getDataDimension h.idx * ty.size) = h.idx.points.length := by
    rw [List.length_append, List.length_append, dataHeader_length,
      flatMap_length_const (R := 20 + getDataDimension h.idx * ty.size)
        (fun p hp => by rw [pointData_length hT, hu p hp])]
    rw [Nat.add_sub_cancel_left, Nat.mul_comm, Nat.mul_add_div (by omega),
      Nat.div_eq_of_lt htd, Nat.add_zero]
  have hm := mapRecords_eq (m := []) hT (ps := h.idx.points) (dim := getDataDimension h.idx)
    (pre := dataHeader h.idx) (post := td) (fun p hp => ⟨hu p hp, h64⟩)
  rw [dataHeader_length] at hm
  simp only [hv, ht, hdn, hname, hsize, Nat.reduceLeDiff, ne_eq, not_true, if_false, s1, s2, bind,
    Except.bind, ofLE_leBytes (k := 4) (n := magicDataP) (by decide),
    ofLE_leBytes (k := 8) (n := getDataDimension h.idx) (by omega), hd.dim_eq, hR, hm]
  simp [dumpMap, List.append_assoc]

theorem dumpMap_hmap (hi : DistinctIds h.idx) (td : Bytes) :
    (dumpMap ty h td).hmap = recAddrs (20 + getDataDimension h.idx * ty.size) 12 h.idx.points := by
  unfold dumpMap
  simp only
  rw [foldl_imInsert]
  · simp
  · rw [List.nil_append, recAddrs_keys]; exact hi

/-- a point in the middle of the data file -/
theorem data_split (hT : ty.Lawful) (hu : SameDim h.idx) {i : Nat} {p : Ref T}
    (hp : h.idx.points[i]? = some p) (td : Bytes) :
    ∃ pre post, (dumpMap ty h td).bytes = pre ++ (leBytes 8 (ty.encVec p.data).length ++
      (ty.encVec p.data ++ post)) ∧
      pre.length = 12 + i * (20 + getDataDimension h.idx * ty.size) + 12 := by
  have hi := (List.getElem?_eq_some_iff.mp hp).1
  have hsplit : h.idx.points = h.idx.points.take i ++ p :: h.idx.points.drop (i + 1) := by
    have := (List.getElem?_eq_some_iff.mp hp).2
    rw [← this, List.getElem_cons_drop, List.take_append_drop]
  refine ⟨dataHeader h.idx ++ (h.idx.points.take i).flatMap (pointDataBytes ty) ++
      leBytes 4 magicDataP ++ leBytes 8 p.origin.toNat,
    (h.idx.points.drop (i + 1)).flatMap (pointDataBytes ty) ++ td, ?_, ?_⟩
  · unfold dumpMap
    simp only
    conv => lhs; rw [hsplit]
    have hpd : pointDataBytes ty p = leBytes 4 magicDataP ++ leBytes 8 p.origin.toNat ++
      leBytes 8 (ty.encVec p.data).length ++ ty.encVec p.data := rfl
    rw [List.flatMap_append, List.flatMap_cons, hpd]
    simp only [List.append_assoc]
  · simp only [List.length_append, dataHeader_length, leBytes_length]
    rw [flatMap_length_const (R := 20 + getDataDimension h.idx * ty.size)]
    · rw [List.length_take, Nat.min_eq_left (Nat.le_of_lt hi)]
    · intro q hq
      have : Stored h.idx q := List.mem_of_mem_take hq
      rw [pointData_length hT, hu q this]

theorem getData_eq (hT : ty.Lawful) (hu : SameDim h.idx) (hi : DistinctIds h.idx) {p : Ref T}
    (hp : Stored h.idx p) (td : Bytes) :
    (dumpMap ty h td).getData ty p.origin = .ok (some p.data) := by
  obtain ⟨i, hlt, hi'⟩ := List.mem_iff_getElem.mp hp
  have hpi : h.idx.points[i]? = some p := by rw [List.getElem?_eq_getElem hlt, hi']
  obtain ⟨pre, post, hb, hl⟩ := data_split hT hu hpi td
  have ha : imGet (dumpMap ty h td).hmap p.origin = some pre.length := by
    rw [dumpMap_hmap hi]
    refine imGet_mem (by rw [recAddrs_keys]; exact hi) ?_
    rw [hl]
    exact recAddrs_getElem hpi
  unfold DataMap.getData
  rw [ha, hb]
  have s1 := sliceAt_mid pre (leBytes 8 (ty.encVec p.data).length) (ty.encVec p.data ++ post)
    (a := pre.length) (n := 8) rfl (by simp)
  have hdim : (dumpMap ty h td).dim = p.data.length := (hu p hp).symm
  simp only [s1, bind, Except.bind, hdim]
  rw [if_neg]
  · have : (pre ++ (leBytes 8 (ty.encVec p.data).length ++ (ty.encVec p.data ++ post))).drop
        (pre.length + 8) = ty.encVec p.data ++ post := by
      rw [← List.append_assoc, List.drop_left']
      simp
    rw [this, Ty.decVec_encVec hT]
  · simp [Ty.encVec_length hT]; omega

end
end Verif
