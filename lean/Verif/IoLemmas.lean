import Verif.BytesLemmas
import Verif.Api
import Verif.Spec

set_option autoImplicit false

/-!
# Reading back a dump
-/

namespace Verif
variable {T T' : Type}

/-! ## Strings and header -/

theorem fromUTF8_strBytes (s : String) : String.fromUTF8? ⟨(strBytes s).toArray⟩ = some s := by
  have h : (⟨(strBytes s).toArray⟩ : ByteArray) = s.toUTF8 := by simp [strBytes]
  rw [h]
  unfold String.fromUTF8?
  simp
  exact ⟨s.isValidUTF8, rfl⟩

theorem parses_loadStr {s : String} (h : (strBytes s).length ≤ 256) :
    Parses loadStr (dumpStr s) s := by
  unfold loadStr dumpStr
  refine (parses_readNat .err (by omega)).bind ?_
  refine (Parses.require (by simpa using h)).bind_nil ?_
  refine (parses_readExact .err _).map ?_
  rw [fromUTF8_strBytes]
  exact Parses.pure s

/-- the header as format 2 or 3 had it: the magic number of the format, no scale -/
def Descr.oldBytes (d : Descr) (magic : Nat) : Bytes :=
  leBytes 4 magic ++ [d.mode] ++ [d.maxNb] ++ [d.nbLayer] ++ d.tailBytes

theorem UInt8.ofNat_toNat' (x : UInt8) : UInt8.ofNat x.toNat = x := by simp

theorem UInt64.lt_pow (x : UInt64) : x.toNat < 256 ^ 8 := by
  have := x.toNat_lt; omega

theorem parses_loadDescr {d : Descr} {full : Bool} (h1 : (strBytes d.distName).length ≤ 256)
    (h2 : (strBytes d.tName).length ≤ 256) :
    Parses loadDescr (d.headBytes full ++ d.tailBytes)
      { d with version := 4, mode := modeByte full } := by
  unfold loadDescr loadScale Descr.headBytes Descr.tailBytes
  simp only [List.append_assoc]
  refine (parses_readNat .err (by decide)).bind ?_
  have hv : versionOf magicDescr4 = some 4 := by decide
  simp only [hv, if_true]
  refine (parses_byte .err _).bind ?_
  refine (parses_byte .err _).bind ?_
  refine Parses.bind (a := d.scale) ((parses_readNat .err (F64.bits_lt _)).map ?_) ?_
  · rw [F64.ofRaw_bits]; exact Parses.pure _
  refine (parses_byte .err _).bind ?_
  refine (parses_readNat .err (UInt64.lt_pow _)).bind ?_
  refine (parses_readNat .err (UInt64.lt_pow _)).bind ?_
  refine (parses_readNat .err (UInt64.lt_pow _)).bind ?_
  refine (parses_loadStr h1).bind ?_
  refine (parses_loadStr h2).map ?_
  simp only [UInt8.ofNat_toNat', UInt64.ofNat_toNat]
  exact Parses.pure _

theorem parses_loadDescr_old {d : Descr} {magic v : Nat} (hm : magic < 256 ^ 4)
    (hv : versionOf magic = some v) (h4 : v ≠ 4) (h1 : (strBytes d.distName).length ≤ 256)
    (h2 : (strBytes d.tName).length ≤ 256) :
    Parses loadDescr (d.oldBytes magic) { d with version := v, scale := F64.one } := by
  unfold loadDescr loadScale Descr.oldBytes Descr.tailBytes
  simp only [List.append_assoc]
  refine (parses_readNat .err hm).bind ?_
  simp only [hv, if_neg h4]
  refine (parses_byte .err _).bind ?_
  refine (parses_byte .err _).bind ?_
  refine (Parses.pure _).bind_nil ?_
  refine (parses_byte .err _).bind ?_
  refine (parses_readNat .err (UInt64.lt_pow _)).bind ?_
  refine (parses_readNat .err (UInt64.lt_pow _)).bind ?_
  refine (parses_readNat .err (UInt64.lt_pow _)).bind ?_
  refine (parses_loadStr h1).bind ?_
  refine (parses_loadStr h2).map ?_
  simp only [UInt8.ofNat_toNat', UInt64.ofNat_toNat]
  exact Parses.pure _

/-- a name of more than 256 bytes is refused -/
theorem loadStr_long {s : String} (h : 256 < (strBytes s).length) (hs : (strBytes s).length < 2 ^ 64)
    (r : Bytes) : loadStr (dumpStr s ++ r) = .error .err := by
  unfold loadStr dumpStr
  rw [List.append_assoc, Rd.bind_eq (parses_readNat .err (by omega) _)]
  have : (Rd.require (decide ((strBytes s).length ≤ 256)) .err : Rd Bytes Unit) (strBytes s ++ r) =
      .error .err := by
    rw [decide_eq_false (by omega)]
    rfl
  simp only [Bind.bind, Rd.bind, this]

/-- a header with such a name is refused -/
theorem loadDescr_long {d : Descr} {full : Bool} (h1 : (strBytes d.distName).length < 2 ^ 64)
    (h2 : (strBytes d.tName).length < 2 ^ 64)
    (h : 256 < (strBytes d.distName).length ∨ 256 < (strBytes d.tName).length) (r : Bytes) :
    loadDescr (d.headBytes full ++ d.tailBytes ++ r) = .error .err := by
  unfold loadDescr loadScale Descr.headBytes Descr.tailBytes
  simp only [List.append_assoc]
  rw [Rd.bind_eq (parses_readNat .err (by decide) _)]
  have hv : versionOf magicDescr4 = some 4 := by decide
  simp only [hv, if_true]
  rw [Rd.bind_eq (parses_byte .err _ _), Rd.bind_eq (parses_byte .err _ _)]
  rw [Rd.bind_eq (Parses.map (a := d.scale.bits) (c := d.scale) (parses_readNat .err (F64.bits_lt _))
    (by rw [F64.ofRaw_bits]; exact Parses.pure _) _)]
  rw [Rd.bind_eq (parses_byte .err _ _), Rd.bind_eq (parses_readNat .err (UInt64.lt_pow _) _),
    Rd.bind_eq (parses_readNat .err (UInt64.lt_pow _) _),
    Rd.bind_eq (parses_readNat .err (UInt64.lt_pow _) _)]
  by_cases hd : 256 < (strBytes d.distName).length
  · have := loadStr_long hd h1 (dumpStr d.tName ++ r)
    simp only [Bind.bind, Rd.bind, this]
  · rw [Rd.bind_eq (parses_loadStr (by omega) _)]
    have := loadStr_long (h.resolve_left hd) h2 r
    simp only [Bind.bind, Rd.bind, this]

/-! ## Vectors -/

theorem Ty.encVec_length {ty : Ty T} (hT : ty.Lawful) (v : List T) :
    (ty.encVec v).length = v.length * ty.size := by
  induction v with
  | nil => simp [Ty.encVec]
  | cons x v ih =>
    have : ty.encVec (x :: v) = ty.enc x ++ ty.encVec v := rfl
    rw [this, List.length_append, ih, hT.enc_len, List.length_cons, Nat.succ_mul, Nat.add_comm]

theorem Ty.decVec_encVec {ty : Ty T} (hT : ty.Lawful) (v : List T) (r : Bytes) :
    ty.decVec v.length (ty.encVec v ++ r) = v := by
  induction v with
  | nil => rfl
  | cons x v ih =>
    have : ty.encVec (x :: v) ++ r = ty.enc x ++ (ty.encVec v ++ r) := by
      simp [Ty.encVec]
    rw [this, List.length_cons, Ty.decVec]
    rw [List.take_left' (hT.enc_len x), List.drop_left' (hT.enc_len x), hT.dec_enc, ih]

/-! ## Points -/

/-- ids that fit in a dump -/
def PidFits (p : PointId) : Prop := p.layer < 256 ∧ p.rank < 2 ^ 31

theorem parses_pid {α : Type} {p : PointId} (h : PidFits p) {f : PointId → Rd Bytes α} {b : Bytes}
    {a : α} (hf : Parses (f p) b a) (e : Fail) :
    Parses (do let layer ← readNat e 1; let rank ← readNat e 4; f ⟨layer, rank⟩)
      (pidBytes p ++ b) a := by
  have hl := h.1
  have hr := h.2
  have : pidBytes p ++ b = [UInt8.ofNat p.layer] ++ (leBytes 4 p.rank ++ b) := rfl
  rw [this]
  refine (parses_byte e _).bind ?_
  refine (parses_readNat e (by omega)).bind ?_
  have : (UInt8.ofNat p.layer).toNat = p.layer := by
    rw [UInt8.toNat_ofNat']; omega
  rw [this]
  exact hf

theorem parses_loadNeighbour {n : Neighbour} (h : PidFits n.pId) :
    Parses (loadNeighbour 1) (nbBytes true n) n := by
  unfold loadNeighbour loadNbPid nbBytes
  simp only [if_true, List.append_assoc]
  refine (parses_readNat .panic (UInt64.lt_pow _)).bind ?_
  refine Parses.bind (a := n.pId) ?_ ?_
  · have := parses_pid (f := fun p => Pure.pure p) h (Parses.pure n.pId) .panic
    rwa [List.append_nil] at this
  refine (parses_readNat .panic (F32.bits_lt _)).map ?_
  rw [F32.ofRaw_bits, UInt64.ofNat_toNat]
  exact Parses.pure _

theorem parses_loadList {ns : List Neighbour} (hl : ns.length < 2 ^ 64)
    (h : ∀ n ∈ ns, PidFits n.pId) : Parses (loadList 1) (listBytes true ns) ns := by
  unfold loadList listBytes
  refine (parses_readNat .panic (by omega)).bind ?_
  exact Parses.rep fun n hn => parses_loadNeighbour (h n hn)

/-- what a point needs to be dumped faithfully -/
structure PointFits (s : Idx T) (p : Ref T) : Prop where
  pid : PidFits p.pid
  len : ∀ l, (s.nb p.pid l).length < 2 ^ 64
  nb : ∀ l, ∀ e ∈ s.nb p.pid l, PidFits e.pt.pid

theorem getNeighborhoodId_length (s : Idx T) (p : Ref T) :
    (getNeighborhoodId s p).length = nbLayerMax := by
  simp [getNeighborhoodId]

theorem parses_loadPointGraph {d : Descr} (hm : d.mode = 1) (hL : d.nbLayer.toNat = nbLayerMax)
    {s : Idx T} {p : Ref T} (h : PointFits s p) :
    Parses (loadPointGraph d) (pointGraphBytes true s p)
      (p.origin, p.pid, getNeighborhoodId s p) := by
  unfold loadPointGraph pointGraphBytes
  simp only [if_true, List.append_assoc, hm, hL]
  refine (parses_readNat .panic (by decide)).bind ?_
  refine (Parses.require (by simp)).bind_nil ?_
  refine (parses_readNat .panic (UInt64.lt_pow _)).bind ?_
  refine parses_pid (f := fun q => do
    let lists ← Rd.rep nbLayerMax (loadList 1)
    Pure.pure (UInt64.ofNat p.origin.toNat, q,
      lists ++ List.replicate (nbLayerMax - nbLayerMax) [])) h.pid ?_ .panic
  rw [← getNeighborhoodId_length s p]
  refine (Parses.rep (l := getNeighborhoodId s p) (fun ns hns => ?_)).map ?_
  · simp only [getNeighborhoodId, List.mem_map, List.mem_range] at hns
    obtain ⟨l, hl, rfl⟩ := hns
    refine parses_loadList (by simpa using h.len l) ?_
    intro n hn
    simp only [List.mem_map] at hn
    obtain ⟨e, he, rfl⟩ := hn
    exact h.nb l e he
  · rw [UInt64.ofNat_toNat, Nat.sub_self, List.replicate_zero, List.append_nil]
    exact Parses.pure _

theorem parses_readRecord (e : Fail) {ty : Ty T} {p : Ref T}
    (h : (ty.encVec p.data).length < 2 ^ 64) :
    Parses (readRecord e p.origin) (pointDataBytes ty p) (ty.encVec p.data) := by
  unfold readRecord pointDataBytes
  simp only [List.append_assoc]
  refine (parses_readNat e (by decide)).bind ?_
  refine (Parses.require (by simp)).bind_nil ?_
  refine (parses_readNat e (UInt64.lt_pow _)).bind ?_
  refine (Parses.require (by simp)).bind_nil ?_
  refine (parses_readNat e (by omega)).bind ?_
  exact parses_readExact e _

/-- a point as the reload sees it: same ids, the vector `cv p` -/
def convRef (cv : Ref T → List T') (p : Ref T) : Ref T' := ⟨p.pid, p.origin, cv p⟩

/-- a link as the reload sees it -/
def convPWO (cv : Ref T → List T') (e : PWO T) : PWO T' := ⟨convRef cv e.pt, e.dist⟩

/-- the reload finds the vector `cv p` for the point `p`, mapped or not -/
def VecLoads (ty : Ty T) (ty' : Ty T') (d : Descr) (dm : Option DataMap) (cv : Ref T → List T')
    (mm : Bool) (p : Ref T) : Prop :=
  (ty.encVec p.data).length < 2 ^ 64 ∧
  if mm then mappedVec ty' dm p.origin = .ok (cv p)
  else recordVec ty' d (ty.encVec p.data) = .ok (cv p)

theorem parses_loadPoint {ty : Ty T} {ty' : Ty T'} {d : Descr} (hm : d.mode = 1)
    (hL : d.nbLayer.toNat = nbLayerMax) {dm : Option DataMap} {mm : Bool} {cv : Ref T → List T'}
    {s : Idx T} {p : Ref T} (h : PointFits s p) (hv : VecLoads ty ty' d dm cv mm p) :
    Parses2 (loadPoint ty' d dm mm) (pointGraphBytes true s p) (pointDataBytes ty p)
      ⟨convRef cv p, getNeighborhoodId s p, mm⟩ := by
  unfold loadPoint
  have hG := (parses_loadPointGraph hm hL h).onG
  have := hG.bind (f := fun x => if mm then do
      let _ ← onD (readRecord .err x.1)
      let v ← Rd.lift (mappedVec ty' dm x.1)
      Pure.pure (⟨⟨x.2.1, x.1, v⟩, x.2.2, true⟩ : PointRec T')
    else do
      let v ← onD (loadPointData ty' d x.1)
      Pure.pure ⟨⟨x.2.1, x.1, v⟩, x.2.2, false⟩) (g' := []) (d' := pointDataBytes ty p)
    (c := ⟨convRef cv p, getNeighborhoodId s p, mm⟩) ?_
  · rw [List.append_nil, List.nil_append] at this
    exact this
  obtain ⟨h64, hv⟩ := hv
  cases mm with
  | true =>
    simp only [if_true] at hv ⊢
    refine Parses2.map (parses_readRecord .err h64).onD ?_
    refine Parses2.bind0 (Parses2.lift hv) ?_
    exact Parses2.pure _
  | false =>
    simp only [Bool.false_eq_true, if_false] at hv ⊢
    refine Parses2.map (a := cv p) ?_ (Parses2.pure _)
    refine Parses.onD ?_
    unfold loadPointData
    exact (parses_readRecord .exit h64).map (Parses.lift hv)

/-! ## Layers -/

/-- records of a list of points, the countdown being `still` -/
def recsOf (cv : Ref T → List T') (o : ReloadOptions) (s : Idx T) :
    Int → List (Ref T) → List (PointRec T')
  | _, [] => []
  | still, p :: ps =>
    ⟨convRef cv p, getNeighborhoodId s p, pointUseMmap o still⟩ :: recsOf cv o s (still - 1) ps

/-- records of the layers -/
def recsL (cv : Ref T → List T') (o : ReloadOptions) (s : Idx T) :
    Int → List (List (Ref T)) → List (List (PointRec T'))
  | _, [] => []
  | still, l :: ls => recsOf cv o s still l :: recsL cv o s (still - l.length) ls

/-- the vectors of a list of points load, the countdown being `still` -/
def VecsLoad (ty : Ty T) (ty' : Ty T') (d : Descr) (dm : Option DataMap) (cv : Ref T → List T')
    (o : ReloadOptions) : Int → List (Ref T) → Prop
  | _, [] => True
  | still, p :: ps =>
    VecLoads ty ty' d dm cv (pointUseMmap o still) p ∧ VecsLoad ty ty' d dm cv o (still - 1) ps

theorem VecsLoad.append {ty : Ty T} {ty' : Ty T'} {d : Descr} {dm : Option DataMap}
    {cv : Ref T → List T'} {o : ReloadOptions} {l l' : List (Ref T)} {still : Int} :
    VecsLoad ty ty' d dm cv o still (l ++ l') ↔
      VecsLoad ty ty' d dm cv o still l ∧ VecsLoad ty ty' d dm cv o (still - l.length) l' := by
  induction l generalizing still with
  | nil => simp [VecsLoad]
  | cons p l ih =>
    have : still - ((p :: l).length : Int) = still - 1 - l.length := by
      simp only [List.length_cons]; omega
    rw [this]
    simp only [List.cons_append, VecsLoad, ih, and_assoc]

/-- what `dumpPoints` writes when the ids are right -/
theorem dumpPoints_eq {ty : Ty T} {s : Idx T} {i : Nat} {ps : List (Ref T)} {j : Nat}
    (h : ∀ (r : Nat) (p : Ref T), ps[r]? = some p → p.pid = ⟨i, j + r⟩) :
    dumpPoints ty true s i j ps =
      ⟨ps.flatMap (pointGraphBytes true s), ps.flatMap (pointDataBytes ty), .ok ()⟩ := by
  induction ps generalizing j with
  | nil => rfl
  | cons p ps ih =>
    rw [dumpPoints, if_pos (show p.pid = ⟨i, j⟩ from h 0 p rfl), ih (j := j + 1)]
    · rfl
    · intro r q hq
      rw [h (r + 1) q (by simpa using hq)]
      congr 1; omega

/-- bytes of one layer in the graph file -/
def layerGraphBytes (s : Idx T) (l : List (Ref T)) : Bytes :=
  leBytes 4 magicLayer ++ (leBytes 8 l.length ++ l.flatMap (pointGraphBytes true s))

theorem dumpLayers_eq {ty : Ty T} {s : Idx T} {i : Nat} {ls : List (List (Ref T))}
    (h : ∀ (k : Nat) (l : List (Ref T)), ls[k]? = some l → ∀ (r : Nat) (p : Ref T), l[r]? = some p → p.pid = ⟨i + k, r⟩) :
    dumpLayers ty true s i ls =
      ⟨ls.flatMap (layerGraphBytes s), ls.flatten.flatMap (pointDataBytes ty), .ok ()⟩ := by
  induction ls generalizing i with
  | nil => rfl
  | cons l ls ih =>
    rw [dumpLayers, dumpPoints_eq (j := 0), ih (i := i + 1)]
    · simp [Out.seq, Out.graph, layerGraphBytes, List.append_assoc]
    · intro k l' hk r p hp
      rw [h (k + 1) l' (by simpa using hk) r p hp]
      congr 1; omega
    · intro r p hp
      rw [h 0 l rfl r p hp]
      simp

theorem parses_loadPoints {ty : Ty T} {ty' : Ty T'} {d : Descr} (hm : d.mode = 1)
    (hL : d.nbLayer.toNat = nbLayerMax) {dm : Option DataMap} {o : ReloadOptions}
    {cv : Ref T → List T'} {s : Idx T} {l : Nat} {ps : List (Ref T)} {r : Nat} {still : Int}
    (h : ∀ p ∈ ps, PointFits s p) (hid : ∀ (k : Nat) (p : Ref T), ps[k]? = some p → p.pid = ⟨l, r + k⟩)
    (hs : (ps.length : Int) ≤ still) (hv : VecsLoad ty ty' d dm cv o still ps) :
    Parses2 (loadPoints ty' d dm o l ps.length r still) (ps.flatMap (pointGraphBytes true s))
      (ps.flatMap (pointDataBytes ty)) (recsOf cv o s still ps, still - ps.length) := by
  induction ps generalizing r still with
  | nil =>
    have := Parses2.pure ((recsOf cv o s still [], still) : List (PointRec T') × Int)
    simpa [loadPoints, recsOf] using this
  | cons p ps ih =>
    have hp := hid 0 p rfl
    simp only [List.length_cons] at hs
    simp only [List.length_cons, loadPoints, List.flatMap_cons, recsOf]
    refine (parses_loadPoint hm hL (h p (by simp)) hv.1).bind ?_
    refine Parses2.bind0 (Parses2.require ?_) ?_
    · simp [convRef, hp]
    refine Parses2.bind0 (Parses2.require ?_) ?_
    · have := (h p (by simp)).pid.2
      simp [convRef, hp] at this ⊢
      omega
    refine Parses2.bind0 (Parses2.require ?_) ?_
    · simp; omega
    have := ih (r := r + 1) (still := still - 1) (fun q hq => h q (by simp [hq])) (fun k q hq => by
      rw [hid (k + 1) q (by simpa using hq)]; congr 1; omega) (by omega) hv.2
    refine Parses2.map this ?_
    have e : still - 1 - (ps.length : Int) = still - ((ps.length + 1 : Nat) : Int) := by omega
    rw [e]
    exact Parses2.pure _

theorem parses_loadLayers {ty : Ty T} {ty' : Ty T'} {d : Descr} (hm : d.mode = 1)
    (hL : d.nbLayer.toNat = nbLayerMax) {dm : Option DataMap} {o : ReloadOptions}
    {cv : Ref T → List T'} {s : Idx T} {i : Nat} {ls : List (List (Ref T))} {still : Int}
    (h : ∀ l ∈ ls, l.length < 2 ^ 64 ∧ ∀ p ∈ l, PointFits s p)
    (hid : ∀ (k : Nat) (l : List (Ref T)), ls[k]? = some l → ∀ (r : Nat) (p : Ref T), l[r]? = some p → p.pid = ⟨i + k, r⟩)
    (hs : (ls.flatten.length : Int) ≤ still) (hv : VecsLoad ty ty' d dm cv o still ls.flatten) :
    Parses2 (loadLayers ty' d dm o ls.length i still) (ls.flatMap (layerGraphBytes s))
      (ls.flatten.flatMap (pointDataBytes ty)) (recsL cv o s still ls) := by
  induction ls generalizing i still with
  | nil => exact Parses2.pure _
  | cons l ls ih =>
    simp only [List.flatten_cons, List.length_append] at hs
    rw [List.flatten_cons, VecsLoad.append] at hv
    simp only [List.length_cons, loadLayers, List.flatMap_cons, List.flatten_cons,
      List.flatMap_append, recsL, layerGraphBytes, List.append_assoc]
    refine Parses2.bindG (parses_readNat .err (by decide)).onG ?_
    refine Parses2.bind0 (Parses2.require (by simp)) ?_
    have hl := (h l (by simp)).1
    refine Parses2.bindG (parses_readNat .err (by omega)).onG ?_
    have hp := parses_loadPoints (l := i) (r := 0) hm hL (h l (by simp)).2 (fun k p hk => by
      rw [hid 0 l rfl k p hk]; simp) (by omega) hv.1
    refine hp.bind ?_
    refine Parses2.map (ih (i := i + 1) (fun l' hl' => h l' (by simp [hl'])) (fun k l' hk r p hr => by
      rw [hid (k + 1) l' (by simpa using hk) r p hr]; congr 1; omega) (by omega) hv.2) ?_
    exact Parses2.pure _

/-! ## Links -/

theorem mapE_eq {α β : Type} {f : α → Except Fail β} {g : α → β} {l : List α}
    (h : ∀ a ∈ l, f a = .ok (g a)) : mapE f l = .ok (l.map g) := by
  induction l with
  | nil => rfl
  | cons a l ih =>
    rw [mapE, h a (by simp), ih (fun b hb => h b (by simp [hb]))]
    rfl

theorem recsOf_pt (cv : Ref T → List T') (o : ReloadOptions) (s : Idx T) (still : Int)
    (ps : List (Ref T)) : (recsOf cv o s still ps).map (·.pt) = ps.map (convRef cv) := by
  induction ps generalizing still with
  | nil => rfl
  | cons p ps ih => simp [recsOf, ih]

theorem recsL_pt (cv : Ref T → List T') (o : ReloadOptions) (s : Idx T) (still : Int)
    (ls : List (List (Ref T))) :
    (recsL cv o s still ls).map (fun l => l.map (·.pt)) = ls.map (fun l => l.map (convRef cv)) := by
  induction ls generalizing still with
  | nil => rfl
  | cons l ls ih => simp [recsL, ih, recsOf_pt]

theorem recsOf_lists (cv : Ref T → List T') (o : ReloadOptions) (s : Idx T) (still : Int)
    (ps : List (Ref T)) :
    (recsOf cv o s still ps).map (·.lists) = ps.map (getNeighborhoodId s) := by
  induction ps generalizing still with
  | nil => rfl
  | cons p ps ih => simp [recsOf, ih]

theorem recsL_lists (cv : Ref T → List T') (o : ReloadOptions) (s : Idx T) (still : Int)
    (ls : List (List (Ref T))) :
    (recsL cv o s still ls).map (fun l => l.map (·.lists)) =
      ls.map (fun l => l.map (getNeighborhoodId s)) := by
  induction ls generalizing still with
  | nil => rfl
  | cons l ls ih => simp [recsL, ih, recsOf_lists]

theorem recsOf_mapped (cv : Ref T → List T') (o : ReloadOptions) (s : Idx T) (still : Int)
    (ps : List (Ref T)) :
    (recsOf cv o s still ps).map (·.mapped) =
      (List.range ps.length).map fun i => pointUseMmap o (still - (i : Nat)) := by
  induction ps generalizing still with
  | nil => rfl
  | cons p ps ih =>
    rw [recsOf, List.map_cons, ih, List.length_cons, List.range_succ_eq_map, List.map_cons,
      List.map_map]
    congr 1
    · simp
    · apply List.map_congr_left
      intro i _
      simp only [Function.comp]
      congr 1; omega

theorem recsL_flatten (cv : Ref T → List T') (o : ReloadOptions) (s : Idx T) (still : Int)
    (ls : List (List (Ref T))) :
    (recsL cv o s still ls).flatten = recsOf cv o s still ls.flatten := by
  have happ : ∀ (a b : List (Ref T)) (st : Int),
      recsOf cv o s st (a ++ b) = recsOf cv o s st a ++ recsOf cv o s (st - a.length) b := by
    intro a
    induction a with
    | nil => intro b st; simp [recsOf]
    | cons p a ih =>
      intro b st
      rw [List.cons_append, recsOf, ih, recsOf, List.cons_append]
      congr 3
      simp only [List.length_cons]; omega
  induction ls generalizing still with
  | nil => rfl
  | cons l ls ih => rw [recsL, List.flatten_cons, ih, List.flatten_cons, happ]

theorem resolve_conv {cv : Ref T → List T'} {ls : List (List (Ref T))} {p : Ref T}
    (hr : p.pid.rank < 2 ^ 31)
    (h : (ls[p.pid.layer]?).bind (fun l => l[p.pid.rank]?) = some p) :
    resolve (ls.map (fun l => l.map (convRef cv))) p.pid = .ok (convRef cv p) := by
  unfold resolve
  rw [if_pos hr]
  have : ((ls.map (fun l => l.map (convRef cv)))[p.pid.layer]?).bind (fun l => l[p.pid.rank]?) =
      some (convRef cv p) := by
    rw [List.getElem?_map]
    cases hl : ls[p.pid.layer]? with
    | none => rw [hl] at h; cases h
    | some l =>
      rw [hl] at h
      simp only [Option.bind_some] at h
      simp [h]
  rw [this]

theorem linkList_eq {P : Policy T'} (L : P.Lawful) {cv : Ref T → List T'} {ls : List (List (Ref T))}
    {es : List (PWO T)} (hn : ∀ e ∈ es, e.dist.isNaN = false)
    (h : ∀ e ∈ es, e.pt.pid.rank < 2 ^ 31 ∧
      (ls[e.pt.pid.layer]?).bind (fun l => l[e.pt.pid.rank]?) = some e.pt) :
    linkList P (ls.map (fun l => l.map (convRef cv))) (es.map neighbourOf) =
      .ok (P.sort (es.map (convPWO cv))) := by
  unfold linkList
  have h1 : mapE (fun n => do
      let q ← resolve (ls.map (fun l => l.map (convRef cv))) n.pId
      .ok (⟨q, n.distance⟩ : PWO T')) (es.map neighbourOf) = .ok (es.map (convPWO cv)) := by
    have : es.map (convPWO cv) = (es.map neighbourOf).map (fun n =>
        match resolve (ls.map (fun l => l.map (convRef cv))) n.pId with
        | .ok q => (⟨q, n.distance⟩ : PWO T')
        | .error _ => ⟨⟨⟨0, 0⟩, 0, []⟩, n.distance⟩) := by
      rw [List.map_map]
      apply List.map_congr_left
      intro e he
      have := resolve_conv (cv := cv) (h e he).1 (h e he).2
      simp only [Function.comp, neighbourOf, this]
      rfl
    rw [this]
    apply mapE_eq
    intro n hn
    simp only [List.mem_map] at hn
    obtain ⟨e, he, rfl⟩ := hn
    have := resolve_conv (cv := cv) (h e he).1 (h e he).2
    simp only [neighbourOf, this]
    rfl
  rw [h1]
  simp only [bind, Except.bind]
  have h2 : P.sortC (es.map (convPWO cv)) = .ok (P.sort (es.map (convPWO cv))) := by
    apply L.sortC_legal
    intro x hx
    obtain ⟨e, he, rfl⟩ := List.mem_map.1 hx
    exact hn e he
  rw [h2]

/-- The part of the structural invariants a dump and a reload depend on: ids are positions, links belong to
points and lead to points, lists are sorted and have no NaN, their lengths are of type usize. -/
structure Coherent (s : Idx T) : Prop where
  ids : ∀ (l r : Nat) (p : Ref T), (s.layer l)[r]? = some p → p.pid = ⟨l, r⟩
  few : s.layers.length ≤ nbLayerMax
  owner : ∀ p l, s.nb p l ≠ [] → ∃ o, Stored s o ∧ o.pid = p
  lay : ∀ p l, s.nb p l ≠ [] → l < nbLayerMax
  stored : ∀ p l, ∀ e ∈ s.nb p l, Stored s e.pt
  num : ∀ p l, ∀ e ∈ s.nb p l, e.dist.isNaN = false
  sorted : ∀ p l, (s.nb p l).Pairwise (fun a b => a.dist.key ≤ b.dist.key)
  fit : ∀ p l, (s.nb p l).length < 2 ^ 64
  entry : ∀ e, s.entry = some e → Stored s e

theorem IdxOK.coherent {cfg : Cfg T} {s : Idx T} (h : IdxOK cfg s) (hl : cfg.maxLayer ≤ nbLayerMax)
    (hc : cfg.maxNb ≤ 256) : Coherent s where
  ids := h.tab.ids
  few := by rw [h.tab.len]; exact hl
  owner := h.owner
  lay := fun p l hn => Nat.lt_of_lt_of_le (h.lay p l hn) hl
  stored := h.stored
  num := fun p l e he => (h.legal p l e he).1
  sorted := h.sorted
  fit := fun p l => by
    have := h.bound p l
    have hb : degreeBound cfg l ≤ 512 := by
      unfold degreeBound; split <;> omega
    omega
  entry := h.entry

/-- What is needed of an index to be dumped faithfully: it is coherent, was made for 16 layers, has an entry
point, and its sizes fit in the fields of the files. -/
structure Dumpable (cfg : Cfg T) (s : Idx T) : Prop where
  ok : Coherent s
  count : s.nbPoint = s.points.length
  layers : cfg.maxLayer = nbLayerMax
  entry : s.entry ≠ none
  ranks : ∀ l ∈ s.layers, l.length < 2 ^ 31

section
variable {cfg : Cfg T} {s : Idx T}

theorem layer_eq {s : Idx T} {l : Nat} {ps : List (Ref T)} (h : s.layers[l]? = some ps) :
    s.layer l = ps := by simp [Idx.layer, h]

theorem Dumpable.lookup (h : Dumpable cfg s) {p : Ref T} (hp : Stored s p) :
    p.pid.rank < 2 ^ 31 ∧ p.pid.layer < nbLayerMax ∧
      (s.layers[p.pid.layer]?).bind (fun l => l[p.pid.rank]?) = some p := by
  unfold Stored Idx.points at hp
  rw [List.mem_flatten] at hp
  obtain ⟨ps, hps, hp⟩ := hp
  obtain ⟨l, hl, hl'⟩ := List.mem_iff_getElem.mp hps
  obtain ⟨r, hr, hr'⟩ := List.mem_iff_getElem.mp hp
  have e1 : s.layers[l]? = some ps := by rw [List.getElem?_eq_getElem hl, hl']
  have e2 : ps[r]? = some p := by rw [List.getElem?_eq_getElem hr, hr']
  have := h.ok.ids l r p (by rw [layer_eq e1]; exact e2)
  have hlen := h.ok.few
  refine ⟨?_, ?_, ?_⟩
  · rw [this]; exact Nat.lt_trans hr (h.ranks ps hps)
  · rw [this]; exact Nat.lt_of_lt_of_le hl hlen
  · rw [this]; simp [e1, e2]

theorem Dumpable.fits (h : Dumpable cfg s) {p : Ref T} (hp : Stored s p) : PointFits s p := by
  have hf : ∀ q, Stored s q → PidFits q.pid := fun q hq =>
    have := h.lookup hq
    ⟨by have := this.2.1; simp [nbLayerMax] at this; omega, this.1⟩
  exact ⟨hf p hp, fun l => h.ok.fit p.pid l, fun l e he => hf _ (h.ok.stored _ _ e he)⟩

theorem Dumpable.lens (h : Dumpable cfg s) : s.layers.length ≤ nbLayerMax := h.ok.few

theorem Dumpable.lens_byte (h : Dumpable cfg s) :
    (UInt8.ofNat s.layers.length).toNat = s.layers.length := by
  have := h.lens
  rw [UInt8.toNat_ofNat']; simp [nbLayerMax] at this; omega

theorem flatten_length_le {α : Type} {ls : List (List α)} {b : Nat} (h : ∀ l ∈ ls, l.length ≤ b) :
    ls.flatten.length ≤ ls.length * b := by
  induction ls with
  | nil => simp
  | cons l ls ih =>
    have h1 := h l (by simp)
    have h2 := ih (fun x hx => h x (by simp [hx]))
    simp only [List.flatten_cons, List.length_append, List.length_cons, Nat.succ_mul]
    omega

theorem Dumpable.total (h : Dumpable cfg s) : s.points.length < 2 ^ 63 := by
  have := flatten_length_le (ls := s.layers) (b := 2 ^ 31) fun l hl => Nat.le_of_lt (h.ranks l hl)
  have hl := h.lens
  unfold Idx.points
  simp only [nbLayerMax] at hl
  have := Nat.le_trans this (Nat.mul_le_mul_right _ hl)
  omega

theorem Dumpable.ids (h : Dumpable cfg s) {k : Nat} {l : List (Ref T)} (hl : s.layers[k]? = some l)
    {r : Nat} {p : Ref T} (hp : l[r]? = some p) : p.pid = ⟨k, r⟩ :=
  h.ok.ids k r p (by rw [layer_eq hl]; exact hp)

/-- bytes written for the points: graph file and data file -/
def idxGraphBytes (s : Idx T) (e : Ref T) : Bytes :=
  [UInt8.ofNat s.layers.length] ++ (s.layers.flatMap (layerGraphBytes s) ++
    (leBytes 8 e.origin.toNat ++ pidBytes e.pid))

theorem Dumpable.dumpIdx (h : Dumpable cfg s) {e : Ref T} (he : s.entry = some e) (ty : Ty T) :
    dumpIdx ty true s = ⟨idxGraphBytes s e, s.points.flatMap (pointDataBytes ty), .ok ()⟩ := by
  unfold Verif.dumpIdx
  rw [dumpLayers_eq (i := 0) (fun k l hk r p hp => by rw [h.ids hk hp]; simp), dumpEntry, he]
  simp [Out.seq, Out.graph, idxGraphBytes, Idx.points]

/-- the index a reload makes: `cv` gives the vectors, lists are sorted again -/
def reloaded (P : Policy T') (cv : Ref T → List T') (s : Idx T) : Idx T' where
  layers := s.layers.map fun l => l.map (convRef cv)
  nb := fun p l => P.sort ((s.nb p l).map (convPWO cv))
  nbPoint := s.nbPoint
  entry := s.entry.map (convRef cv)

theorem sort_nil {P : Policy T'} (L : P.Lawful) : P.sort [] = [] :=
  List.perm_nil.mp (L.sort_perm [])

theorem parses_loadIndexation {P : Policy T'} (L : P.Lawful) {ty : Ty T} {ty' : Ty T'} {d : Descr}
    (hm : d.mode = 1) (hL : d.nbLayer.toNat = nbLayerMax) {dm : Option DataMap} {o : ReloadOptions}
    {cv : Ref T → List T'} (h : Dumpable cfg s) {e : Ref T} (he : s.entry = some e)
    (hn : d.nbPoint.toNat = s.nbPoint) (hname : ty'.noData = true ∨ ty'.name = d.tName)
    (hv : VecsLoad ty ty' d dm cv o s.nbPoint s.points) :
    Parses2 (loadIndexation P ty' d dm o) (idxGraphBytes s e)
      (s.points.flatMap (pointDataBytes ty))
      (reloaded P cv s, (List.range s.points.length).map fun i => pointUseMmap o ((s.nbPoint : Int) - (i : Nat))) := by
  have htot := h.total
  have hcnt := h.count
  have has : asI64 d.nbPoint.toNat = s.nbPoint := by
    unfold asI64; rw [hn, if_pos (by omega)]
  have hlen : (UInt8.ofNat s.layers.length).toNat = s.layers.length := h.lens_byte
  unfold loadIndexation idxGraphBytes
  refine Parses2.bind0 (Parses2.require ?_) ?_
  · rcases hname with hx | hx <;> simp [hx]
  refine Parses2.bindG (parses_byte .err _).onG ?_
  refine Parses2.bind0 (Parses2.require ?_) ?_
  · rw [hlen]; have := h.lens; simpa using this
  rw [hlen, has]
  have hLay := parses_loadLayers (i := 0) hm hL (fun l hl => ⟨by have := h.ranks l hl; omega,
    fun p hp => h.fits (List.mem_flatten.mpr ⟨l, hl, hp⟩)⟩)
    (fun k l hk r p hp => by rw [h.ids hk hp]; simp) (still := (s.nbPoint : Int))
    (by unfold Idx.points at hcnt; omega) hv
  have hbind := hLay.bind (f := fun recs => do
      let layers := recs.map fun l => l.map (·.pt)
      let tbl ← Rd.lift (mapE (fun l => mapE (fun r => linkPoint P layers r.lists) l) recs)
      let _origin ← onG (readNat .err 8)
      let layer ← onG (readNat .err 1)
      let rank ← onG (readNat .err 4)
      let e ← Rd.lift (resolve layers ⟨layer, rank⟩)
      Pure.pure (mkIdx layers tbl e, recs.flatten.map (·.mapped)))
    (g' := leBytes 8 e.origin.toNat ++ pidBytes e.pid) (d' := [])
    (c := (reloaded P cv s, (List.range s.points.length).map fun i =>
      pointUseMmap o ((s.nbPoint : Int) - (i : Nat)))) ?_
  · rwa [List.append_nil] at hbind
  -- links
  have hlink : ∀ p, Stored s p →
      linkPoint P (s.layers.map fun l => l.map (convRef cv)) (getNeighborhoodId s p) =
        .ok ((List.range nbLayerMax).map fun l => P.sort ((s.nb p.pid l).map (convPWO cv))) := by
    intro p hp
    unfold linkPoint
    rw [getNeighborhoodId_length, if_neg (Nat.lt_irrefl _)]
    simp only [pure, Except.pure, bind, Except.bind]
    unfold getNeighborhoodId
    have hone : ∀ l, linkList P (s.layers.map fun l => l.map (convRef cv))
        ((s.nb p.pid l).map neighbourOf) = .ok (P.sort ((s.nb p.pid l).map (convPWO cv))) := by
      intro l
      refine linkList_eq L (fun e he => ?_) (fun e he => ?_)
      · exact h.ok.num _ _ e he
      · have := h.lookup (h.ok.stored _ _ e he)
        exact ⟨this.1, this.2.2⟩
    have : ∀ (ls : List Nat), mapE (linkList P (s.layers.map fun l => l.map (convRef cv)))
        (ls.map fun l => (s.nb p.pid l).map neighbourOf) =
        .ok (ls.map fun l => P.sort ((s.nb p.pid l).map (convPWO cv))) := by
      intro ls
      induction ls with
      | nil => rfl
      | cons l ls ih => rw [List.map_cons, mapE, hone, ih]; rfl
    exact this _
  have htbl : mapE (fun l => mapE (fun (r : PointRec T') =>
      linkPoint P (s.layers.map fun l => l.map (convRef cv)) r.lists) l)
      (recsL cv o s s.nbPoint s.layers) =
      .ok (s.layers.map fun ps => ps.map fun p =>
        (List.range nbLayerMax).map fun l => P.sort ((s.nb p.pid l).map (convPWO cv))) := by
    have h1 : ∀ (ps : List (Ref T)) (st : Int), (∀ p ∈ ps, Stored s p) →
        mapE (fun (r : PointRec T') =>
          linkPoint P (s.layers.map fun l => l.map (convRef cv)) r.lists) (recsOf cv o s st ps) =
        .ok (ps.map fun p =>
          (List.range nbLayerMax).map fun l => P.sort ((s.nb p.pid l).map (convPWO cv))) := by
      intro ps
      induction ps with
      | nil => intro st _; rfl
      | cons p ps ih =>
        intro st hs
        rw [recsOf, mapE, hlink p (hs p (by simp)), ih _ (fun q hq => hs q (by simp [hq]))]
        rfl
    have h2 : ∀ (ls : List (List (Ref T))) (st : Int), (∀ l ∈ ls, ∀ p ∈ l, Stored s p) →
        mapE (fun l => mapE (fun (r : PointRec T') =>
          linkPoint P (s.layers.map fun l => l.map (convRef cv)) r.lists) l) (recsL cv o s st ls) =
        .ok (ls.map fun ps => ps.map fun p =>
          (List.range nbLayerMax).map fun l => P.sort ((s.nb p.pid l).map (convPWO cv))) := by
      intro ls
      induction ls with
      | nil => intro st _; rfl
      | cons l ls ih =>
        intro st hs
        rw [recsL, mapE, h1 l st (hs l (by simp)), ih _ (fun q hq => hs q (by simp [hq]))]
        rfl
    exact h2 _ _ fun l hl p hp => List.mem_flatten.mpr ⟨l, hl, hp⟩
  have hes : Stored s e := h.ok.entry e he
  have hel := h.lookup hes
  simp only [recsL_pt]
  refine Parses2.bind0 (Parses2.lift htbl) ?_
  refine Parses2.bindG (parses_readNat .err (UInt64.lt_pow _)).onG ?_
  have hb : pidBytes e.pid = [UInt8.ofNat e.pid.layer] ++ leBytes 4 e.pid.rank := rfl
  rw [hb]
  refine Parses2.bindG (parses_byte .err _).onG ?_
  refine Parses2.map (parses_readNat .err (by have := hel.1; omega)).onG ?_
  have hl8 : (UInt8.ofNat e.pid.layer).toNat = e.pid.layer := by
    have := hel.2.1
    rw [UInt8.toNat_ofNat']; simp [nbLayerMax] at this; omega
  rw [hl8]
  refine Parses2.bind0 (Parses2.lift (resolve_conv (cv := cv) hel.1 hel.2.2)) ?_
  have hfin : (mkIdx (s.layers.map fun l => l.map (convRef cv))
        (s.layers.map fun ps => ps.map fun p =>
          (List.range nbLayerMax).map fun l => P.sort ((s.nb p.pid l).map (convPWO cv)))
        (convRef cv e),
        ((recsL cv o s s.nbPoint s.layers).flatten.map (·.mapped))) =
      (reloaded P cv s, (List.range s.points.length).map fun i =>
        pointUseMmap o ((s.nbPoint : Int) - (i : Nat))) := by
    congr 1
    · unfold reloaded mkIdx
      congr 1
      · funext p l
        unfold tableNb
        by_cases hst : ∃ q, Stored s q ∧ q.pid = p
        · obtain ⟨q, hq, rfl⟩ := hst
          have hq' := (h.lookup hq).2.2
          have : ((s.layers.map fun ps => ps.map fun p =>
              (List.range nbLayerMax).map fun l => P.sort ((s.nb p.pid l).map (convPWO cv)))[q.pid.layer]?).bind
              (fun x => x[q.pid.rank]?) = some ((List.range nbLayerMax).map fun l =>
                P.sort ((s.nb q.pid l).map (convPWO cv))) := by
            rw [List.getElem?_map]
            cases hc : s.layers[q.pid.layer]? with
            | none => rw [hc] at hq'; cases hq'
            | some x =>
              rw [hc] at hq'
              simp only [Option.bind_some] at hq'
              simp [hq']
          rw [this]
          by_cases hl : l < nbLayerMax
          · simp [hl]
          · have hnil : s.nb q.pid l = [] := by
              refine Classical.byContradiction fun hne => ?_
              exact hl (h.ok.lay _ _ hne)
            simp [hl, hnil, sort_nil L]
        · have hnil : s.nb p l = [] := by
            refine Classical.byContradiction fun hne => ?_
            obtain ⟨o', h1, h2⟩ := h.ok.owner _ _ hne
            exact hst ⟨o', h1, h2⟩
          have : ((s.layers.map fun ps => ps.map fun p =>
              (List.range nbLayerMax).map fun l => P.sort ((s.nb p.pid l).map (convPWO cv)))[p.layer]?).bind
              (fun x => x[p.rank]?) = none := by
            rw [List.getElem?_map]
            cases hc : s.layers[p.layer]? with
            | none => simp
            | some x =>
              simp only [Option.map_some, Option.bind_some, List.getElem?_map, Option.map_eq_none_iff]
              cases hx : x[p.rank]? with
              | none => rfl
              | some q =>
                exfalso
                apply hst
                refine ⟨q, List.mem_flatten.mpr ⟨x, List.mem_of_getElem? hc, List.mem_of_getElem? hx⟩, ?_⟩
                rw [h.ids hc hx]
          rw [this]
          simp [hnil, sort_nil L]
      · rw [hcnt]
        unfold Idx.points
        simp [List.length_flatten, Function.comp_def]
      · rw [he]; rfl
    · rw [recsL_flatten, recsOf_mapped]; rfl
  rw [hfin]
  exact Parses2.pure _

end
end Verif
