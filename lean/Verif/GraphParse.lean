import Verif.GraphLemmas
import Verif.IoLemmas

set_option autoImplicit false

/-!
# Files that the reload accepts
-/

namespace Verif
variable {T : Type}

theorem parses_anyHeader {d : Descr} (hv : d.version = 2 ∨ d.version = 3 ∨ d.version = 4)
    (hs : d.version ≠ 4 → d.scale = F64.one) (h1 : (strBytes d.distName).length ≤ 256)
    (h2 : (strBytes d.tName).length ≤ 256) : Parses loadDescr (anyHeader d) d := by
  obtain ⟨version, mode, maxNb, scale, nbLayer, ef, nbPoint, dim, dn, tn⟩ := d
  simp only at hv hs h1 h2
  have hm : versionOf (magicOf version) = some version ∧ magicOf version < 256 ^ 4 := by
    rcases hv with rfl | rfl | rfl <;> decide
  unfold loadDescr loadScale anyHeader Descr.tailBytes
  simp only [List.append_assoc]
  refine (parses_readNat .err hm.2).bind ?_
  simp only [hm.1]
  refine (parses_byte .err _).bind ?_
  refine (parses_byte .err _).bind ?_
  refine Parses.bind (a := scale) ?_ ?_
  · by_cases h4 : version = 4
    · rw [if_pos h4, if_pos h4]
      refine (parses_readNat .err (F64.bits_lt _)).map ?_
      rw [F64.ofRaw_bits]; exact Parses.pure _
    · rw [if_neg h4, if_neg h4, hs h4]
      exact Parses.pure _
  refine (parses_byte .err _).bind ?_
  refine (parses_readNat .err (UInt64.lt_pow _)).bind ?_
  refine (parses_readNat .err (UInt64.lt_pow _)).bind ?_
  refine (parses_readNat .err (UInt64.lt_pow _)).bind ?_
  refine (parses_loadStr h1).bind ?_
  refine (parses_loadStr h2).map ?_
  simp only [UInt8.ofNat_toNat', UInt64.ofNat_toNat]
  exact Parses.pure _

theorem parses_anyLink {mode : UInt8} {n : Neighbour} (h : PidFits n.pId) (h0 : mode ≠ 1 → n.pId = ⟨0, 0⟩) :
    Parses (loadNeighbour mode) (anyLink mode n) n := by
  unfold loadNeighbour loadNbPid anyLink anyPid
  simp only [List.append_assoc]
  refine (parses_readNat .panic (UInt64.lt_pow _)).bind ?_
  refine Parses.bind (a := n.pId) ?_ ?_
  · by_cases hm : mode = 1
    · rw [if_pos hm, if_pos hm]
      have := parses_pid (f := fun p => Pure.pure p) h (Parses.pure n.pId) .panic
      rwa [List.append_nil] at this
    · rw [if_neg hm, if_neg hm, h0 hm]
      exact Parses.pure _
  refine (parses_readNat .panic (F32.bits_lt _)).map ?_
  rw [F32.ofRaw_bits, UInt64.ofNat_toNat]
  exact Parses.pure _

/-- the lists of a point can be read back -/
def ListsFit (mode : UInt8) (lists : List (List Neighbour)) : Prop :=
  ∀ ns ∈ lists, ns.length < 2 ^ 64 ∧ ∀ n ∈ ns, PidFits n.pId ∧ (mode ≠ 1 → n.pId = ⟨0, 0⟩)

theorem parses_anyList {mode : UInt8} {ns : List Neighbour} (hl : ns.length < 2 ^ 64)
    (h : ∀ n ∈ ns, PidFits n.pId ∧ (mode ≠ 1 → n.pId = ⟨0, 0⟩)) :
    Parses (loadList mode) (anyList mode ns) ns := by
  unfold loadList anyList
  refine (parses_readNat .panic (by omega)).bind ?_
  exact Parses.rep fun n hn => parses_anyLink (h n hn).1 (h n hn).2

theorem parses_anyPoint {d : Descr} {f : FilePt} (hp : PidFits f.pid)
    (hl : f.lists.length = d.nbLayer.toNat) (hf : ListsFit d.mode f.lists) :
    Parses (loadPointGraph d) (anyPoint d.mode f)
      (f.id, f.pid, f.lists ++ List.replicate (nbLayerMax - d.nbLayer.toNat) []) := by
  unfold loadPointGraph anyPoint
  simp only [List.append_assoc]
  refine (parses_readNat .panic (by decide)).bind ?_
  refine (Parses.require (by simp)).bind_nil ?_
  refine (parses_readNat .panic (UInt64.lt_pow _)).bind ?_
  refine parses_pid (f := fun p => do
    let lists ← Rd.rep d.nbLayer.toNat (loadList d.mode)
    Pure.pure (UInt64.ofNat f.id.toNat, p, lists ++ List.replicate (nbLayerMax - d.nbLayer.toNat) []))
    hp ?_ .panic
  rw [← hl]
  refine (Parses.rep fun ns hns => parses_anyList (hf ns hns).1 (hf ns hns).2).map ?_
  rw [UInt64.ofNat_toNat]
  exact Parses.pure _

theorem parses_anyRecord (e : Fail) (id : DataId) {b : Bytes} (hb : b.length < 2 ^ 64) :
    Parses (readRecord e id) (recordBytes id b) b := by
  unfold readRecord recordBytes
  simp only [List.append_assoc]
  refine (parses_readNat e (by decide)).bind ?_
  refine (Parses.require (by simp)).bind_nil ?_
  refine (parses_readNat e (UInt64.lt_pow _)).bind ?_
  refine (Parses.require (by simp)).bind_nil ?_
  refine (parses_readNat e (by omega)).bind ?_
  exact parses_readExact e b

/-- where the vector of a point comes from: the map or the bytes of its record -/
def vecFrom (ty : Ty T) (d : Descr) (dm : Option DataMap) (mm : Bool) (id : DataId) (b : Bytes) :
    Except Fail (List T) :=
  if mm then mappedVec ty dm id else recordVec ty d b

/-- the point loaded from `f` and the bytes `b` of its record -/
def recFrom (ty : Ty T) (d : Descr) (dm : Option DataMap) (mm : Bool) (f : FilePt) (b : Bytes) : PointRec T where
  pt := ⟨f.pid, f.id, match vecFrom ty d dm mm f.id b with | .ok v => v | .error _ => []⟩
  lists := f.lists ++ List.replicate (nbLayerMax - d.nbLayer.toNat) []
  mapped := mm

/-- a record from which, or for which, a vector is found -/
def RecOk (ty : Ty T) (d : Descr) (dm : Option DataMap) (mm : Bool) (x : DataId × Bytes) : Prop :=
  x.2.length < 2 ^ 64 ∧ ∃ v, vecFrom ty d dm mm x.1 x.2 = .ok v

/-- a point that can be read back -/
def PtOk (d : Descr) (f : FilePt) : Prop :=
  PidFits f.pid ∧ f.lists.length = d.nbLayer.toNat ∧ ListsFit d.mode f.lists

theorem parses_anyLoadPoint {ty : Ty T} {d : Descr} {dm : Option DataMap} {mm : Bool} {f : FilePt} {b : Bytes}
    (hf : PtOk d f) (hb : RecOk ty d dm mm (f.id, b)) :
    Parses2 (loadPoint ty d dm mm) (anyPoint d.mode f) (recordBytes f.id b) (recFrom ty d dm mm f b) := by
  unfold loadPoint
  have h1 := (parses_anyPoint hf.1 hf.2.1 hf.2.2).onG
  have : recordBytes f.id b = [] ++ recordBytes f.id b := rfl
  rw [this, ← List.append_nil (anyPoint d.mode f)]
  refine h1.bind ?_
  obtain ⟨hl, v, hv⟩ := hb
  cases mm with
  | false =>
    simp only [Bool.false_eq_true, if_false]
    have hv' : recordVec ty d b = .ok v := hv
    have h2 : Parses (loadPointData ty d f.id) (recordBytes f.id b) v := by
      unfold loadPointData
      exact (parses_anyRecord .exit f.id hl).map (Parses.lift hv')
    refine Parses2.map h2.onD ?_
    unfold recFrom
    rw [hv]
    exact Parses2.pure _
  | true =>
    simp only [if_true]
    have hv' : mappedVec ty dm f.id = .ok v := hv
    refine Parses2.map (parses_anyRecord .err f.id hl).onD ?_
    refine (Parses2.lift hv').bind0 ?_
    unfold recFrom
    rw [hv]
    exact Parses2.pure _

/-- the points of a layer loaded from a file, `still` being left -/
def recsIn (ty : Ty T) (d : Descr) (dm : Option DataMap) (o : ReloadOptions) :
    Int → List FilePt → List (DataId × Bytes) → List (PointRec T)
  | still, f :: fs, x :: rs =>
    recFrom ty d dm (pointUseMmap o still) f x.2 :: recsIn ty d dm o (still - 1) fs rs
  | _, _, _ => []

/-- a vector is found for each record, `still` points being left -/
def RecsOk (ty : Ty T) (d : Descr) (dm : Option DataMap) (o : ReloadOptions) (still : Int)
    (rs : List (DataId × Bytes)) : Prop :=
  ∀ (i : Nat) x, rs[i]? = some x → RecOk ty d dm (pointUseMmap o (still - i)) x

theorem RecsOk.drop {ty : Ty T} {d : Descr} {dm : Option DataMap} {o : ReloadOptions} {still : Int}
    {rs : List (DataId × Bytes)} (h : RecsOk ty d dm o still rs) (n : Nat) :
    RecsOk ty d dm o (still - n) (rs.drop n) := by
  intro i x hx
  rw [List.getElem?_drop] at hx
  have := h (n + i) x hx
  have e : still - ((n + i : Nat) : Int) = still - n - i := by omega
  rwa [e] at this

theorem RecsOk.take {ty : Ty T} {d : Descr} {dm : Option DataMap} {o : ReloadOptions} {still : Int}
    {rs : List (DataId × Bytes)} (h : RecsOk ty d dm o still rs) (n : Nat) :
    RecsOk ty d dm o still (rs.take n) := by
  intro i x hx
  rw [List.getElem?_take] at hx
  split at hx
  · exact h i x hx
  · cases hx

theorem parses_anyPoints {ty : Ty T} {d : Descr} {dm : Option DataMap} {o : ReloadOptions}
    {l : Nat} {fs : List FilePt} {rs : List (DataId × Bytes)} {r : Nat} {still : Int}
    (hids : rs.map (·.1) = fs.map (·.id)) (hr : RecsOk ty d dm o still rs) (hf : ∀ f ∈ fs, PtOk d f)
    (hpid : ∀ (i : Nat) f, fs[i]? = some f → f.pid = ⟨l, r + i⟩) (hst : (fs.length : Int) ≤ still) :
    Parses2 (loadPoints ty d dm o l fs.length r still) (fs.flatMap (anyPoint d.mode)) (recordsOf rs)
      (recsIn ty d dm o still fs rs, still - fs.length) := by
  induction fs generalizing rs r still with
  | nil =>
    cases rs with
    | nil =>
      have := Parses2.pure (([] : List (PointRec T)), still)
      simpa [loadPoints, recordsOf, recsIn] using this
    | cons x rs => simp at hids
  | cons f fs ih =>
    cases rs with
    | nil => simp at hids
    | cons x rs =>
      simp only [List.map_cons, List.cons.injEq] at hids
      simp only [List.length_cons] at hst
      have hp0 := hpid 0 f rfl
      have hfit := (hf f (by simp)).1
      have hx := hr 0 x rfl
      simp only [Int.natCast_zero, Int.sub_zero] at hx
      have h1 := parses_anyLoadPoint (dm := dm) (b := x.2) (hf f (by simp)) (by rw [← hids.1]; exact hx)
      rw [← hids.1] at h1
      have hrest := ih (r := r + 1) (still := still - 1) hids.2 (hr.drop 1)
        (fun y hy => hf y (by simp [hy]))
        (fun i g hg => by rw [hpid (i + 1) g (by simpa using hg)]; congr 1; omega) (by omega)
      simp only [List.length_cons, loadPoints, List.flatMap_cons]
      have hrec : recordsOf (x :: rs) = recordBytes x.1 x.2 ++ recordsOf rs := rfl
      rw [hrec]
      refine h1.bind ?_
      refine (Parses2.require ?_).bind0 ?_
      · simp [recFrom, hp0]
      refine (Parses2.require ?_).bind0 ?_
      · have h2 := hfit.2
        rw [hp0] at h2
        simp [recFrom, hp0]
        simpa using h2
      refine (Parses2.require ?_).bind0 ?_
      · simp; omega
      refine Parses2.map hrest ?_
      have he : still - 1 - (fs.length : Int) = still - ((fs.length + 1 : Nat) : Int) := by omega
      simp only [recsIn, he]
      exact Parses2.pure _

/-- the points loaded from a file, `still` being left -/
def recsFrom (ty : Ty T) (d : Descr) (dm : Option DataMap) (o : ReloadOptions) :
    Int → List (List FilePt) → List (DataId × Bytes) → List (List (PointRec T))
  | _, [], _ => []
  | still, fs :: ls, rs =>
    recsIn ty d dm o still fs (rs.take fs.length) ::
      recsFrom ty d dm o (still - fs.length) ls (rs.drop fs.length)

theorem parses_anyLayers {ty : Ty T} {d : Descr} {dm : Option DataMap} {o : ReloadOptions}
    {l : Nat} {ls : List (List FilePt)} {rs : List (DataId × Bytes)} {still : Int}
    (hids : rs.map (·.1) = ls.flatten.map (·.id)) (hr : RecsOk ty d dm o still rs)
    (hf : ∀ fs ∈ ls, fs.length < 2 ^ 64 ∧ ∀ f ∈ fs, PtOk d f)
    (hpid : ∀ (j i : Nat) fs f, ls[j]? = some fs → fs[i]? = some f → f.pid = ⟨l + j, i⟩)
    (hst : (ls.flatten.length : Int) ≤ still) :
    Parses2 (loadLayers ty d dm o ls.length l still) (ls.flatMap (anyLayer d.mode)) (recordsOf rs)
      (recsFrom ty d dm o still ls rs) := by
  induction ls generalizing rs l still with
  | nil =>
    cases rs with
    | nil => exact Parses2.pure _
    | cons x rs => simp at hids
  | cons fs ls ih =>
    have hids1 : (rs.take fs.length).map (·.1) = fs.map (·.id) := by
      rw [List.map_take, hids, List.flatten_cons, List.map_append, List.take_left' (by simp)]
    have hids2 : (rs.drop fs.length).map (·.1) = ls.flatten.map (·.id) := by
      rw [List.map_drop, hids, List.flatten_cons, List.map_append, List.drop_left' (by simp)]
    simp only [List.flatten_cons, List.length_append] at hst
    have h1 := parses_anyPoints (ty := ty) (dm := dm) (l := l) (r := 0) (still := still) hids1
      (hr.take _) (hf fs (by simp)).2
      (fun i f hi => by rw [hpid 0 i fs f rfl hi]; simp) (by omega)
    have h2 := ih (l := l + 1) (still := still - fs.length) hids2
      (hr.drop _) (fun x hx => hf x (by simp [hx]))
      (fun j i gs g hj hg => by rw [hpid (j + 1) i gs g (by simpa using hj) hg]; congr 1; omega) (by omega)
    have hrec : recordsOf rs = recordsOf (rs.take fs.length) ++ recordsOf (rs.drop fs.length) := by
      rw [← recordsOf_append, List.take_append_drop]
    rw [hrec]
    unfold anyLayer
    simp only [List.length_cons, loadLayers, List.flatMap_cons, recsFrom, List.append_assoc]
    refine (parses_readNat .err (by decide)).onG.bindG ?_
    refine (Parses2.require (by simp)).bind0 ?_
    have := (hf fs (by simp)).1
    refine (parses_readNat .err (by omega)).onG.bindG ?_
    refine h1.bind ?_
    exact Parses2.map h2 (Parses2.pure _)

theorem recsFrom_both {ty : Ty T} {d : Descr} {dm : Option DataMap} {o : ReloadOptions} {still : Int}
    {ls : List (List FilePt)} {rs : List (DataId × Bytes)}
    (hlen : rs.length = ls.flatten.length) (hf : ∀ fs ∈ ls, ∀ f ∈ fs, PtOk d f) :
    Both (Both (FromFile d)) (recsFrom ty d dm o still ls rs) ls := by
  induction ls generalizing rs still with
  | nil => exact .nil
  | cons fs ls ih =>
    rw [List.flatten_cons, List.length_append] at hlen
    unfold recsFrom
    refine .cons ?_ (ih (by rw [List.length_drop]; omega) fun x hx => hf x (by simp [hx]))
    have hf' := hf fs (by simp)
    have hl : (rs.take fs.length).length = fs.length := by rw [List.length_take]; omega
    generalize rs.take fs.length = vs at hl
    clear ih hf hlen
    induction fs generalizing vs still with
    | nil => simp only [recsIn]; exact .nil
    | cons f fs ih =>
      cases vs with
      | nil => simp at hl
      | cons x vs =>
        simp only [recsIn]
        refine .cons ⟨rfl, rfl, (hf' f (by simp)).2.1, rfl, ?_⟩
          (ih (fun y hy => hf' y (by simp [hy])) vs (by simpa using hl))
        intro ns hns n hn
        exact (((hf' f (by simp)).2.2 ns hns).2 n hn).2

theorem mapE_total {α β : Type} {f : α → Except Fail β} {l : List α} (h : ∀ a ∈ l, ∃ b, f a = .ok b) :
    ∃ bs, mapE f l = .ok bs := by
  induction l with
  | nil => exact ⟨[], rfl⟩
  | cons a l ih =>
    obtain ⟨b, hb⟩ := h a (by simp)
    obtain ⟨bs, hbs⟩ := ih fun x hx => h x (by simp [hx])
    refine ⟨b :: bs, ?_⟩
    simp only [mapE, hb, hbs, bind, Except.bind]

theorem both_get' {α β : Type} {R : α → β → Prop} {l : List α} {l' : List β} (h : Both R l l')
    {i : Nat} {a : α} (ha : l[i]? = some a) : ∃ b, l'[i]? = some b ∧ R a b := by
  induction h generalizing i with
  | nil => simp at ha
  | cons h1 _ ih =>
    cases i with
    | zero => simp at ha; subst ha; exact ⟨_, rfl, h1⟩
    | succ i => simpa using ih (by simpa using ha)

/-- Files as described by `Readable` are accepted, if sorting a list with a NaN does not panic or there is
none. -/
theorem parses_anyIndexation {P : Policy T} (L : P.Lawful) {ty : Ty T} {d : Descr} {dm : Option DataMap}
    {o : ReloadOptions} (hty : ty.noData = true ∨ ty.name = d.tName)
    {ls : List (List FilePt)} {rs : List (DataId × Bytes)} {eid : DataId} {epid : PointId}
    (hR : Readable d ls) (hS : (∀ v, P.sortPanics v = false) ∨ NoNaNLinks ls)
    (he : ∃ l ∈ ls, ∃ f ∈ l, f.pid = epid)
    (hlen : ∀ l ∈ ls, ∀ f ∈ l, ∀ ns ∈ f.lists, ns.length < 2 ^ 64)
    (hids : rs.map (·.1) = ls.flatten.map (·.id)) (hr : RecsOk ty d dm o (asI64 d.nbPoint.toNat) rs) :
    ∃ x, Parses2 (loadIndexation P ty d dm o)
      ([UInt8.ofNat ls.length] ++ ls.flatMap (anyLayer d.mode) ++ leBytes 8 eid.toNat ++ pidBytes epid)
      (recordsOf rs) x := by
  have hpidfit : ∀ l ∈ ls, ∀ f ∈ l, PidFits f.pid := by
    intro l hl f hf
    obtain ⟨a, ha, rfl⟩ := List.getElem_of_mem hl
    obtain ⟨b, hb, rfl⟩ := List.getElem_of_mem hf
    rw [hR.place a b _ _ (List.getElem?_eq_getElem ha) (List.getElem?_eq_getElem hb)]
    have h1 := hR.layers
    have h2 := hR.ranks _ hl
    constructor <;> simp only <;> omega
  have hpt : ∀ l ∈ ls, ∀ f ∈ l, PtOk d f := by
    intro l hl f hf
    refine ⟨hpidfit l hl f hf, hR.lists l hl f hf, ?_⟩
    intro ns hns
    refine ⟨hlen l hl f hf ns hns, fun n hn => ⟨?_, fun hm => hR.light hm l hl f hf ns hns n hn⟩⟩
    obtain ⟨l', hl', f', hf', e⟩ := hR.links l hl f hf ns hns n hn
    rw [e]
    exact hpidfit l' hl' f' hf'
  have hboth := recsFrom_both (ty := ty) (d := d) (dm := dm) (o := o) (still := asI64 d.nbPoint.toNat) (ls := ls) (rs := rs)
    (by have := congrArg List.length hids; rwa [List.length_map, List.length_map] at this) hpt
  -- every point of the file is found by its position
  have hres : ∀ l ∈ ls, ∀ f ∈ l, ∃ q,
      resolve ((recsFrom ty d dm o (asI64 d.nbPoint.toNat) ls rs).map fun l => l.map (·.pt)) f.pid = .ok q := by
    intro l hl f hf
    have hfit := hpidfit l hl f hf
    obtain ⟨a, ha, rfl⟩ := List.getElem_of_mem hl
    obtain ⟨b, hb, rfl⟩ := List.getElem_of_mem hf
    have hplace := hR.place a b _ _ (List.getElem?_eq_getElem ha) (List.getElem?_eq_getElem hb)
    obtain ⟨ps, hps, hfa⟩ := both_get hboth (List.getElem?_eq_getElem ha)
    obtain ⟨r, hr', -⟩ := both_get hfa (List.getElem?_eq_getElem hb)
    refine ⟨r.pt, ?_⟩
    unfold resolve
    rw [if_pos hfit.2, hplace]
    simp [hps, hr']
  have htbl : ∃ t, mapE (fun l => mapE (fun r : PointRec T =>
      linkPoint P ((recsFrom ty d dm o (asI64 d.nbPoint.toNat) ls rs).map fun l => l.map (·.pt)) r.lists) l) (recsFrom ty d dm o (asI64 d.nbPoint.toNat) ls rs) = .ok t := by
    refine mapE_total fun ps hps => mapE_total fun r hr' => ?_
    obtain ⟨a, ha, hae⟩ := List.getElem_of_mem hps
    obtain ⟨b, hb, hbe⟩ := List.getElem_of_mem hr'
    obtain ⟨fs, hfs, hfa⟩ := both_get' hboth (by rw [List.getElem?_eq_getElem ha, hae])
    obtain ⟨f, hf, hff⟩ := both_get' hfa (by rw [List.getElem?_eq_getElem hb, hbe])
    have hfsm := List.mem_of_getElem? hfs
    have hfm := List.mem_of_getElem? hf
    obtain ⟨-, -, g3, g4, -⟩ := hff
    have hn16 := hR.nbLayer
    have hlen16 : r.lists.length = nbLayerMax := by
      rw [g4, List.length_append, List.length_replicate, g3]
      have : nbLayerMax = 16 := rfl
      omega
    unfold linkPoint
    rw [if_neg (by omega)]
    refine mapE_total fun ns hns => ?_
    rw [g4, List.mem_append] at hns
    have hns' : ns = [] ∨ ns ∈ f.lists := by
      rcases hns with h | h
      · exact Or.inr h
      · exact Or.inl (List.mem_replicate.1 h).2
    unfold linkList
    have hm : ∃ v, mapE (fun n : Neighbour => do
        let q ← resolve ((recsFrom ty d dm o (asI64 d.nbPoint.toNat) ls rs).map fun l => l.map (·.pt)) n.pId
        .ok (⟨q, n.distance⟩ : PWO T)) ns = .ok v := by
      refine mapE_total fun n hn => ?_
      rcases hns' with rfl | hns'
      · cases hn
      · obtain ⟨l', hl', f', hf', e⟩ := hR.links fs hfsm f hfm ns hns' n hn
        obtain ⟨q, hq⟩ := hres l' hl' f' hf'
        rw [e, hq]
        exact ⟨_, rfl⟩
    obtain ⟨v, hv⟩ := hm
    rw [hv]
    simp only [bind, Except.bind]
    have hsort : P.sortC v = .ok (P.sort v) := by
      unfold Policy.sortC
      rw [if_neg]
      rw [Bool.not_eq_true]
      rcases hS with hS | hS
      · exact hS v
      apply L.sort_ok
      intro e he
      obtain ⟨hvl, hvm⟩ := mapE_ok hv
      obtain ⟨i, hi, rfl⟩ := List.getElem_of_mem he
      have hi' : i < ns.length := by omega
      rcases hns' with rfl | hns'
      · simp at hi'
      have := hvm i ns[i] (List.getElem?_eq_getElem hi')
      obtain ⟨b, hb1, hb2⟩ := this
      have hd : b.dist = ns[i].distance := by
        cases hq : resolve ((recsFrom ty d dm o (asI64 d.nbPoint.toNat) ls rs).map fun l => l.map (·.pt)) ns[i].pId with
        | error e => rw [hq] at hb2; cases hb2
        | ok q =>
          rw [hq] at hb2
          simp only [bind, Except.bind, Except.ok.injEq] at hb2
          rw [← hb2]
      rw [List.getElem?_eq_getElem hi, Option.some.injEq] at hb1
      rw [hb1, hd]
      exact hS fs hfsm f hfm ns hns' ns[i] (List.getElem_mem hi')
    rw [hsort]
    exact ⟨_, rfl⟩
  obtain ⟨t, ht⟩ := htbl
  obtain ⟨le, hle, fe, hfe, hpe⟩ := he
  obtain ⟨e, hee⟩ := hres le hle fe hfe
  have hfite := hpidfit le hle fe hfe
  rw [hpe] at hee hfite
  have h16 := hR.layers
  have hnb := (UInt8.toNat_ofNat' (n := ls.length))
  have hL := parses_anyLayers (ty := ty) (dm := dm) (l := 0) (still := asI64 d.nbPoint.toNat) hids hr
    (fun fs hfs => ⟨by have := hR.ranks fs hfs; omega, hpt fs hfs⟩)
    (fun j i fs f hj hi => by rw [hR.place j i fs f hj hi]; simp)
    (by
      have h1 := hR.count
      have h2 := hR.announced
      unfold asI64
      rw [if_pos h2]
      omega)
  refine ⟨(mkIdx ((recsFrom ty d dm o (asI64 d.nbPoint.toNat) ls rs).map fun l => l.map (·.pt)) t e,
    (recsFrom ty d dm o (asI64 d.nbPoint.toNat) ls rs).flatten.map (·.mapped)), ?_⟩
  unfold loadIndexation
  refine (Parses2.require ?_).bind0 ?_
  · rcases hty with h | h
    · simp [h]
    · simp [h]
  simp only [List.append_assoc]
  refine (parses_byte .err _).onG.bindG ?_
  have hbyte : (UInt8.ofNat ls.length).toNat = ls.length := by rw [hnb]; omega
  rw [hbyte]
  refine (Parses2.require ?_).bind0 ?_
  · simp only [decide_eq_true_eq]; exact h16
  rw [← List.append_nil (recordsOf rs)]
  refine hL.bind ?_
  refine (Parses2.lift ht).bind0 ?_
  refine (parses_readNat .err (UInt64.lt_pow _)).onG.bindG ?_
  have hp : pidBytes epid = [UInt8.ofNat epid.layer] ++ (leBytes 4 epid.rank ++ []) := by
    simp [pidBytes]
  rw [hp]
  refine (parses_byte .err _).onG.bindG ?_
  have h4 := hfite.2
  refine (parses_readNat .err (by omega)).onG.bindG ?_
  have : (UInt8.ofNat epid.layer).toNat = epid.layer := by
    have := hfite.1
    rw [UInt8.toNat_ofNat']; omega
  rw [this]
  exact (Parses2.lift hee).bind0 (Parses2.pure _)

end Verif
