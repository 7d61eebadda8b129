import Verif.AnyLemmas

set_option autoImplicit false

/-!
# What a successful reload tells of the graph file, whatever its bytes
-/

namespace Verif
variable {T : Type}

theorem F32.bits_ofRaw {n : Nat} (h : n < 256 ^ 4) : (F32.ofRaw n).bits = n := by
  unfold F32.ofRaw F32.bits
  have h1 : n % 2 ^ 32 = n := Nat.mod_eq_of_lt (by omega)
  simp only [h1, Fin.val_ofNat, Nat.mod_mod, decide_eq_true_eq]
  split <;> omega

theorem F64.bits_ofRaw {n : Nat} (h : n < 256 ^ 8) : (F64.ofRaw n).bits = n := by
  unfold F64.ofRaw F64.bits
  have h1 : n % 2 ^ 64 = n := Nat.mod_eq_of_lt (by omega)
  simp only [h1, Fin.val_ofNat, Nat.mod_mod, decide_eq_true_eq]
  split <;> omega

theorem u64_lt {n : Nat} (h : n < 256 ^ 8) : (UInt64.ofNat n).toNat = n := by
  rw [UInt64.toNat_ofNat']
  exact Nat.mod_eq_of_lt (by omega)

/-- one byte -/
theorem leBytes_one (n : Nat) : leBytes 1 n = [UInt8.ofNat n] := rfl

/-- a repeated reader -/
theorem rep_ok {α : Type} {m : Rd Bytes α} {f : α → Bytes} {Q : α → Prop}
    (hm : ∀ (s s' : Bytes) (a : α), m s = .ok (a, s') → s = f a ++ s' ∧ Q a) {n : Nat} {s s' : Bytes}
    {as : List α} (h : Rd.rep n m s = .ok (as, s')) :
    as.length = n ∧ s = as.flatMap f ++ s' ∧ ∀ a ∈ as, Q a := by
  induction n generalizing s as with
  | zero =>
    unfold Rd.rep at h
    obtain ⟨rfl, rfl⟩ := pure_ok h
    exact ⟨rfl, by simp, by simp⟩
  | succ n ih =>
    unfold Rd.rep at h
    replace h := Rd.bind_ok h
    obtain ⟨a, s1, h1, h⟩ := h
    replace h := Rd.bind_ok h
    obtain ⟨as', s2, h2, h⟩ := h
    obtain ⟨rfl, rfl⟩ := pure_ok h
    obtain ⟨h3, h4, h5⟩ := ih h2
    refine ⟨by simp [h3], ?_, ?_⟩
    · rw [(hm _ _ _ h1).1, h4]
      simp
    · intro x hx
      rcases List.mem_cons.1 hx with rfl | hx
      · exact (hm _ _ _ h1).2
      · exact h5 x hx

/-- lists of the same length whose elements are related one by one -/
inductive Both {α β : Type} (R : α → β → Prop) : List α → List β → Prop
  | nil : Both R [] []
  | cons {a : α} {b : β} {l : List α} {l' : List β} : R a b → Both R l l' → Both R (a :: l) (b :: l')

/-- bytes of a position in a file of the given mode -/
def anyPid (mode : UInt8) (p : PointId) : Bytes := if mode = 1 then pidBytes p else []

/-- bytes of a link -/
def anyLink (mode : UInt8) (n : Neighbour) : Bytes :=
  leBytes 8 n.dId.toNat ++ anyPid mode n.pId ++ leBytes 4 n.distance.bits

/-- bytes of a list -/
def anyList (mode : UInt8) (ns : List Neighbour) : Bytes :=
  leBytes 8 ns.length ++ ns.flatMap (anyLink mode)

theorem loadNbPid_ok {mode : UInt8} {s s' : Bytes} {p : PointId} (h : loadNbPid mode s = .ok (p, s')) :
    s = anyPid mode p ++ s' ∧ (mode ≠ 1 → p = ⟨0, 0⟩) := by
  unfold loadNbPid at h
  unfold anyPid
  by_cases hm : mode = 1
  · rw [if_pos hm] at h
    rw [if_pos hm]
    replace h := Rd.bind_ok h
    obtain ⟨a, s1, h1, h⟩ := h
    replace h := Rd.bind_ok h
    obtain ⟨b, s2, h2, h⟩ := h
    obtain ⟨rfl, rfl⟩ := pure_ok h
    refine ⟨?_, fun h => absurd hm h⟩
    rw [(readNat_ok' h1).1, (readNat_ok' h2).1, leBytes_one]
    simp [pidBytes]
  · rw [if_neg hm] at h
    rw [if_neg hm]
    obtain ⟨rfl, rfl⟩ := pure_ok h
    exact ⟨rfl, fun _ => rfl⟩

theorem loadNeighbour_ok {mode : UInt8} {s s' : Bytes} {n : Neighbour}
    (h : loadNeighbour mode s = .ok (n, s')) :
    s = anyLink mode n ++ s' ∧ (mode ≠ 1 → n.pId = ⟨0, 0⟩) := by
  unfold loadNeighbour at h
  replace h := Rd.bind_ok h
  obtain ⟨a, s1, h1, h⟩ := h
  replace h := Rd.bind_ok h
  obtain ⟨b, s2, h2, h⟩ := h
  replace h := Rd.bind_ok h
  obtain ⟨c, s3, h3, h⟩ := h
  obtain ⟨rfl, rfl⟩ := pure_ok h
  obtain ⟨e1, e2⟩ := readNat_ok' h1
  obtain ⟨e3, e4⟩ := readNat_ok' h3
  refine ⟨?_, (loadNbPid_ok h2).2⟩
  unfold anyLink
  simp only
  rw [e1, (loadNbPid_ok h2).1, e3, u64_lt e2, F32.bits_ofRaw e4]
  simp only [List.append_assoc]

theorem loadList_ok {mode : UInt8} {s s' : Bytes} {ns : List Neighbour}
    (h : loadList mode s = .ok (ns, s')) :
    s = anyList mode ns ++ s' ∧ ∀ n ∈ ns, mode ≠ 1 → n.pId = ⟨0, 0⟩ := by
  unfold loadList at h
  replace h := Rd.bind_ok h
  obtain ⟨n, s1, h1, h⟩ := h
  obtain ⟨h2, h3, h4⟩ := rep_ok (f := anyLink mode) (fun _ _ _ h => loadNeighbour_ok h) h
  refine ⟨?_, h4⟩
  unfold anyList
  rw [(readNat_ok' h1).1, h3, h2, List.append_assoc]

/-- a point as it is in a graph file: id, position, lists -/
structure FilePt where
  id : DataId
  pid : PointId
  lists : List (List Neighbour)
deriving DecidableEq

/-- its bytes -/
def anyPoint (mode : UInt8) (f : FilePt) : Bytes :=
  leBytes 4 magicPoint ++ leBytes 8 f.id.toNat ++ pidBytes f.pid ++ f.lists.flatMap (anyList mode)

/-- the record of a loaded point is `f` -/
def FromFile (d : Descr) (r : PointRec T) (f : FilePt) : Prop :=
  r.pt.origin = f.id ∧ r.pt.pid = f.pid ∧ f.lists.length = d.nbLayer.toNat ∧
    r.lists = f.lists ++ List.replicate (nbLayerMax - d.nbLayer.toNat) [] ∧
    ∀ ns ∈ f.lists, ∀ n ∈ ns, d.mode ≠ 1 → n.pId = ⟨0, 0⟩

theorem loadPoint_graph {ty : Ty T} {d : Descr} {dm : Option DataMap} {mm : Bool} {s s' : Two}
    {p : PointRec T} (h : loadPoint ty d dm mm s = .ok (p, s')) :
    ∃ f, FromFile d p f ∧ s.1 = anyPoint d.mode f ++ s'.1 := by
  unfold loadPoint at h
  replace h := Rd.bind_ok h
  obtain ⟨⟨origin, pid, lists⟩, s1, h1, h⟩ := h
  have hp : p.pt.origin = origin ∧ p.pt.pid = pid ∧ p.lists = lists ∧ s'.1 = s1.1 := by
    cases mm with
    | true =>
      simp only [if_true] at h
      replace h := Rd.bind_ok h
      obtain ⟨b, s2, h2, h⟩ := h
      replace h := Rd.bind_ok h
      obtain ⟨v, s3, h3, h⟩ := h
      obtain ⟨-, rfl⟩ := Rd.lift_ok h3
      obtain ⟨rfl, rfl⟩ := pure_ok h
      exact ⟨rfl, rfl, rfl, (onD_ok h2).2⟩
    | false =>
      simp only [Bool.false_eq_true, if_false] at h
      replace h := Rd.bind_ok h
      obtain ⟨v, s2, h2, h⟩ := h
      obtain ⟨rfl, rfl⟩ := pure_ok h
      exact ⟨rfl, rfl, rfl, (onD_ok h2).2⟩
  obtain ⟨hp1, hp2, hp3, hp4⟩ := hp
  have h2 := (onG_ok h1).1
  unfold loadPointGraph at h2
  replace h2 := Rd.bind_ok h2
  obtain ⟨magic, t1, a1, h2⟩ := h2
  replace h2 := Rd.bind_ok h2
  obtain ⟨_, t2, a2, h2⟩ := h2
  replace h2 := Rd.bind_ok h2
  obtain ⟨o, t3, a3, h2⟩ := h2
  replace h2 := Rd.bind_ok h2
  obtain ⟨la, t4, a4, h2⟩ := h2
  replace h2 := Rd.bind_ok h2
  obtain ⟨rk, t5, a5, h2⟩ := h2
  replace h2 := Rd.bind_ok h2
  obtain ⟨ls, t6, a6, h2⟩ := h2
  obtain ⟨c2, rfl⟩ := Rd.require_ok a2
  obtain ⟨h3, h4⟩ := pure_ok h2
  rw [Prod.mk.injEq, Prod.mk.injEq] at h3
  obtain ⟨rfl, rfl, rfl⟩ := h3
  obtain ⟨h5, h6, h7⟩ := rep_ok (f := anyList d.mode) (fun _ _ _ h => loadList_ok h) a6
  simp only [decide_eq_true_eq] at c2
  obtain ⟨e3, e3'⟩ := readNat_ok' a3
  refine ⟨⟨UInt64.ofNat o, ⟨la, rk⟩, ls⟩, ⟨hp1, hp2, h5, hp3, h7⟩, ?_⟩
  unfold anyPoint
  rw [(readNat_ok' a1).1, e3, (readNat_ok' a4).1, (readNat_ok' a5).1, h6, c2, leBytes_one, hp4, h4]
  simp only [u64_lt e3', pidBytes, List.append_assoc, List.cons_append, List.nil_append]

theorem loadPoints_graph {ty : Ty T} {d : Descr} {dm : Option DataMap} {o : ReloadOptions} {l : Nat}
    {n r : Nat} {still : Int} {s s' : Two} {ps : List (PointRec T)} {still' : Int}
    (h : loadPoints ty d dm o l n r still s = .ok ((ps, still'), s')) :
    ps.length = n ∧ still' = still - n ∧ (ps = [] ∨ 0 ≤ still') ∧ r + n ≤ max r (2 ^ 31) ∧
      ∃ fs : List FilePt, Both (FromFile d) ps fs ∧ s.1 = fs.flatMap (anyPoint d.mode) ++ s'.1 := by
  induction n generalizing r still s ps still' with
  | zero =>
    unfold loadPoints at h
    obtain ⟨h1, rfl⟩ := pure_ok h
    rw [Prod.mk.injEq] at h1
    rw [h1.1, h1.2]
    exact ⟨rfl, by simp, Or.inl rfl, by simp; omega, [], .nil, by simp⟩
  | succ n ih =>
    unfold loadPoints at h
    replace h := Rd.bind_ok h
    obtain ⟨p, s1, h1, h⟩ := h
    replace h := Rd.bind_ok h
    obtain ⟨_, s2, h2, h⟩ := h
    replace h := Rd.bind_ok h
    obtain ⟨_, s3, h3, h⟩ := h
    replace h := Rd.bind_ok h
    obtain ⟨_, s4, h4, h⟩ := h
    replace h := Rd.bind_ok h
    obtain ⟨⟨ps', st'⟩, s5, h5, h⟩ := h
    obtain ⟨-, rfl⟩ := Rd.require_ok h2
    obtain ⟨c3, rfl⟩ := Rd.require_ok h3
    obtain ⟨c4, rfl⟩ := Rd.require_ok h4
    obtain ⟨h6, rfl⟩ := pure_ok h
    rw [Prod.mk.injEq] at h6
    obtain ⟨rfl, rfl⟩ := h6
    obtain ⟨f, h7, h8⟩ := loadPoint_graph h1
    obtain ⟨h9, h10, h11, h11r, fs, h12, h13⟩ := ih h5
    simp only [decide_eq_true_eq, Bool.and_eq_true] at c3 c4
    refine ⟨by simp [h9], by omega, Or.inr ?_, by omega, f :: fs, .cons h7 h12, ?_⟩
    · rcases h11 with h11 | h11
      · subst h11
        simp only [List.length_nil] at h9
        omega
      · exact h11
    · rw [h8, h13]
      simp

/-- bytes of a layer -/
def anyLayer (mode : UInt8) (fs : List FilePt) : Bytes :=
  leBytes 4 magicLayer ++ leBytes 8 fs.length ++ fs.flatMap (anyPoint mode)

theorem both_len {α β : Type} {R : α → β → Prop} {l : List α} {l' : List β} (h : Both R l l') :
    l.length = l'.length := by
  induction h with
  | nil => rfl
  | cons _ _ ih => simp [ih]

theorem both_get {α β : Type} {R : α → β → Prop} {l : List α} {l' : List β} (h : Both R l l')
    {i : Nat} {b : β} (hb : l'[i]? = some b) : ∃ a, l[i]? = some a ∧ R a b := by
  induction h generalizing i with
  | nil => simp at hb
  | cons h1 _ ih =>
    cases i with
    | zero => simp at hb; subst hb; exact ⟨_, rfl, h1⟩
    | succ i => simpa using ih (by simpa using hb)

theorem both_map {α β γ : Type} {R : α → β → Prop} {f : α → γ} {g : β → γ}
    (hR : ∀ a b, R a b → f a = g b) {l : List α} {l' : List β} (h : Both R l l') :
    l.map f = l'.map g := by
  induction h with
  | nil => rfl
  | cons h1 _ ih => simp [hR _ _ h1, ih]

theorem loadLayers_graph {ty : Ty T} {d : Descr} {dm : Option DataMap} {o : ReloadOptions}
    {n l : Nat} {still : Int} {s s' : Two} {rs : List (List (PointRec T))}
    (h : loadLayers ty d dm o n l still s = .ok (rs, s')) :
    rs.length = n ∧ (rs.flatten = [] ∨ (rs.flatten.length : Int) ≤ still) ∧
      (∀ ps ∈ rs, ps.length ≤ 2 ^ 31) ∧
      ∃ ls : List (List FilePt), Both (Both (FromFile d)) rs ls ∧
        s.1 = ls.flatMap (anyLayer d.mode) ++ s'.1 := by
  induction n generalizing l still s rs with
  | zero =>
    unfold loadLayers at h
    obtain ⟨rfl, rfl⟩ := pure_ok h
    exact ⟨rfl, Or.inl rfl, by simp, [], .nil, by simp⟩
  | succ n ih =>
    unfold loadLayers at h
    replace h := Rd.bind_ok h
    obtain ⟨magic, s1, h1, h⟩ := h
    replace h := Rd.bind_ok h
    obtain ⟨_, s2, h2, h⟩ := h
    replace h := Rd.bind_ok h
    obtain ⟨nb, s3, h3, h⟩ := h
    replace h := Rd.bind_ok h
    obtain ⟨⟨ps, still'⟩, s4, h4, h⟩ := h
    replace h := Rd.bind_ok h
    obtain ⟨ls, s5, h5, h⟩ := h
    obtain ⟨c2, rfl⟩ := Rd.require_ok h2
    obtain ⟨rfl, rfl⟩ := pure_ok h
    obtain ⟨p1, p2, p3, p3r, fs, p4, p5⟩ := loadPoints_graph h4
    obtain ⟨q1, q2, q2r, fls, q3, q4⟩ := ih h5
    simp only [decide_eq_true_eq] at c2
    refine ⟨by simp [q1], ?_, ?_, fs :: fls, .cons p4 q3, ?_⟩
    · simp only [List.flatten_cons, List.append_eq_nil_iff, List.length_append]
      rcases q2 with q2 | q2
      · rcases p3 with p3 | p3
        · exact Or.inl ⟨p3, q2⟩
        · right
          rw [q2]
          simp only [List.length_nil]
          omega
      · right
        omega
    · intro x hx
      rcases List.mem_cons.1 hx with rfl | hx
      · omega
      · exact q2r x hx
    · rw [(readNat_ok' (onG_ok h1).1).1, (readNat_ok' (onG_ok h3).1).1, p5, q4, c2,
        List.flatMap_cons, anyLayer, ← both_len p4, p1]
      simp only [List.append_assoc]

/-- the links of a loaded list are those of the file -/
theorem linkList_perm {P : Policy T} (L : P.Lawful) {layers : List (List (Ref T))} {ns : List Neighbour}
    {es : List (PWO T)} (hp : ∀ (l r : Nat) ps (p : Ref T), layers[l]? = some ps → ps[r]? = some p → p.pid = ⟨l, r⟩)
    (h : linkList P layers ns = .ok es) :
    (es.map fun e => (e.pt.pid, e.dist)).Perm (ns.map fun n => (n.pId, n.distance)) := by
  unfold linkList at h
  cases hm : mapE (fun n : Neighbour => do
      let q ← resolve layers n.pId
      .ok (⟨q, n.distance⟩ : PWO T)) ns with
  | error e => rw [hm] at h; cases h
  | ok v =>
    rw [hm] at h
    simp only [bind, Except.bind] at h
    split at h
    · rename_i w hw
      injection h with h
      subst h
      obtain rfl := Policy.sortC_ok hw
      have hve : v.map (fun e => (e.pt.pid, e.dist)) = ns.map fun n => (n.pId, n.distance) := by
        obtain ⟨h1, h2⟩ := mapE_ok hm
        apply List.ext_getElem?
        intro i
        rw [List.getElem?_map, List.getElem?_map]
        cases hn : ns[i]? with
        | none =>
          rw [List.getElem?_eq_none_iff] at hn
          rw [List.getElem?_eq_none_iff.2 (by omega)]
          rfl
        | some n =>
          obtain ⟨e, he, hf⟩ := h2 i n hn
          rw [he]
          cases hr : resolve layers n.pId with
          | error x => rw [hr] at hf; cases hf
          | ok q =>
            rw [hr] at hf
            simp only [bind, Except.bind] at hf
            injection hf with hf
            obtain ⟨l, hl1, hl2⟩ := resolve_ok hr
            rw [← hf]
            simp [hp _ _ _ _ hl1 hl2]
      rw [← hve]
      exact (L.sort_perm v).map _
    · cases h

/-- the lists of a table made by `linkPoint` -/
theorem tableNb_lists {P : Policy T} {layers : List (List (Ref T))}
    {recs : List (List (PointRec T))} {t : List (List (List (List (PWO T))))}
    (ht : mapE (fun l => mapE (fun r : PointRec T => linkPoint P layers r.lists) l) recs = .ok t)
    {a b : Nat} {ps : List (PointRec T)} {r : PointRec T} (h1 : recs[a]? = some ps) (h2 : ps[b]? = some r)
    (l : Nat) : r.lists.length ≤ nbLayerMax ∧
      (r.lists[l]? = none → tableNb t ⟨a, b⟩ l = []) ∧
      ∀ ns, r.lists[l]? = some ns → linkList P layers ns = .ok (tableNb t ⟨a, b⟩ l) := by
  obtain ⟨x, hx, hf⟩ := (mapE_ok ht).2 a ps h1
  obtain ⟨y, hy, hg⟩ := (mapE_ok hf).2 b r h2
  obtain ⟨h3, h4⟩ := linkPoint_ok hg
  obtain ⟨h5, h6⟩ := mapE_ok h4
  refine ⟨h3, ?_, ?_⟩
  · intro hn
    have : y[l]? = none := by
      rw [List.getElem?_eq_none_iff] at hn ⊢
      omega
    simp [tableNb, hx, hy, this]
  · intro ns hns
    obtain ⟨z, hz, hk⟩ := h6 l ns hns
    rw [hk]
    simp [tableNb, hx, hy, hz]

theorem loadStr_ok {s s' : Bytes} {v : String} (h : loadStr s = .ok (v, s')) :
    s = dumpStr v ++ s' ∧ (strBytes v).length ≤ 256 := by
  unfold loadStr at h
  replace h := Rd.bind_ok h
  obtain ⟨n, s1, h1, h⟩ := h
  replace h := Rd.bind_ok h
  obtain ⟨_, s2, h2, h⟩ := h
  replace h := Rd.bind_ok h
  obtain ⟨b, s3, h3, h⟩ := h
  obtain ⟨c2, rfl⟩ := Rd.require_ok h2
  obtain ⟨h4, h5⟩ := readExact_ok h3
  cases hw : String.fromUTF8? ⟨b.toArray⟩ with
  | some w =>
    simp only [hw] at h
    obtain ⟨rfl, rfl⟩ := pure_ok h
    have hb : strBytes v = b := by
      unfold String.fromUTF8? at hw
      split at hw
      · injection hw with hw
        rw [← hw]
        simp [strBytes, String.fromUTF8, String.toUTF8]
      · cases hw
    simp only [decide_eq_true_eq] at c2
    unfold dumpStr
    rw [hb, (readNat_ok' h1).1, h4, h5, List.append_assoc]
    exact ⟨rfl, by omega⟩
  | none => simp only [hw] at h; cases h

/-- magic number of a format -/
def magicOf (version : Nat) : Nat :=
  if version = 2 then magicDescr2 else if version = 3 then magicDescr3 else magicDescr4

/-- bytes of a header of any format -/
def anyHeader (d : Descr) : Bytes :=
  leBytes 4 (magicOf d.version) ++ [d.mode] ++ [d.maxNb] ++
    (if d.version = 4 then leBytes 8 d.scale.bits else []) ++ [d.nbLayer] ++ d.tailBytes

theorem loadDescr_ok {s s' : Bytes} {d : Descr} (h : loadDescr s = .ok (d, s')) :
    s = anyHeader d ++ s' ∧ (d.version = 2 ∨ d.version = 3 ∨ d.version = 4) ∧
      (d.version ≠ 4 → d.scale = F64.one) ∧
      (strBytes d.distName).length ≤ 256 ∧ (strBytes d.tName).length ≤ 256 := by
  unfold loadDescr at h
  replace h := Rd.bind_ok h
  obtain ⟨magic, s0, h0, h⟩ := h
  cases hv : versionOf magic with
  | none => rw [hv] at h; cases h
  | some version =>
    simp only [hv] at h
    replace h := Rd.bind_ok h
    obtain ⟨mode, s1, h1, h⟩ := h
    replace h := Rd.bind_ok h
    obtain ⟨maxNb, s2, h2, h⟩ := h
    replace h := Rd.bind_ok h
    obtain ⟨scale, s3, h3, h⟩ := h
    replace h := Rd.bind_ok h
    obtain ⟨nbLayer, s4, h4, h⟩ := h
    replace h := Rd.bind_ok h
    obtain ⟨ef, s5, h5, h⟩ := h
    replace h := Rd.bind_ok h
    obtain ⟨nbPoint, s6, h6, h⟩ := h
    replace h := Rd.bind_ok h
    obtain ⟨dim, s7, h7, h⟩ := h
    replace h := Rd.bind_ok h
    obtain ⟨dn, s8, h8, h⟩ := h
    replace h := Rd.bind_ok h
    obtain ⟨tn, s9, h9, h⟩ := h
    obtain ⟨rfl, rfl⟩ := pure_ok h
    have hver : magic = magicOf version ∧ (version = 2 ∨ version = 3 ∨ version = 4) := by
      unfold versionOf at hv
      split at hv
      · injection hv with hv; subst hv; rename_i hm; exact ⟨hm, Or.inl rfl⟩
      · split at hv
        · injection hv with hv; subst hv; rename_i hm; exact ⟨hm, Or.inr (Or.inl rfl)⟩
        · split at hv
          · injection hv with hv; subst hv; rename_i hm; exact ⟨hm, Or.inr (Or.inr rfl)⟩
          · cases hv
    have hsc : s2 = (if version = 4 then leBytes 8 scale.bits else []) ++ s3 ∧
        (version ≠ 4 → scale = F64.one) := by
      unfold loadScale at h3
      by_cases h44 : version = 4
      · rw [if_pos h44] at h3 ⊢
        replace h3 := Rd.bind_ok h3
        obtain ⟨b, t, h31, h32⟩ := h3
        obtain ⟨rfl, rfl⟩ := pure_ok h32
        obtain ⟨e1, e2⟩ := readNat_ok' h31
        rw [F64.bits_ofRaw e2]
        exact ⟨e1, fun h => absurd h44 h⟩
      · rw [if_neg h44] at h3 ⊢
        obtain ⟨rfl, rfl⟩ := pure_ok h3
        exact ⟨rfl, fun _ => rfl⟩
    obtain ⟨e8, l8⟩ := loadStr_ok h8
    obtain ⟨e9, l9⟩ := loadStr_ok h9
    obtain ⟨e5, l5⟩ := readNat_ok' h5
    obtain ⟨e6, l6⟩ := readNat_ok' h6
    obtain ⟨e7, l7⟩ := readNat_ok' h7
    refine ⟨?_, hver.2, hsc.2, l8, l9⟩
    rw [(readNat_ok' h0).1, (readNat_ok' h1).1, (readNat_ok' h2).1, hsc.1, (readNat_ok' h4).1, e5, e6, e7,
      e8, e9, leBytes_one, leBytes_one, leBytes_one, hver.1]
    unfold anyHeader Descr.tailBytes
    simp only [u64_lt l5, u64_lt l6, u64_lt l7, List.append_assoc]

theorem asI64_pos {n : Nat} (hn64 : n < 2 ^ 64) (h : 0 < asI64 n) : n < 2 ^ 63 ∧ asI64 n = n := by
  unfold asI64 at h ⊢
  split
  · exact ⟨by assumption, rfl⟩
  · rename_i hn
    rw [if_neg hn] at h
    omega

/-- What the reload demands of the points and links of a graph file with the header `d`. -/
structure Readable (d : Descr) (ls : List (List FilePt)) : Prop where
  layers : ls.length ≤ 16
  nbLayer : d.nbLayer.toNat ≤ 16
  /-- not more points than announced -/
  count : ls.flatten.length ≤ d.nbPoint.toNat
  announced : d.nbPoint.toNat < 2 ^ 63
  ranks : ∀ l ∈ ls, l.length ≤ 2 ^ 31
  /-- each point at its place -/
  place : ∀ (l r : Nat) fs f, ls[l]? = some fs → fs[r]? = some f → f.pid = ⟨l, r⟩
  lists : ∀ l ∈ ls, ∀ f ∈ l, f.lists.length = d.nbLayer.toNat
  /-- links lead to points of the file -/
  links : ∀ l ∈ ls, ∀ f ∈ l, ∀ ns ∈ f.lists, ∀ n ∈ ns, ∃ l' ∈ ls, ∃ f' ∈ l', n.pId = f'.pid
  /-- without positions in the file every link leads to the first point -/
  light : d.mode ≠ 1 → ∀ l ∈ ls, ∀ f ∈ l, ∀ ns ∈ f.lists, ∀ n ∈ ns, n.pId = ⟨0, 0⟩

/-- no NaN in the links of a file -/
def NoNaNLinks (ls : List (List FilePt)) : Prop :=
  ∀ l ∈ ls, ∀ f ∈ l, ∀ ns ∈ f.lists, ∀ n ∈ ns, n.distance.isNaN = false

/-- What a successful reload of the tables tells of the graph file. -/
theorem loadIndexation_graph {P : Policy T} (L : P.Lawful) {ty : Ty T} {d : Descr} {dm : Option DataMap}
    {o : ReloadOptions} {s s' : Two} {idx : Idx T} {m : List Bool}
    (h : loadIndexation P ty d dm o s = .ok ((idx, m), s')) :
    ∃ (ls : List (List FilePt)) (eid : DataId) (e : Ref T), idx.entry = some e ∧
      s.1 = [UInt8.ofNat ls.length] ++ ls.flatMap (anyLayer d.mode) ++ leBytes 8 eid.toNat ++
        pidBytes e.pid ++ s'.1 ∧
      Readable d ls ∧ (∃ l ∈ ls, ∃ f ∈ l, f.pid = e.pid) ∧
      (idx.layers.map fun l => l.map fun p => (p.origin, p.pid)) =
        (ls.map fun l => l.map fun f => (f.id, f.pid)) ∧
      ∀ l ∈ ls, ∀ f ∈ l, 
        (∀ k, f.lists[k]? = none → idx.nb f.pid k = []) ∧
        ∀ (k : Nat) ns, f.lists[k]? = some ns →
          ((idx.nb f.pid k).map fun e => (e.pt.pid, e.dist)).Perm (ns.map fun n => (n.pId, n.distance)) := by
  unfold loadIndexation at h
  replace h := Rd.bind_ok h
  obtain ⟨_, s1, h1, h⟩ := h
  replace h := Rd.bind_ok h
  obtain ⟨nbL, s2, h2, h⟩ := h
  replace h := Rd.bind_ok h
  obtain ⟨_, s3, h3, h⟩ := h
  replace h := Rd.bind_ok h
  obtain ⟨recs, s4, h4, h⟩ := h
  replace h := Rd.bind_ok h
  obtain ⟨t, s5, h5, h⟩ := h
  replace h := Rd.bind_ok h
  obtain ⟨or, s6, h6, h⟩ := h
  replace h := Rd.bind_ok h
  obtain ⟨la, s7, h7, h⟩ := h
  replace h := Rd.bind_ok h
  obtain ⟨rk, s8, h8, h⟩ := h
  replace h := Rd.bind_ok h
  obtain ⟨e, s9, h9, h⟩ := h
  obtain ⟨-, rfl⟩ := Rd.require_ok h1
  obtain ⟨c3, rfl⟩ := Rd.require_ok h3
  obtain ⟨h5x, rfl⟩ := Rd.lift_ok h5
  obtain ⟨h9x, rfl⟩ := Rd.lift_ok h9
  obtain ⟨hx, rfl⟩ := pure_ok h
  rw [Prod.mk.injEq] at hx
  obtain ⟨hx1, hx2⟩ := hx
  subst hx1 hx2
  obtain ⟨l1, l2, l2r, ls, l3, l4⟩ := loadLayers_graph h4
  obtain ⟨-, m2, -⟩ := loadLayers_ok h4
  simp only [decide_eq_true_eq] at c3
  have hids : ∀ (l r : Nat) ps (p : Ref T), (recs.map fun l => l.map (·.pt))[l]? = some ps → ps[r]? = some p →
      p.pid = ⟨l, r⟩ := by
    intro l r ps p hps hp
    rw [List.getElem?_map] at hps
    cases hl : recs[l]? with
    | none => simp [hl] at hps
    | some qs =>
      simp only [hl, Option.map_some, Option.some.injEq] at hps
      rw [← hps, List.getElem?_map] at hp
      cases hr : qs[r]? with
      | none => simp [hr] at hp
      | some x =>
        simp only [hr, Option.map_some, Option.some.injEq] at hp
        have := m2 l qs hl r x hr
        rw [← hp, this]
        simp
  obtain ⟨e6, e6'⟩ := readNat_ok' (onG_ok h6).1
  have hepid : e.pid = ⟨la, rk⟩ := by
    obtain ⟨l, hl1, hl2⟩ := resolve_ok h9x
    exact hids _ _ _ _ hl1 hl2
  -- a point of the file, found by its place
  have hfile : ∀ (a b : Nat) (fs : List FilePt) (f : FilePt), ls[a]? = some fs → fs[b]? = some f →
      ∃ (ps : List (PointRec T)) (r : PointRec T), recs[a]? = some ps ∧ ps[b]? = some r ∧ FromFile d r f ∧
        f.pid = ⟨a, b⟩ := by
    intro a b fs f ha hb
    obtain ⟨ps, hps, hfa⟩ := both_get l3 ha
    obtain ⟨r, hr, hff⟩ := both_get hfa hb
    refine ⟨ps, r, hps, hr, hff, ?_⟩
    have := m2 a ps hps b r hr
    rw [← hff.2.1, this]
    simp
  have hlayers : ((recs.map fun l => l.map (·.pt)).map fun l => l.map fun p => (p.origin, p.pid)) =
      (ls.map fun l => l.map fun f => (f.id, f.pid)) := by
    rw [List.map_map]
    refine both_map (R := Both (FromFile d)) ?_ l3
    intro a b hab
    simp only [Function.comp_apply, List.map_map]
    refine both_map ?_ hab
    intro r f hrf
    simp only [Function.comp_apply, hrf.1, hrf.2.1]
  -- positions of points are positions in the file
  have hpos : ∀ p : Ref T, p ∈ (recs.map fun l => l.map (·.pt)).flatten → ∃ l ∈ ls, ∃ f ∈ l, f.pid = p.pid := by
    intro p hp
    obtain ⟨ps, hps, hp⟩ := List.mem_flatten.1 hp
    have : ps.map (fun p => (p.origin, p.pid)) ∈ ls.map fun l => l.map fun f => (f.id, f.pid) := by
      rw [← hlayers]
      exact List.mem_map.2 ⟨ps, hps, rfl⟩
    obtain ⟨l, hl, hle⟩ := List.mem_map.1 this
    have h' : (p.origin, p.pid) ∈ l.map fun f => (f.id, f.pid) := by
      rw [hle]; exact List.mem_map.2 ⟨p, hp, rfl⟩
    obtain ⟨f, hf, hfe⟩ := List.mem_map.1 h'
    rw [Prod.mk.injEq] at hfe
    exact ⟨l, hl, f, hf, hfe.2⟩
  have hlists : ∀ (a b : Nat) (ps : List (PointRec T)) (r : PointRec T) (f : FilePt), recs[a]? = some ps →
      ps[b]? = some r → FromFile d r f → f.pid = ⟨a, b⟩ → d.nbLayer.toNat ≤ nbLayerMax ∧
        (∀ k, f.lists[k]? = none → tableNb t f.pid k = []) ∧
        ∀ (k : Nat) ns, f.lists[k]? = some ns →
          linkList P (recs.map fun l => l.map (·.pt)) ns = .ok (tableNb t f.pid k) := by
    intro a b ps r f ha hb hf hpid
    obtain ⟨-, g2, g3, g4, -⟩ := hf
    rw [hpid]
    have hl0 := (tableNb_lists h5x ha hb 0).1
    rw [g4, List.length_append, List.length_replicate, g3] at hl0
    refine ⟨by omega, ?_, ?_⟩
    · intro k hk
      obtain ⟨-, i2, i3⟩ := tableNb_lists h5x ha hb k
      rw [List.getElem?_eq_none_iff] at hk
      by_cases hk2 : k < nbLayerMax
      · have hr : r.lists[k]? = some [] := by
          rw [g4, List.getElem?_append_right hk, List.getElem?_replicate]
          rw [if_pos (by omega)]
        have h' := i3 [] hr
        have := linkList_perm L hids h'
        simpa using this.length_eq
      · apply i2
        rw [List.getElem?_eq_none_iff, g4, List.length_append, List.length_replicate]
        omega
    · intro k ns hk
      obtain ⟨-, -, i3⟩ := tableNb_lists h5x ha hb k
      apply i3
      rw [g4, List.getElem?_append_left (List.getElem?_eq_some_iff.1 hk).1]
      exact hk
  have hmem : ∀ l ∈ ls, ∀ f ∈ l, ∃ (ps : List (PointRec T)) (r : PointRec T), FromFile d r f ∧
      recs[f.pid.layer]? = some ps ∧ ps[f.pid.rank]? = some r := by
    intro l hl f hf
    obtain ⟨a, ha, rfl⟩ := List.getElem_of_mem hl
    obtain ⟨b, hb, rfl⟩ := List.getElem_of_mem hf
    obtain ⟨ps, r, k1, k2, k3, k4⟩ := hfile a b _ _ (List.getElem?_eq_getElem ha) (List.getElem?_eq_getElem hb)
    rw [k4]
    exact ⟨ps, r, k3, k1, k2⟩
  have hent := hpos e (resolve_mem h9x)
  have hne : recs.flatten ≠ [] := by
    intro h0
    have := resolve_mem h9x
    rw [← List.map_flatten, h0] at this
    cases this
  have hcount : (recs.flatten.length : Int) ≤ asI64 d.nbPoint.toNat := by
    rcases l2 with l2 | l2
    · exact absurd l2 hne
    · exact l2
  have hflat : ls.flatten.length = recs.flatten.length := by
    have := congrArg (fun l => l.flatten.length) hlayers
    simp only [← List.map_flatten, List.length_map] at this
    exact this.symm
  have hpos' := asI64_pos (n := d.nbPoint.toNat) d.nbPoint.toNat_lt (by
    have := List.length_pos_iff.2 hne
    omega)
  refine ⟨ls, UInt64.ofNat or, e, rfl, ?_, ?_, hent, hlayers, ?_⟩
  · rw [(readNat_ok' (onG_ok h2).1).1, l4, e6, (readNat_ok' (onG_ok h7).1).1,
      (readNat_ok' (onG_ok h8).1).1, u64_lt e6', hepid, leBytes_one, leBytes_one, ← both_len l3, l1]
    simp [pidBytes]
  · refine ⟨?_, ?_, ?_, hpos'.1, ?_, ?_, ?_, ?_, ?_⟩
    · rw [← both_len l3, l1]; exact c3
    · obtain ⟨l, hl, f, hf, -⟩ := hent
      obtain ⟨ps, r, k1, k2, k3⟩ := hmem l hl f hf
      exact (hlists _ _ ps r f k2 k3 k1 rfl).1
    · rw [hpos'.2] at hcount
      omega
    · intro l hl
      obtain ⟨a, ha, rfl⟩ := List.getElem_of_mem hl
      obtain ⟨ps, hps, hfa⟩ := both_get l3 (List.getElem?_eq_getElem ha)
      rw [← both_len hfa]
      exact l2r ps (List.mem_of_getElem? hps)
    · intro l r fs f hfs hf
      obtain ⟨ps, r, -, -, -, k4⟩ := hfile l r fs f hfs hf
      exact k4
    · intro l hl f hf
      obtain ⟨ps, r, k1, -⟩ := hmem l hl f hf
      exact k1.2.2.1
    · intro l hl f hf ns hns n hn
      obtain ⟨ps, r, k1, k2, k3⟩ := hmem l hl f hf
      obtain ⟨k, hk, rfl⟩ := List.getElem_of_mem hns
      have hll := (hlists _ _ ps r f k2 k3 k1 rfl).2.2 k _ (List.getElem?_eq_getElem hk)
      have hperm := linkList_perm L hids hll
      have : (n.pId, n.distance) ∈ (tableNb t f.pid k).map fun e => (e.pt.pid, e.dist) :=
        hperm.mem_iff.2 (List.mem_map.2 ⟨n, hn, rfl⟩)
      obtain ⟨e', he', hee⟩ := List.mem_map.1 this
      rw [Prod.mk.injEq] at hee
      obtain ⟨l', hl', f', hf', hpp⟩ := hpos e'.pt ((linkList_ok L hll).1 e' he')
      exact ⟨l', hl', f', hf', by rw [hpp, hee.1]⟩
    · intro hm l hl f hf ns hns n hn
      obtain ⟨ps, r, k1, -⟩ := hmem l hl f hf
      exact k1.2.2.2.2 ns hns n hn hm
  · intro l hl f hf
    obtain ⟨ps, r, k1, k2, k3⟩ := hmem l hl f hf
    obtain ⟨-, i1, i2⟩ := hlists _ _ ps r f k2 k3 k1 rfl
    exact ⟨i1, fun k ns hk => linkList_perm L hids (i2 k ns hk)⟩

/-! ## without map -/

theorem loadPoint_unmapped {ty : Ty T} {d : Descr} {dm : Option DataMap} {s s' : Two}
    {p : PointRec T} (h : loadPoint ty d dm false s = .ok (p, s')) : p.mapped = false := by
  unfold loadPoint at h
  replace h := Rd.bind_ok h
  obtain ⟨⟨origin, pid, lists⟩, s1, h1, h⟩ := h
  simp only [Bool.false_eq_true, if_false] at h
  replace h := Rd.bind_ok h
  obtain ⟨v, s2, h2, h⟩ := h
  obtain ⟨rfl, rfl⟩ := pure_ok h
  rfl

theorem loadPoints_unmapped {ty : Ty T} {d : Descr} {dm : Option DataMap} {o : ReloadOptions}
    (ho : o.datamap = false) {l n r : Nat} {still still' : Int} {s s' : Two} {ps : List (PointRec T)}
    (h : loadPoints ty d dm o l n r still s = .ok ((ps, still'), s')) : ∀ p ∈ ps, p.mapped = false := by
  induction n generalizing r still s ps still' with
  | zero =>
    unfold loadPoints at h
    obtain ⟨h1, rfl⟩ := pure_ok h
    rw [Prod.mk.injEq] at h1
    rw [h1.1]
    simp
  | succ n ih =>
    unfold loadPoints at h
    have hmm : pointUseMmap o still = false := by unfold pointUseMmap; rw [ho]; rfl
    rw [hmm] at h
    replace h := Rd.bind_ok h
    obtain ⟨p, s1, h1, h⟩ := h
    replace h := Rd.bind_ok h
    obtain ⟨_, s2, h2, h⟩ := h
    replace h := Rd.bind_ok h
    obtain ⟨_, s3, h3, h⟩ := h
    replace h := Rd.bind_ok h
    obtain ⟨_, s4, h4, h⟩ := h
    replace h := Rd.bind_ok h
    obtain ⟨⟨ps', st'⟩, s5, h5, h⟩ := h
    obtain ⟨h6, rfl⟩ := pure_ok h
    rw [Prod.mk.injEq] at h6
    obtain ⟨rfl, rfl⟩ := h6
    intro q hq
    rcases List.mem_cons.1 hq with rfl | hq
    · exact loadPoint_unmapped h1
    · exact ih h5 q hq

theorem loadLayers_unmapped {ty : Ty T} {d : Descr} {dm : Option DataMap} {o : ReloadOptions}
    (ho : o.datamap = false) {n l : Nat} {still : Int} {s s' : Two} {rs : List (List (PointRec T))}
    (h : loadLayers ty d dm o n l still s = .ok (rs, s')) : ∀ p ∈ rs.flatten, p.mapped = false := by
  induction n generalizing l still s rs with
  | zero =>
    unfold loadLayers at h
    obtain ⟨rfl, rfl⟩ := pure_ok h
    simp
  | succ n ih =>
    unfold loadLayers at h
    replace h := Rd.bind_ok h
    obtain ⟨magic, s1, h1, h⟩ := h
    replace h := Rd.bind_ok h
    obtain ⟨_, s2, h2, h⟩ := h
    replace h := Rd.bind_ok h
    obtain ⟨nb, s3, h3, h⟩ := h
    replace h := Rd.bind_ok h
    obtain ⟨⟨ps, still'⟩, s4, h4, h⟩ := h
    replace h := Rd.bind_ok h
    obtain ⟨ls, s5, h5, h⟩ := h
    obtain ⟨rfl, rfl⟩ := pure_ok h
    intro q hq
    rw [List.flatten_cons, List.mem_append] at hq
    rcases hq with hq | hq
    · exact loadPoints_unmapped ho h4 q hq
    · exact ih h5 q hq

theorem loadIndexation_unmapped {P : Policy T} {ty : Ty T} {d : Descr} {dm : Option DataMap}
    {o : ReloadOptions} (ho : o.datamap = false) {s s' : Two} {idx : Idx T} {m : List Bool}
    (h : loadIndexation P ty d dm o s = .ok ((idx, m), s')) : ∀ b ∈ m, b = false := by
  unfold loadIndexation at h
  replace h := Rd.bind_ok h
  obtain ⟨_, s1, h1, h⟩ := h
  replace h := Rd.bind_ok h
  obtain ⟨nbL, s2, h2, h⟩ := h
  replace h := Rd.bind_ok h
  obtain ⟨_, s3, h3, h⟩ := h
  replace h := Rd.bind_ok h
  obtain ⟨recs, s4, h4, h⟩ := h
  replace h := Rd.bind_ok h
  obtain ⟨t, s5, h5, h⟩ := h
  replace h := Rd.bind_ok h
  obtain ⟨or, s6, h6, h⟩ := h
  replace h := Rd.bind_ok h
  obtain ⟨la, s7, h7, h⟩ := h
  replace h := Rd.bind_ok h
  obtain ⟨rk, s8, h8, h⟩ := h
  replace h := Rd.bind_ok h
  obtain ⟨e, s9, h9, h⟩ := h
  obtain ⟨hx, rfl⟩ := pure_ok h
  rw [Prod.mk.injEq] at hx
  intro b hb
  rw [hx.2] at hb
  obtain ⟨p, hp, rfl⟩ := List.mem_map.1 hb
  exact loadLayers_unmapped ho h4 p hp

/-- a reload keeps the options -/
theorem load_opts {P : Policy T} {ty : Ty T} {defScale : Nat → F64} {dist : Dist T}
    {io io' : HnswIo} {fs : Dir} {x : Loaded T}
    (hx : io.loadHnsw P ty defScale dist fs = (io', .ok x)) : io'.opts = io.opts := by
  unfold HnswIo.loadHnsw at hx
  split at hx
  · cases hx
  · split at hx
    · cases hx
    · split at hx
      · cases hx
      · split at hx
        · cases hx
        · rename_i io1 hm
          have h1 : io1.opts = io.opts := by
            unfold HnswIo.mapData at hm
            split at hm
            · split at hm
              · injection hm with hm; subst hm; rfl
              · injection hm with hm; subst hm; rfl
              · cases hm
            · injection hm with hm; subst hm; rfl
          split at hx
          · cases hx
          · rw [Prod.mk.injEq] at hx
            rw [← hx.1]; exact h1

end Verif
