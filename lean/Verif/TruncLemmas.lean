import Verif.LoadLemmas

set_option autoImplicit false

/-!
# Truncated files, longer files, unreadable vectors
-/

namespace Verif
variable {T T' : Type}

/-! ## Readers do not look further than what they consume -/

theorem ext_loadStr : Ext1 loadStr := by
  unfold loadStr
  refine (ext_readNat (by decide) _).bind fun n => ?_
  refine (Ext1.require _).bind fun _ => ?_
  refine (ext_readExact (by decide) _).bind fun b => ?_
  split
  · exact .pure _
  · exact .fail _

theorem ext_loadDescr : Ext1 loadDescr := by
  unfold loadDescr
  refine (ext_readNat (by decide) _).bind fun magic => ?_
  split
  · exact .fail _
  · refine (ext_readNat (by decide) _).bind fun _ => ?_
    refine (ext_readNat (by decide) _).bind fun _ => ?_
    refine Ext1.bind ?_ fun _ => ?_
    · unfold loadScale
      split
      · exact (ext_readNat (by decide) _).bind fun _ => .pure _
      · exact .pure _
    refine (ext_readNat (by decide) _).bind fun _ => ?_
    refine (ext_readNat (by decide) _).bind fun _ => ?_
    refine (ext_readNat (by decide) _).bind fun _ => ?_
    refine (ext_readNat (by decide) _).bind fun _ => ?_
    exact ext_loadStr.bind fun _ => ext_loadStr.bind fun _ => .pure _

theorem ext_loadNeighbour (m : UInt8) : Ext1 (loadNeighbour m) := by
  unfold loadNeighbour
  refine (ext_readNat (by decide) _).bind fun _ => ?_
  refine Ext1.bind ?_ fun _ => ?_
  · unfold loadNbPid
    split
    · exact (ext_readNat (by decide) _).bind fun _ => (ext_readNat (by decide) _).bind fun _ => .pure _
    · exact .pure _
  exact (ext_readNat (by decide) _).bind fun _ => .pure _

theorem ext_loadList (m : UInt8) : Ext1 (loadList m) :=
  (ext_readNat (by decide) _).bind fun _ => (ext_loadNeighbour m).rep _

theorem ext_loadPointGraph (d : Descr) : Ext1 (loadPointGraph d) := by
  unfold loadPointGraph
  refine (ext_readNat (by decide) _).bind fun _ => ?_
  refine (Ext1.require _).bind fun _ => ?_
  refine (ext_readNat (by decide) _).bind fun _ => ?_
  refine (ext_readNat (by decide) _).bind fun _ => ?_
  refine (ext_readNat (by decide) _).bind fun _ => ?_
  exact ((ext_loadList _).rep _).bind fun _ => .pure _

theorem ext_readRecord {e : Fail} (he : e ≠ .ub) (origin : DataId) : Ext1 (readRecord e origin) := by
  unfold readRecord
  refine (ext_readNat he _).bind fun _ => ?_
  refine (Ext1.require _).bind fun _ => ?_
  refine (ext_readNat he _).bind fun _ => ?_
  refine (Ext1.require _).bind fun _ => ?_
  exact (ext_readNat he _).bind fun _ => ext_readExact he _

theorem ext_loadPoint (ty : Ty T) (d : Descr) (dm : Option DataMap) (mm : Bool) :
    Ext (loadPoint ty d dm mm) := by
  unfold loadPoint
  refine (ext_loadPointGraph d).onG.bind fun x => ?_
  obtain ⟨origin, pid, lists⟩ := x
  cases mm <;> simp only [Bool.false_eq_true, if_true, if_false]
  rotate_left
  · refine (ext_readRecord (e := .err) (by decide) _).onD.bind fun _ => ?_
    exact (Ext.lift _).bind fun _ => .pure _
  · refine Ext.bind (Ext1.onD ?_) fun _ => .pure _
    exact (ext_readRecord (e := .exit) (by decide) _).bind fun _ => Ext1.lift _

theorem ext_loadPoints (ty : Ty T) (d : Descr) (dm : Option DataMap) (o : ReloadOptions) (l : Nat)
    (n r : Nat) (still : Int) : Ext (loadPoints ty d dm o l n r still) := by
  induction n generalizing r still with
  | zero => exact .pure _
  | succ n ih =>
    unfold loadPoints
    refine (ext_loadPoint ..).bind fun p => ?_
    refine (Ext.require _).bind fun _ => ?_
    refine (Ext.require _).bind fun _ => ?_
    refine (Ext.require _).bind fun _ => ?_
    exact (ih _ _).bind fun _ => .pure _

theorem ext_loadLayers (ty : Ty T) (d : Descr) (dm : Option DataMap) (o : ReloadOptions)
    (n l : Nat) (still : Int) : Ext (loadLayers ty d dm o n l still) := by
  induction n generalizing l still with
  | zero => exact .pure _
  | succ n ih =>
    unfold loadLayers
    refine (ext_readNat (by decide) _).onG.bind fun _ => ?_
    refine (Ext.require _).bind fun _ => ?_
    refine (ext_readNat (by decide) _).onG.bind fun _ => ?_
    refine (ext_loadPoints ..).bind fun x => ?_
    exact (ih _ _).bind fun _ => .pure _

theorem ext_loadIndexation (P : Policy T) (ty : Ty T) (d : Descr) (dm : Option DataMap)
    (o : ReloadOptions) : Ext (loadIndexation P ty d dm o) := by
  unfold loadIndexation
  refine (Ext.require _).bind fun _ => ?_
  refine (ext_readNat (by decide) _).onG.bind fun _ => ?_
  refine (Ext.require _).bind fun _ => ?_
  refine (ext_loadLayers ..).bind fun recs => ?_
  refine (Ext.lift _).bind fun _ => ?_
  refine (ext_readNat (by decide) _).onG.bind fun _ => ?_
  refine (ext_readNat (by decide) _).onG.bind fun _ => ?_
  refine (ext_readNat (by decide) _).onG.bind fun _ => ?_
  exact (Ext.lift _).bind fun _ => .pure _

theorem ext_loadDataHeader (d : Descr) : Ext (loadDataHeader d) := by
  unfold loadDataHeader
  refine (ext_readNat (by decide) _).onD.bind fun _ => ?_
  refine (Ext.require _).bind fun _ => ?_
  exact (ext_readNat (by decide) _).onD.bind fun _ => Ext.require _

/-! ## What is consumed does not depend on the vectors -/

/-- The part of the reload that only looks at the shape of the files. -/
def skelTy : Ty Unit := ⟨"", true, 0, 1, fun _ => [], fun _ => (), fun _ => none⟩

/-- a successful reader consumes what another one consumes, and that one succeeds as well -/
def Sim {α β : Type} (m : Rd Two α) (m' : Rd Two β) (R : α → β → Prop) : Prop :=
  ∀ (s s' : Two) (a : α), m s = .ok (a, s') → ∃ b, m' s = .ok (b, s') ∧ R a b

theorem Sim.bind {α β α' β' : Type} {m : Rd Two α} {m' : Rd Two β} {R : α → β → Prop}
    {f : α → Rd Two α'} {f' : β → Rd Two β'} {R' : α' → β' → Prop} (h : Sim m m' R)
    (hf : ∀ a b, R a b → Sim (f a) (f' b) R') : Sim (m >>= f) (m' >>= f') R' := by
  intro s s' a' h'
  obtain ⟨a, s1, h1, h2⟩ := Rd.bind_ok h'
  obtain ⟨b, h3, hR⟩ := h _ _ _ h1
  obtain ⟨b', h4, hR'⟩ := hf a b hR _ _ _ h2
  exact ⟨b', by rw [Rd.bind_eq h3, h4], hR'⟩

theorem Sim.refl {α : Type} (m : Rd Two α) : Sim m m (fun a b => a = b) := fun _ _ _ h => ⟨_, h, rfl⟩

theorem Sim.drop {α β α' : Type} {m : Rd Two α} {f : α → Rd Two α'} {m' : Rd Two β}
    {R : α' → β → Prop} (hm : ∀ s a s', m s = .ok (a, s') → s' = s) (hf : ∀ a, Sim (f a) m' R) :
    Sim (m >>= f) m' R := by
  intro s s' a' h'
  obtain ⟨a, s1, h1, h2⟩ := Rd.bind_ok h'
  rw [hm _ _ _ h1] at h2
  exact hf a _ _ _ h2

theorem Sim.pure {α β : Type} {a : α} {b : β} {R : α → β → Prop} (h : R a b) :
    Sim (Pure.pure a) (Pure.pure b) R := by
  intro s s' x hx
  injection hx with hx; injection hx with h1 h2; subst h1 h2
  exact ⟨b, rfl, h⟩

theorem readRecord_sim {e e' : Fail} {origin : DataId} {d d' : Bytes} {b : Bytes}
    (h : readRecord e origin d = .ok (b, d')) : readRecord e' origin d = .ok (b, d') := by
  have hN : ∀ {n k : Nat} {s s' : Bytes}, readNat e n s = .ok (k, s') → readNat e' n s = .ok (k, s') := by
    intro n k s s' hk
    unfold readNat at hk ⊢
    obtain ⟨a, s1, h1, h2⟩ := Rd.bind_ok hk
    have : readExact e' n s = .ok (a, s1) := by
      unfold readExact at h1 ⊢
      split at h1
      · rename_i hle; rw [if_pos hle]; exact h1
      · cases h1
    rw [Rd.bind_eq this]; exact h2
  unfold readRecord at h ⊢
  obtain ⟨a, s1, h1, h2⟩ := Rd.bind_ok h
  obtain ⟨u, s2, h3, h4⟩ := Rd.bind_ok h2
  obtain ⟨a3, s3, h5, h6⟩ := Rd.bind_ok h4
  obtain ⟨a4, s4, h7, h8⟩ := Rd.bind_ok h6
  obtain ⟨a5, s5, h9, h10⟩ := Rd.bind_ok h8
  rw [Rd.bind_eq (hN h1), Rd.bind_eq h3, Rd.bind_eq (hN h5), Rd.bind_eq h7, Rd.bind_eq (hN h9)]
  unfold readExact at h10 ⊢
  split at h10
  · rename_i hle; rw [if_pos hle]; exact h10
  · cases h10

theorem sim_loadPoint (ty : Ty T) (d : Descr) (dm : Option DataMap) (mm : Bool) :
    Sim (loadPoint ty d dm mm) (loadPoint skelTy d none false) (fun a b => a.pt.pid = b.pt.pid) := by
  unfold loadPoint
  refine Sim.bind (Sim.refl _) ?_
  rintro ⟨origin, pid, lists⟩ _ rfl
  intro s s' a h
  have hS : ∀ {e : Fail} {b : Bytes} {s1 : Two}, onD (readRecord e origin) s = .ok (b, s1) →
      onD (loadPointData skelTy d origin) s = .ok ([], s1) := by
    intro e b s1 hb
    unfold onD at hb ⊢
    cases hr : readRecord e origin s.2 with
    | error e => rw [hr] at hb; cases hb
    | ok x =>
      obtain ⟨v, d1⟩ := x
      rw [hr] at hb
      have := readRecord_sim (e' := .exit) hr
      unfold loadPointData
      rw [Rd.bind_eq this]
      simp only [recordVec, skelTy, if_true, Rd.lift]
      injection hb with hb; injection hb with _ hb; subst hb; rfl
  have key : ∃ s1 : Two, (∃ e b, onD (readRecord e origin) s = .ok (b, s1)) ∧ s' = s1 ∧ a.pt.pid = pid := by
    cases mm with
    | true =>
      simp only [if_true] at h
      obtain ⟨b, s1, h1, h2⟩ := Rd.bind_ok h
      obtain ⟨v, s2, h3, h4⟩ := Rd.bind_ok h2
      obtain ⟨_, rfl⟩ := Rd.lift_ok h3
      injection h4 with h4; injection h4 with h5 h6
      subst h5 h6
      exact ⟨_, ⟨_, _, h1⟩, rfl, rfl⟩
    | false =>
      simp only [Bool.false_eq_true, if_false] at h
      obtain ⟨v, s1, h1, h2⟩ := Rd.bind_ok h
      injection h2 with h2; injection h2 with h5 h6
      subst h5 h6
      unfold onD at h1
      cases hr : loadPointData ty d origin s.2 with
      | error e => rw [hr] at h1; cases h1
      | ok x =>
        obtain ⟨v', d1⟩ := x
        rw [hr] at h1
        unfold loadPointData at hr
        obtain ⟨b, s2, h3, h4⟩ := Rd.bind_ok hr
        obtain ⟨_, rfl⟩ := Rd.lift_ok h4
        injection h1 with h1; injection h1 with h5 h6
        refine ⟨_, ⟨.exit, b, ?_⟩, rfl, rfl⟩
        unfold onD
        rw [h3, ← h6]
  obtain ⟨s1, ⟨e, b, hb⟩, hs, hp⟩ := key
  subst hs
  refine ⟨⟨⟨pid, origin, []⟩, lists, false⟩, ?_, hp⟩
  simp only [Bool.false_eq_true, if_false]
  rw [Rd.bind_eq (hS hb)]
  rfl

theorem sim_loadPoints (ty : Ty T) (d : Descr) (dm : Option DataMap) (o : ReloadOptions) (l : Nat)
    (n r : Nat) (still : Int) :
    Sim (loadPoints ty d dm o l n r still) (loadPoints skelTy d none .default l n r still)
      (fun a b => a.2 = b.2) := by
  induction n generalizing r still with
  | zero => exact Sim.pure rfl
  | succ n ih =>
    unfold loadPoints
    have hmm : pointUseMmap ReloadOptions.default still = false := rfl
    rw [hmm]
    refine Sim.bind (sim_loadPoint ty d dm _) fun p q hpq => ?_
    rw [hpq]
    refine Sim.bind (Sim.refl _) fun _ _ _ => ?_
    refine Sim.bind (Sim.refl _) fun _ _ _ => ?_
    refine Sim.bind (Sim.refl _) fun _ _ _ => ?_
    refine Sim.bind (ih _ _) fun x y hxy => ?_
    exact Sim.pure hxy

theorem sim_loadLayers (ty : Ty T) (d : Descr) (dm : Option DataMap) (o : ReloadOptions)
    (n l : Nat) (still : Int) :
    Sim (loadLayers ty d dm o n l still) (loadLayers skelTy d none .default n l still)
      (fun _ _ => True) := by
  induction n generalizing l still with
  | zero => exact Sim.pure trivial
  | succ n ih =>
    unfold loadLayers
    refine Sim.bind (Sim.refl _) fun _ _ h => ?_
    subst h
    refine Sim.bind (Sim.refl _) fun _ _ _ => ?_
    refine Sim.bind (Sim.refl _) fun _ _ h => ?_
    subst h
    refine Sim.bind (sim_loadPoints ty d dm o l _ _ _) fun x y hxy => ?_
    obtain ⟨ps, st⟩ := x
    obtain ⟨ps', st'⟩ := y
    simp only at hxy
    subst hxy
    exact Sim.bind (ih _ _) fun _ _ _ => Sim.pure trivial

/-- the shape of `loadIndexation` -/
def skelIndexation (d : Descr) : Rd Two Unit := do
  let nbLayer ← onG (readNat .err 1)
  Rd.require (nbLayer ≤ nbLayerMax) .err
  let _ ← loadLayers skelTy d none .default nbLayer 0 (asI64 d.nbPoint.toNat)
  let _ ← onG (readNat .err 8)
  let _ ← onG (readNat .err 1)
  let _ ← onG (readNat .err 4)
  pure ()

theorem sim_loadIndexation (P : Policy T) (ty : Ty T) (d : Descr) (dm : Option DataMap)
    (o : ReloadOptions) : Sim (loadIndexation P ty d dm o) (skelIndexation d) (fun _ _ => True) := by
  unfold loadIndexation skelIndexation
  refine Sim.drop (fun _ _ _ h => (Rd.require_ok h).2) fun _ => ?_
  refine Sim.bind (Sim.refl _) fun _ _ h => ?_
  subst h
  refine Sim.bind (Sim.refl _) fun _ _ _ => ?_
  refine Sim.bind (sim_loadLayers ty d dm o _ _ _) fun recs _ _ => ?_
  refine Sim.drop (fun _ _ _ h => (Rd.lift_ok h).2) fun _ => ?_
  refine Sim.bind (Sim.refl _) fun _ _ _ => ?_
  refine Sim.bind (Sim.refl _) fun _ _ _ => ?_
  refine Sim.bind (Sim.refl _) fun _ _ _ => ?_
  refine Sim.drop (fun _ _ _ h => (Rd.lift_ok h).2) fun _ => ?_
  exact Sim.pure trivial

theorem ext_skel (d : Descr) : Ext (skelIndexation d) := by
  unfold skelIndexation
  refine (ext_readNat (by decide) _).onG.bind fun _ => ?_
  refine (Ext.require _).bind fun _ => ?_
  refine (ext_loadLayers ..).bind fun recs => ?_
  refine (ext_readNat (by decide) _).onG.bind fun _ => ?_
  refine (ext_readNat (by decide) _).onG.bind fun _ => ?_
  exact (ext_readNat (by decide) _).onG.bind fun _ => .pure _

section
variable {cfg : Cfg T} {s : Idx T}

/-- the shape of a dump is read entirely -/
theorem parses_skel {ty : Ty T} {d : Descr} (hm : d.mode = 1) (hL : d.nbLayer.toNat = nbLayerMax)
    (h : Dumpable cfg s) {e : Ref T} (he : s.entry = some e) (hn : d.nbPoint.toNat = s.nbPoint)
    (hv : ∀ p, Stored s p → (ty.encVec p.data).length < 2 ^ 64) :
    Parses2 (skelIndexation d) (idxGraphBytes s e) (s.points.flatMap (pointDataBytes ty)) () := by
  have htot := h.total
  have hcnt := h.count
  have has : asI64 d.nbPoint.toNat = s.nbPoint := by
    unfold asI64; rw [hn, if_pos (by omega)]
  have hlen : (UInt8.ofNat s.layers.length).toNat = s.layers.length := h.lens_byte
  unfold skelIndexation idxGraphBytes
  refine Parses2.bindG (parses_byte .err _).onG ?_
  refine Parses2.bind0 (Parses2.require ?_) ?_
  · rw [hlen]; have := h.lens; simpa using this
  rw [hlen, has]
  have hvl : ∀ (ps : List (Ref T)) (st : Int), (∀ p ∈ ps, Stored s p) →
      VecsLoad ty skelTy d none (fun _ => []) .default st ps := by
    intro ps
    induction ps with
    | nil => intro st _; trivial
    | cons p ps ih =>
      intro st hs
      refine ⟨⟨hv p (hs p (by simp)), ?_⟩, ih _ fun q hq => hs q (by simp [hq])⟩
      have hmm : pointUseMmap ReloadOptions.default st = false := rfl
      rw [hmm]
      rfl
  have hLay := parses_loadLayers (i := 0) hm hL (fun l hl => ⟨by have := h.ranks l hl; omega,
    fun p hp => h.fits (List.mem_flatten.mpr ⟨l, hl, hp⟩)⟩)
    (fun k l hk r p hp => by rw [h.ids hk hp]; simp) (still := (s.nbPoint : Int))
    (by unfold Idx.points at hcnt; omega) (hvl s.layers.flatten s.nbPoint (fun p hp => hp))
  have hbind := hLay.bind (f := fun _ => do
      let _ ← onG (readNat .err 8)
      let _ ← onG (readNat .err 1)
      let _ ← onG (readNat .err 4)
      Pure.pure ())
    (g' := leBytes 8 e.origin.toNat ++ pidBytes e.pid) (d' := []) (c := ()) ?_
  · rwa [List.append_nil] at hbind
  refine Parses2.bindG (parses_readNat .err (UInt64.lt_pow _)).onG ?_
  have hb : pidBytes e.pid = [UInt8.ofNat e.pid.layer] ++ leBytes 4 e.pid.rank := rfl
  rw [hb]
  refine Parses2.bindG (parses_byte .err _).onG ?_
  have := (h.lookup (h.ok.entry e he)).1
  refine Parses2.map (parses_readNat .err (by omega)).onG ?_
  exact Parses2.pure _

end

section
variable {ty : Ty T} {h : Hnsw T}

/-- A reload of a prefix of the files can only succeed if nothing is missing. -/
theorem truncated_not_ok (hd : HDumpable ty h) {fs : Dir} {io : HnswIo} {g d tg td : Bytes}
    (hg : fs (graphName io.base) = some g) (hdat : fs (dataName io.base) = some d)
    (hgt : g ++ tg = (h.dump ty true).g) (hdt : d ++ td = (h.dump ty true).d)
    (P : Policy T') (ty' : Ty T') (defScale : Nat → F64) (dist : Dist T') {x : Loaded T'}
    (hx : (io.loadHnsw P ty' defScale dist fs).2 = .ok x) : tg = [] ∧ td = [] := by
  obtain ⟨e, he⟩ := Option.ne_none_iff_exists'.mp hd.idx.entry
  rw [hd.dump he] at hgt hdt
  unfold HnswIo.loadHnsw at hx
  cases hi : io.init fs with
  | error e => rw [hi] at hx; cases hx
  | ok r =>
    obtain ⟨ds, sg, sd⟩ := r
    rw [hi] at hx
    simp only at hx
    -- the header
    unfold HnswIo.init at hi
    rw [hg, hdat] at hi
    simp only at hi
    cases hl : loadDescr g with
    | error e =>
      rw [hl] at hi
      cases e <;> cases hi
    | ok r =>
      obtain ⟨ds', g'⟩ := r
      rw [hl] at hi
      injection hi with hi; injection hi with h1 h2; injection h2 with h2 h3
      subst h1 h2 h3
      have hfull := ext_loadDescr.ok hl tg
      rw [hgt, hd.parses_descr] at hfull
      injection hfull with hfull; injection hfull with h1 h2
      subst h1
      cases hh : loadDataHeader (h.rdescr ty) (g', d) with
      | error e => rw [hh] at hx; cases hx
      | ok r =>
        obtain ⟨u, g2, d2⟩ := r
        rw [hh] at hx
        simp only at hx
        have hfull2 := (ext_loadDataHeader _).ok hh tg td
        rw [← h2, hdt] at hfull2
        have hp := hd.parses_dataHeader (idxGraphBytes h.idx e) (h.idx.points.flatMap (pointDataBytes ty))
        rw [List.nil_append] at hp
        rw [hp] at hfull2
        injection hfull2 with hfull2; injection hfull2 with _ h3; injection h3 with h3 h4
        cases hc : checkDist ty' dist.name (h.rdescr ty) with
        | error e => rw [hc] at hx; cases hx
        | ok u =>
          rw [hc] at hx
          simp only at hx
          cases hmp : io.mapData ty' fs with
          | error e => rw [hmp] at hx; cases hx
          | ok io' =>
            rw [hmp] at hx
            simp only at hx
            cases hld : loadIndexation P ty' (h.rdescr ty) io'.datamap io'.opts (g2, d2) with
            | error e => rw [hld] at hx; cases hx
            | ok r =>
              obtain ⟨v, g3, d3⟩ := r
              obtain ⟨_, hs, _⟩ := sim_loadIndexation P ty' _ _ _ _ _ _ hld
              have hfull3 := (ext_skel _).ok hs tg td
              have hp2 := parses_skel (d := h.rdescr ty) rfl hd.nbLayer hd.idx he hd.nbPoint_eq
                (fun p hp => (hd.vec p hp).1) [] []
              rw [List.append_nil, List.append_nil] at hp2
              rw [← h3, ← h4, hp2] at hfull3
              injection hfull3 with hfull3; injection hfull3 with _ h5; injection h5 with h5 h6
              exact ⟨(List.append_eq_nil_iff.mp h5.symm).2, (List.append_eq_nil_iff.mp h6.symm).2⟩

end

/-! ## Vectors that are too short -/

/-- on these bytes, whatever follows, the reader fails in this way -/
def Fails2 {α : Type} (m : Rd Two α) (g d : Bytes) (e : Fail) : Prop :=
  ∀ rg rd, m (g ++ rg, d ++ rd) = .error e

theorem Fails2.left {α β : Type} {m : Rd Two α} {f : α → Rd Two β} {g d g' d' : Bytes} {e : Fail}
    (h : Fails2 m g d e) : Fails2 (m >>= f) (g ++ g') (d ++ d') e := by
  intro rg rd
  rw [List.append_assoc, List.append_assoc, Rd.bind_run, h]

theorem Fails2.right {α β : Type} {m : Rd Two α} {f : α → Rd Two β} {g d g' d' : Bytes} {e : Fail}
    {a : α} (hm : Parses2 m g d a) (h : Fails2 (f a) g' d' e) :
    Fails2 (m >>= f) (g ++ g') (d ++ d') e := by
  intro rg rd
  rw [List.append_assoc, List.append_assoc, Rd.bind_eq (hm _ _), h]

theorem Fails2.rightG {α β : Type} {m : Rd Two α} {f : α → Rd Two β} {g g' d' : Bytes} {e : Fail}
    {a : α} (hm : Parses2 m g [] a) (h : Fails2 (f a) g' d' e) :
    Fails2 (m >>= f) (g ++ g') d' e := Fails2.right hm h

theorem Fails2.right0 {α β : Type} {m : Rd Two α} {f : α → Rd Two β} {g' d' : Bytes} {e : Fail}
    {a : α} (hm : Parses2 m [] [] a) (h : Fails2 (f a) g' d' e) :
    Fails2 (m >>= f) g' d' e := Fails2.right hm h

section
variable {ty : Ty T}

theorem Ty.decVec_take (hT : ty.Lawful) (n : Nat) (v : List T) (h : n ≤ v.length) :
    ty.decVec n (ty.encVec v) = v.take n := by
  have hv : ty.encVec v = ty.encVec (v.take n) ++ ty.encVec (v.drop n) := by
    unfold Ty.encVec
    rw [← List.flatMap_append, List.take_append_drop]
  have hl : n = (v.take n).length := by rw [List.length_take, Nat.min_eq_left h]
  rw [hv]
  conv => lhs; arg 2; rw [hl]
  exact Ty.decVec_encVec hT _ _

/-- plain reload of a vector as long as the header says, or longer -/
theorem recordVec_take (hT : ty.Lawful) (hn : ty.noData = false) {d : Descr} (hv : d.version = 4)
    {p : Ref T} (h : d.dim.toNat ≤ p.data.length) :
    recordVec ty d (ty.encVec p.data) = .ok (p.data.take d.dim.toNat) := by
  unfold recordVec
  rw [if_neg (by simp [hn]), if_neg (by omega), if_pos (Or.inr hv), if_pos, Ty.decVec_take hT _ _ h]
  rw [Ty.encVec_length hT]
  exact Nat.mul_le_mul_right _ h

/-- plain reload of a shorter vector -/
theorem recordVec_short (hT : ty.Lawful) (hn : ty.noData = false) (hs : 0 < ty.size) {d : Descr}
    (hv : d.version = 4) {p : Ref T} (h : p.data.length < d.dim.toNat) :
    recordVec ty d (ty.encVec p.data) = .error .ub := by
  unfold recordVec
  rw [if_neg (by simp [hn]), if_neg (by omega), if_pos (Or.inr hv), if_neg]
  rw [Ty.encVec_length hT]
  exact Nat.not_le.mpr (Nat.mul_lt_mul_of_pos_right h hs)

variable {cfg : Cfg T} {s : Idx T}

theorem fails_loadPoint (hT : ty.Lawful) (hn : ty.noData = false) (hs : 0 < ty.size) {d : Descr}
    (hv : d.version = 4) (hm : d.mode = 1) (hL : d.nbLayer.toNat = nbLayerMax)
    {p : Ref T} (h : PointFits s p) (h64 : (ty.encVec p.data).length < 2 ^ 64)
    (hsh : p.data.length < d.dim.toNat) :
    Fails2 (loadPoint ty d none false) (pointGraphBytes true s p) (pointDataBytes ty p) .ub := by
  have hG := (parses_loadPointGraph hm hL h).onG
  intro rg rd
  unfold loadPoint
  have h1 := hG rg (pointDataBytes ty p ++ rd)
  rw [List.nil_append] at h1
  rw [Rd.bind_eq h1]
  simp only [Bool.false_eq_true, if_false]
  rw [Rd.bind_run]
  have h2 : onD (loadPointData ty d p.origin) (rg, pointDataBytes ty p ++ rd) = .error .ub := by
    unfold onD loadPointData
    simp only
    rw [Rd.bind_eq (parses_readRecord .exit h64 rd), recordVec_short hT hn hs hv hsh]
    rfl
  rw [h2]

theorem fails_loadPoints (hT : ty.Lawful) (hn : ty.noData = false) (hs : 0 < ty.size) {d : Descr}
    (hv : d.version = 4) (hm : d.mode = 1) (hL : d.nbLayer.toNat = nbLayerMax)
    {l : Nat} {ps : List (Ref T)} {r : Nat} {still : Int}
    (h : ∀ p ∈ ps, PointFits s p ∧ (ty.encVec p.data).length < 2 ^ 64)
    (hid : ∀ (k : Nat) (p : Ref T), ps[k]? = some p → p.pid = ⟨l, r + k⟩)
    (hst : (ps.length : Int) ≤ still) (hsh : ∃ p ∈ ps, p.data.length < d.dim.toNat) :
    Fails2 (loadPoints ty d none .default l ps.length r still) (ps.flatMap (pointGraphBytes true s))
      (ps.flatMap (pointDataBytes ty)) .ub := by
  induction ps generalizing r still with
  | nil => obtain ⟨p, hp, _⟩ := hsh; cases hp
  | cons p ps ih =>
    have hmm : pointUseMmap ReloadOptions.default still = false := rfl
    simp only [List.length_cons, loadPoints, List.flatMap_cons]
    rw [hmm]
    have hp0 := h p (by simp)
    by_cases hlt : p.data.length < d.dim.toNat
    · exact Fails2.left (fails_loadPoint hT hn hs hv hm hL hp0.1 hp0.2 hlt)
    · refine Fails2.right (parses_loadPoint (cv := fun p => p.data.take d.dim.toNat) hm hL hp0.1
        ⟨hp0.2, ?_⟩) ?_
      · simp only [Bool.false_eq_true, if_false]
        exact recordVec_take hT hn hv (by omega)
      have hp := hid 0 p rfl
      simp only [List.length_cons] at hst
      refine Fails2.right0 (Parses2.require ?_) ?_
      · simp [convRef, hp]
      refine Fails2.right0 (Parses2.require ?_) ?_
      · have := hp0.1.pid.2
        simp [convRef, hp] at this ⊢
        omega
      refine Fails2.right0 (Parses2.require ?_) ?_
      · simp; omega
      have := ih (r := r + 1) (still := still - 1) (fun q hq => h q (by simp [hq])) (fun k q hq => by
        rw [hid (k + 1) q (by simpa using hq)]; congr 1; omega) (by omega) (by
          obtain ⟨q, hq, hlq⟩ := hsh
          rcases List.mem_cons.mp hq with rfl | hq
          · exact absurd hlq hlt
          · exact ⟨q, hq, hlq⟩)
      have := Fails2.left (f := fun x => (Pure.pure
        ((⟨convRef (fun p => p.data.take d.dim.toNat) p, getNeighborhoodId s p, false⟩ : PointRec T) :: x.1, x.2) :
          Rd Two (List (PointRec T) × Int))) (g' := []) (d' := []) this
      rw [List.append_nil, List.append_nil] at this
      exact this

theorem fails_loadLayers (hT : ty.Lawful) (hn : ty.noData = false) (hs : 0 < ty.size) {d : Descr}
    (hv : d.version = 4) (hm : d.mode = 1) (hL : d.nbLayer.toNat = nbLayerMax)
    {i : Nat} {ls : List (List (Ref T))} {still : Int}
    (h : ∀ l ∈ ls, l.length < 2 ^ 64 ∧ ∀ p ∈ l, PointFits s p ∧ (ty.encVec p.data).length < 2 ^ 64)
    (hid : ∀ (k : Nat) (l : List (Ref T)), ls[k]? = some l →
      ∀ (r : Nat) (p : Ref T), l[r]? = some p → p.pid = ⟨i + k, r⟩)
    (hst : (ls.flatten.length : Int) ≤ still) (hsh : ∃ p ∈ ls.flatten, p.data.length < d.dim.toNat) :
    Fails2 (loadLayers ty d none .default ls.length i still) (ls.flatMap (layerGraphBytes s))
      (ls.flatten.flatMap (pointDataBytes ty)) .ub := by
  induction ls generalizing i still with
  | nil => obtain ⟨p, hp, _⟩ := hsh; cases hp
  | cons l ls ih =>
    simp only [List.flatten_cons, List.length_append] at hst
    simp only [List.length_cons, loadLayers, List.flatMap_cons, List.flatten_cons,
      List.flatMap_append, layerGraphBytes, List.append_assoc]
    refine Fails2.rightG (parses_readNat .err (by decide)).onG ?_
    refine Fails2.right0 (Parses2.require (by simp)) ?_
    have hl := (h l (by simp)).1
    refine Fails2.rightG (parses_readNat .err (by omega)).onG ?_
    have hidl : ∀ (k : Nat) (p : Ref T), l[k]? = some p → p.pid = ⟨i, 0 + k⟩ := fun k p hk => by
      rw [hid 0 l rfl k p hk]; simp
    by_cases hlt : ∃ p ∈ l, p.data.length < d.dim.toNat
    · exact Fails2.left (fails_loadPoints hT hn hs hv hm hL (h l (by simp)).2 hidl (by omega) hlt)
    · have hvl : ∀ (ps : List (Ref T)) (st : Int), (∀ p ∈ ps, p ∈ l) →
          VecsLoad ty ty d none (fun p => p.data.take d.dim.toNat) .default st ps := by
        intro ps
        induction ps with
        | nil => intro st _; trivial
        | cons p ps ih =>
          intro st hs'
          refine ⟨⟨((h l (by simp)).2 p (hs' p (by simp))).2, ?_⟩, ih _ fun q hq => hs' q (by simp [hq])⟩
          have hmm : pointUseMmap ReloadOptions.default st = false := rfl
          rw [hmm]
          simp only [Bool.false_eq_true, if_false]
          refine recordVec_take hT hn hv ?_
          have : ¬ p.data.length < d.dim.toNat := fun hc => hlt ⟨p, hs' p (by simp), hc⟩
          omega
      refine Fails2.right (parses_loadPoints hm hL (fun p hp => ((h l (by simp)).2 p hp).1) hidl
        (by omega) (hvl l still (fun _ hp => hp))) ?_
      have := ih (i := i + 1) (still := still - l.length) (fun l' hl' => h l' (by simp [hl']))
        (fun k l' hk r p hr => by
          rw [hid (k + 1) l' (by simpa using hk) r p hr]; congr 1; omega) (by omega) (by
          obtain ⟨q, hq, hlq⟩ := hsh
          rw [List.flatten_cons, List.mem_append] at hq
          rcases hq with hq | hq
          · exact absurd ⟨q, hq, hlq⟩ hlt
          · exact ⟨q, hq, hlq⟩)
      have := Fails2.left (f := fun x => (Pure.pure
        (recsOf (fun p => p.data.take d.dim.toNat) .default s still l :: x) :
          Rd Two (List (List (PointRec T))))) (g' := []) (d' := []) this
      rw [List.append_nil, List.append_nil] at this
      exact this

variable {h : Hnsw T}

/-- the reload of a dump holding a vector shorter than that of the entry point -/
theorem load_short (hT : ty.Lawful) (hn : ty.noData = false) (hs : 0 < ty.size) (hd : HDumpable ty h)
    (hsh : ∃ p, Stored h.idx p ∧ p.data.length < getDataDimension h.idx)
    {fs : Dir} {io : HnswIo} (hio : io.opts = .default) {tg td : Bytes}
    (hf : FilesAt ty h fs io.base tg td) (P : Policy T) (defScale : Nat → F64)
    {dist : Dist T} (hdist : checkDist ty dist.name (h.rdescr ty) = .ok ()) :
    io.loadHnsw P ty defScale dist fs = (io, .error .ub) := by
  obtain ⟨e, he⟩ := Option.ne_none_iff_exists'.mp hd.idx.entry
  unfold HnswIo.loadHnsw
  rw [hf.init hd he]
  have h1 := hd.parses_dataHeader (idxGraphBytes h.idx e ++ tg)
    (h.idx.points.flatMap (pointDataBytes ty) ++ td)
  rw [List.nil_append] at h1
  have hmap : io.mapData ty fs = .ok io := by
    unfold HnswIo.mapData; rw [hio]; rfl
  simp only [h1, hdist, hmap]
  have htot := hd.idx.total
  have hcnt := hd.idx.count
  have has : asI64 (h.rdescr ty).nbPoint.toNat = h.idx.nbPoint := by
    unfold asI64; rw [hd.nbPoint_eq, if_pos (by omega)]
  have hlen : (UInt8.ofNat h.idx.layers.length).toNat = h.idx.layers.length := hd.idx.lens_byte
  have hrun : ∀ dm, loadIndexation P ty (h.rdescr ty) dm .default
      (idxGraphBytes h.idx e ++ tg, h.idx.points.flatMap (pointDataBytes ty) ++ td) = .error .ub := by
    intro dm
    unfold loadIndexation idxGraphBytes
    rw [List.append_assoc, List.append_assoc]
    rw [Rd.bind_eq (s1 := ([UInt8.ofNat h.idx.layers.length] ++ (h.idx.layers.flatMap (layerGraphBytes h.idx) ++
      (leBytes 8 e.origin.toNat ++ pidBytes e.pid) ++ tg), h.idx.points.flatMap (pointDataBytes ty) ++ td)) (a := ())]
    · have hb := (parses_byte .err (UInt8.ofNat h.idx.layers.length)).onG
        (h.idx.layers.flatMap (layerGraphBytes h.idx) ++
          (leBytes 8 e.origin.toNat ++ pidBytes e.pid) ++ tg)
        (h.idx.points.flatMap (pointDataBytes ty) ++ td)
      rw [List.nil_append] at hb
      rw [Rd.bind_eq hb, hlen]
      rw [Rd.bind_eq (s1 := (h.idx.layers.flatMap (layerGraphBytes h.idx) ++
        (leBytes 8 e.origin.toNat ++ pidBytes e.pid) ++ tg, h.idx.points.flatMap (pointDataBytes ty) ++ td)) (a := ())]
      · rw [Rd.bind_run, has]
        have hsh' : ∃ p ∈ h.idx.layers.flatten, p.data.length < (h.rdescr ty).dim.toNat := by
          obtain ⟨p, hp, hl⟩ := hsh
          exact ⟨p, hp, by rw [hd.dim_eq]; exact hl⟩
        have := fails_loadLayers (i := 0) hT hn hs (d := h.rdescr ty) rfl rfl hd.nbLayer
          (s := h.idx) (ls := h.idx.layers) (still := h.idx.nbPoint)
          (fun l hl => ⟨by have := hd.idx.ranks l hl; omega,
            fun p hp => ⟨hd.idx.fits (List.mem_flatten.mpr ⟨l, hl, hp⟩),
              (hd.vec p (List.mem_flatten.mpr ⟨l, hl, hp⟩)).1⟩⟩)
          (fun k l hk r p hp => by rw [hd.idx.ids hk hp]; simp)
          (by unfold Idx.points at hcnt; omega) hsh'
          (leBytes 8 e.origin.toNat ++ pidBytes e.pid ++ tg) td
        have hdmn : loadLayers ty (h.rdescr ty) dm .default h.idx.layers.length 0 h.idx.nbPoint
            (h.idx.layers.flatMap (layerGraphBytes h.idx) ++
              (leBytes 8 e.origin.toNat ++ pidBytes e.pid) ++ tg,
              h.idx.points.flatMap (pointDataBytes ty) ++ td) = .error .ub := by
          have hdm : ∀ (n l : Nat) (st : Int), loadLayers ty (h.rdescr ty) dm .default n l st =
              loadLayers ty (h.rdescr ty) none .default n l st := by
            intro n
            have hpts : ∀ (l k r : Nat) (st : Int), loadPoints ty (h.rdescr ty) dm .default l k r st =
                loadPoints ty (h.rdescr ty) none .default l k r st := by
              intro l k
              induction k with
              | zero => intro r st; rfl
              | succ k ih =>
                intro r st
                unfold loadPoints
                have hmm : pointUseMmap ReloadOptions.default st = false := rfl
                rw [hmm]
                have : loadPoint ty (h.rdescr ty) dm false = loadPoint ty (h.rdescr ty) none false := rfl
                rw [this]
                simp only [ih]
            induction n with
            | zero => intro l st; rfl
            | succ n ih =>
              intro l st
              unfold loadLayers
              simp only [hpts, ih]
          rw [hdm, List.append_assoc]
          exact this
        rw [hdmn]
      · simp [Rd.require, hd.idx.lens]
    · have : (h.rdescr ty).tName = ty.name := rfl
      simp [Rd.require, this, List.append_assoc]
  rw [hio, hrun]

end
end Verif
