import Verif.Props.CutMap

set_option autoImplicit false

/-!
# C116: when a reload reads out of bounds
-/

namespace Verif
variable {T : Type} {P : Policy T} {ty : Ty T} {defScale : Nat → F64} {dist : Dist T}

/-- the bytes `s` begin with records one of which has less than `n` bytes -/
def ShortIn (n : Nat) (s : Bytes) : Prop :=
  ∃ (rs : List (DataId × Bytes)) (id : DataId) (v tail : Bytes), s = rs.flatMap dataRecord ++ dataRecord (id, v) ++ tail ∧
    v.length < n

theorem ShortIn.after {n : Nat} {s : Bytes} (rs : List (DataId × Bytes)) (h : ShortIn n s) :
    ShortIn n (rs.flatMap dataRecord ++ s) := by
  obtain ⟨rs', id, v, tail, rfl, hv⟩ := h
  refine ⟨rs ++ rs', id, v, tail, ?_, hv⟩
  rw [List.flatMap_append]
  simp only [List.append_assoc]

theorem ShortIn.one {n : Nat} (id : DataId) {v tail : Bytes} (h : v.length < n) :
    ShortIn n (recordBytes id v ++ tail) :=
  ⟨[], id, v, tail, by rw [recordBytes_eq]; rfl, h⟩

/-- what a reader of both files reads of the data file is made of records, and its only undefined behaviour is a
record that is too short -/
def ByRecords {α : Type} (n : Nat) (ver : Prop) (m : Rd Two α) : Prop :=
  ∀ s, (m s = .error .ub → ver ∧ ShortIn n s.2) ∧
    ∀ a r, m s = .ok (a, r) → ∃ rs : List (DataId × Bytes), s.2 = rs.flatMap dataRecord ++ r.2

namespace ByRecords
variable {α β : Type} {n : Nat} {ver : Prop}

theorem bind {m : Rd Two α} {f : α → Rd Two β} (h : ByRecords n ver m) (hf : ∀ a, ByRecords n ver (f a)) :
    ByRecords n ver (m >>= f) := by
  intro s
  rw [Rd.bind_run]
  obtain ⟨h1, h2⟩ := h s
  cases hm : m s with
  | error e =>
    refine ⟨fun hc => h1 ?_, nofun⟩
    cases hc
    exact hm
  | ok y =>
    obtain ⟨a, r⟩ := y
    obtain ⟨rs, hrs⟩ := h2 a r hm
    obtain ⟨h3, h4⟩ := hf a r
    refine ⟨fun hc => ?_, fun b t hb => ?_⟩
    · obtain ⟨k1, k2⟩ := h3 hc
      exact ⟨k1, hrs ▸ k2.after rs⟩
    · obtain ⟨rs', h5⟩ := h4 b t hb
      refine ⟨rs ++ rs', ?_⟩
      rw [hrs, h5, List.flatMap_append, List.append_assoc]

/-- a reader that reads nothing of the data file -/
theorem still {m : Rd Two α} (h : FailsBy (· ≠ .ub) m) (hs : ∀ s a r, m s = .ok (a, r) → r.2 = s.2) :
    ByRecords n ver m := fun s =>
  ⟨fun hc => absurd rfl (h s _ hc), fun a r ha => ⟨[], by rw [hs s a r ha]; rfl⟩⟩

theorem pure (a : α) : ByRecords n ver (Pure.pure a : Rd Two α) :=
  still (.pure a) fun _ _ _ h => by cases h; rfl

theorem require (c : Bool) {e : Fail} (he : e ≠ .ub) : ByRecords n ver (Rd.require c e : Rd Two Unit) := by
  refine still (.require c he) fun s a r h => ?_
  cases c
  · cases h
  · cases h; rfl

theorem lift {x : Except Fail α} (h : x ≠ .error .ub) : ByRecords n ver (Rd.lift x : Rd Two α) := by
  refine still ?_ ?_
  · intro s e he hc
    subst hc
    cases x with
    | error e' => cases he; exact h rfl
    | ok y => cases he
  · intro s a r ha
    cases x with
    | error e' => cases ha
    | ok y => cases ha; rfl

theorem onG {m : Rd Bytes α} (h : FailsBy (· ≠ .ub) m) : ByRecords n ver (onG m) := by
  refine still ?_ fun s a r ha => (onG_ok ha).2
  intro s e he
  unfold Verif.onG at he
  cases hm : m s.1 with
  | error e' => rw [hm] at he; cases he; exact h _ _ hm
  | ok y => rw [hm] at he; cases he

theorem rep {m : Rd Bytes α} {F : Fail → Prop} (h : FailsBy F m) (k : Nat) : FailsBy F (Rd.rep k m) := by
  induction k with
  | zero => exact .pure _
  | succ k ih => exact h.bind fun _ => ih.bind fun _ => .pure _

end ByRecords

theorem fails_readRecord {F : Fail → Prop} {eof : Fail} (h1 : F eof) (h2 : F .panic) (origin : DataId) :
    FailsBy F (readRecord eof origin) := by
  unfold readRecord
  refine (FailsBy.readNat h1 _).bind fun _ => ?_
  refine (FailsBy.require _ h2).bind fun _ => ?_
  refine (FailsBy.readNat h1 _).bind fun _ => ?_
  refine (FailsBy.require _ h2).bind fun _ => ?_
  exact (FailsBy.readNat h1 _).bind fun _ => FailsBy.readExact h1 _

theorem fails_loadPointGraph {F : Fail → Prop} (h1 : F .err) (h2 : F .panic) (d : Descr) :
    FailsBy F (loadPointGraph d) := by
  unfold loadPointGraph
  refine (FailsBy.readNat h2 _).bind fun _ => ?_
  refine (FailsBy.require _ h1).bind fun _ => ?_
  refine (FailsBy.readNat h2 _).bind fun _ => ?_
  refine (FailsBy.readNat h2 _).bind fun _ => ?_
  refine (FailsBy.readNat h2 _).bind fun _ => ?_
  refine (ByRecords.rep ?_ _).bind fun _ => .pure _
  unfold loadList
  refine (FailsBy.readNat h2 _).bind fun _ => ByRecords.rep ?_ _
  unfold loadNeighbour loadNbPid
  refine (FailsBy.readNat h2 _).bind fun _ => ?_
  refine FailsBy.bind ?_ fun _ => (FailsBy.readNat h2 _).bind fun _ => .pure _
  split
  · exact (FailsBy.readNat h2 _).bind fun _ => (FailsBy.readNat h2 _).bind fun _ => .pure _
  · exact .pure _

section
variable {d : Descr} {dm : Option DataMap}

theorem recordVec_ub {b : Bytes} (h : recordVec ty d b = .error .ub) :
    d.version ≠ 2 ∧ b.length < d.dim.toNat * ty.size := by
  unfold recordVec at h
  split at h
  · cases h
  split at h
  · split at h <;> cases h
  rename_i hv
  split at h
  · split at h
    · cases h
    · exact ⟨hv, by omega⟩
  · cases h

theorem records_loadPoint (h : SafeMap ty dm) (mm : Bool) :
    ByRecords (d.dim.toNat * ty.size) (d.version ≠ 2) (loadPoint ty d dm mm) := by
  unfold loadPoint
  refine (ByRecords.onG (fails_loadPointGraph (by decide) (by decide) d)).bind fun x => ?_
  obtain ⟨origin, pid, lists⟩ := x
  cases mm
  · simp only [Bool.false_eq_true, if_false]
    refine ByRecords.bind ?_ fun _ => .pure _
    intro s
    constructor
    · intro hc
      have hc : loadPointData ty d origin s.2 = .error .ub := by
        unfold onD at hc
        cases hl : loadPointData ty d origin s.2 with
        | error e => rw [hl] at hc; cases hc; rfl
        | ok y => rw [hl] at hc; cases hc
      unfold loadPointData at hc
      cases hr : readRecord .exit origin s.2 with
      | error e =>
        rw [Rd.bind_run, hr] at hc
        cases hc
        exact absurd rfl (fails_readRecord (F := (· ≠ .ub)) (by decide) (by decide) origin _ _ hr)
      | ok y =>
        obtain ⟨b, r⟩ := y
        rw [Rd.bind_eq hr] at hc
        cases hv : recordVec ty d b with
        | ok v => rw [hv] at hc; cases hc
        | error e =>
          rw [hv] at hc
          cases hc
          obtain ⟨h1, h2⟩ := recordVec_ub hv
          refine ⟨h1, ?_⟩
          rw [readRecord_ok hr]
          exact .one origin h2
    · intro a r ha
      have ha := (onD_ok ha).1
      unfold loadPointData at ha
      obtain ⟨b, s1, h1, h2⟩ := Rd.bind_ok ha
      refine ⟨[(origin, b)], ?_⟩
      cases hv : recordVec ty d b with
      | error e => rw [hv] at h2; cases h2
      | ok v =>
        rw [hv] at h2
        have : s1 = r.2 := by
          have := congrArg (fun z => match z with | .ok (_, t) => t | .error _ => r.2) h2
          exact this
        rw [readRecord_ok h1, this, recordBytes_eq]
        simp
  · simp only [if_true]
    refine ByRecords.bind ?_ fun _ => (ByRecords.lift (mappedVec_ne_ub h _)).bind fun _ => .pure _
    intro s
    constructor
    · intro hc
      unfold onD at hc
      cases hr : readRecord .err origin s.2 with
      | error e =>
        rw [hr] at hc
        cases hc
        exact absurd rfl (fails_readRecord (F := (· ≠ .ub)) (by decide) (by decide) origin _ _ hr)
      | ok y => rw [hr] at hc; cases hc
    · intro a r ha
      refine ⟨[(origin, a)], ?_⟩
      rw [readRecord_ok (onD_ok ha).1, recordBytes_eq]
      simp

theorem records_loadPoints (h : SafeMap ty dm) (o : ReloadOptions) (l n r : Nat) (still : Int) :
    ByRecords (d.dim.toNat * ty.size) (d.version ≠ 2) (loadPoints ty d dm o l n r still) := by
  induction n generalizing r still with
  | zero => exact .pure _
  | succ n ih =>
    unfold loadPoints
    refine (records_loadPoint h _).bind fun p => ?_
    refine (ByRecords.require _ (by decide)).bind fun _ => ?_
    refine (ByRecords.require _ (by decide)).bind fun _ => ?_
    refine (ByRecords.require _ (by decide)).bind fun _ => ?_
    exact (ih _ _).bind fun _ => .pure _

theorem records_loadLayers (h : SafeMap ty dm) (o : ReloadOptions) (n l : Nat) (still : Int) :
    ByRecords (d.dim.toNat * ty.size) (d.version ≠ 2) (loadLayers ty d dm o n l still) := by
  have rn : ∀ k, FailsBy (· ≠ Fail.ub) (readNat .err k) := fun k =>
    FailsBy.readNat (F := (· ≠ Fail.ub)) (by decide) k
  induction n generalizing l still with
  | zero => exact .pure _
  | succ n ih =>
    unfold loadLayers
    refine (ByRecords.onG (rn _)).bind fun _ => ?_
    refine (ByRecords.require _ (by decide)).bind fun _ => ?_
    refine (ByRecords.onG (rn _)).bind fun _ => ?_
    refine (records_loadPoints h o _ _ _ _).bind fun _ => ?_
    exact (ih _ _).bind fun _ => .pure _

theorem records_loadIndexation (h : SafeMap ty dm) (o : ReloadOptions) :
    ByRecords (d.dim.toNat * ty.size) (d.version ≠ 2) (loadIndexation P ty d dm o) := by
  have rn : ∀ k, FailsBy (· ≠ Fail.ub) (readNat .err k) := fun k =>
    FailsBy.readNat (F := (· ≠ Fail.ub)) (by decide) k
  unfold loadIndexation
  refine (ByRecords.require _ (by decide)).bind fun _ => ?_
  refine (ByRecords.onG (rn _)).bind fun _ => ?_
  refine (ByRecords.require _ (by decide)).bind fun _ => ?_
  refine (records_loadLayers h o _ _ _).bind fun _ => ?_
  refine (ByRecords.lift (mapE_ne_ub (fun l => mapE_ne_ub (fun r => linkPoint_ne_ub _ _) l) _)).bind fun _ => ?_
  refine (ByRecords.onG (rn _)).bind fun _ => ?_
  refine (ByRecords.onG (rn _)).bind fun _ => ?_
  refine (ByRecords.onG (rn _)).bind fun _ => ?_
  exact (ByRecords.lift (resolve_ne_ub _ _)).bind fun _ => .pure _

end

/-- making a map is undefined only if a record is too short -/
theorem mapRecords_ub {size dim : Nat} {b : Bytes} :
    ∀ {n a : Nat} {m : List (DataId × Nat)}, mapRecords size dim b n a m = .error .ub →
      ShortIn (dim * size) (b.drop a) := by
  intro n
  induction n with
  | zero => intro a m h; cases h
  | succ n ih =>
    intro a m h
    have sl : ∀ {b : Bytes} {a n : Nat} {e : Fail}, sliceAt b a n = .error e → e = .panic := by
      intro b a n e h
      unfold sliceAt at h
      split at h
      · cases h
      · cases h; rfl
    unfold mapRecords at h
    cases h1 : sliceAt b a 4 with
    | error e => cases sl h1; rw [h1] at h; cases h
    | ok magic =>
    rw [h1] at h
    simp only [bind, Except.bind] at h
    split at h
    · cases h
    rename_i hmag
    cases h2 : sliceAt b (a + 4) 8 with
    | error e => cases sl h2; rw [h2] at h; cases h
    | ok id =>
    rw [h2] at h
    simp only at h
    cases h3 : sliceAt b (a + 12) 8 with
    | error e => cases sl h3; rw [h3] at h; cases h
    | ok len =>
    rw [h3] at h
    simp only at h
    cases h4 : sliceAt b (a + 20) (ofLE len) with
    | error e => cases sl h4; rw [h4] at h; cases h
    | ok v =>
    rw [h4] at h
    simp only at h
    obtain ⟨l1, d1, -⟩ := sliceAt_ok h1
    obtain ⟨l2, d2, -⟩ := sliceAt_ok h2
    obtain ⟨l3, d3, -⟩ := sliceAt_ok h3
    obtain ⟨l4, d4, b4⟩ := sliceAt_ok h4
    have hmag' : ofLE magic = magicDataP := Classical.byContradiction hmag
    have e1 : magic = leBytes 4 magicDataP := by rw [← hmag', ← l1, leBytes_ofLE]
    have hid : ofLE id < 2 ^ 64 := by have := ofLE_lt id; rw [l2] at this; exact this
    have e2 : id = leBytes 8 (UInt64.ofNat (ofLE id)).toNat := by
      rw [UInt64.toNat_ofNat', Nat.mod_eq_of_lt hid, ← l2, leBytes_ofLE]
    have e3 : len = leBytes 8 v.length := by rw [l4, ← l3, leBytes_ofLE]
    have hrec : b.drop a = recordBytes (UInt64.ofNat (ofLE id)) v ++ b.drop (a + 20 + ofLE len) := by
      unfold recordBytes
      rw [← e1, ← e2, ← e3, d1, d2, d3, d4]
      simp only [List.append_assoc]
    rw [hrec]
    split at h
    · rename_i hlen
      exact .one _ (by omega)
    · have := (ih h).after [(UInt64.ofNat (ofLE id), v)]
      simpa [recordBytes_eq] using this

theorem fromDump_ub {fs : Dir} {base : String} {g g' b rest : Bytes} {d : Descr} (hg : fs (graphName base) = some g)
    (hb : fs (dataName base) = some b) (hd : loadDescr g = .ok (d, g')) (hr : b.drop 12 = rest)
    (h : DataMap.fromDump ty fs base = .error .ub) :
    d.version ≠ 2 ∧ ShortIn (d.dim.toNat * ty.size) rest := by
  unfold DataMap.fromDump at h
  rw [hg, hb] at h
  simp only [hd] at h
  have sl : ∀ {b : Bytes} {a n : Nat} {e : Fail}, sliceAt b a n = .error e → e = .panic := by
    intro b a n e h
    unfold sliceAt at h
    split at h
    · cases h
    · cases h; rfl
  split at h
  · cases h
  rename_i hv
  split at h
  · cases h
  simp only [bind, Except.bind] at h
  cases h1 : sliceAt b 0 4 with
  | error e => cases sl h1; rw [h1] at h; cases h
  | ok magic =>
  rw [h1] at h
  simp only at h
  split at h
  · cases h
  cases h2 : sliceAt b 4 8 with
  | error e => cases sl h2; rw [h2] at h; cases h
  | ok dim =>
  rw [h2] at h
  simp only at h
  split at h
  · cases h
  rename_i hdim
  have hdim := Classical.not_not.1 hdim
  refine ⟨by omega, ?_⟩
  cases h3 : mapRecords ty.size (ofLE dim) b ((b.length - 12) / (20 + ofLE dim * ty.size)) 12 [] with
  | ok m => rw [h3] at h; cases h
  | error e =>
    rw [h3] at h
    cases h
    rw [← hr, ← hdim]
    exact mapRecords_ub h3

/-- the same for any map whose vectors lie in the mapped file -/
theorem only_short {io : HnswIo} (hnone : SafeMap ty io.datamap) {fs : Dir}
    (h : (io.loadHnsw P ty defScale dist fs).2 = .error .ub ∨
      io.loadHnswWithDist P ty defScale dist fs = .error .ub) :
    ∃ (g rest b : Bytes) (d : Descr) (rs : List (DataId × Bytes)) (id : DataId) (v tail : Bytes),
      fs (io.base ++ ".hnsw.graph") = some g ∧ fs (io.base ++ ".hnsw.data") = some b ∧
      g = headerOf d ++ rest ∧ (d.version = 3 ∨ d.version = 4) ∧
      b = [0x00, 0x00, 0x7f, 0xa6] ++ le 8 d.dim.toNat ++ rs.flatMap dataRecord ++ dataRecord (id, v) ++ tail ∧
      v.length < d.dim.toNat * ty.size := by
  -- the files and their headers
  have hfiles : ∀ e, io.init fs = .error e → e ≠ .ub := by
    intro e he
    unfold HnswIo.init at he
    split at he
    · rename_i g b hg hb
      cases hd : loadDescr g with
      | error e' =>
        rw [hd] at he
        rcases fails_loadDescr (F := fun e => e = .err ∨ e = .panic) (Or.inl rfl) (Or.inr rfl) g e' hd with rfl | rfl <;>
          (cases he; decide)
      | ok y => rw [hd] at he; cases he
    · cases he; decide
  have hhead : ∀ (d : Descr) s e, loadDataHeader d s = .error e → e ≠ .ub := by
    intro d s e he
    have od : ∀ k, FailsBy (· ≠ Fail.ub) (onD (readNat .err k)) := by
      intro k s e he
      unfold onD at he
      cases hm : readNat .err k s.2 with
      | error e' =>
        rw [hm] at he
        cases he
        exact FailsBy.readNat (F := (· ≠ Fail.ub)) (by decide) k _ _ hm
      | ok y => rw [hm] at he; cases he
    have : FailsBy (· ≠ Fail.ub) (loadDataHeader d) := by
      unfold loadDataHeader
      refine (od _).bind fun _ => ?_
      refine (FailsBy.require _ (by decide)).bind fun _ => ?_
      refine (od _).bind fun _ => ?_
      exact FailsBy.require _ (by decide)
    exact this s e he
  cases hi : io.init fs with
  | error e =>
    have := hfiles e hi
    unfold HnswIo.loadHnsw HnswIo.loadHnswWithDist at h
    rw [hi] at h
    rcases h with h | h <;> (cases h; exact absurd rfl this)
  | ok y =>
  obtain ⟨d, s0⟩ := y
  have hi' := hi
  unfold HnswIo.init at hi'
  split at hi'
  case h_2 => cases hi'
  rename_i g b hg hb
  cases hd : loadDescr g with
  | error e =>
    rw [hd] at hi'
    cases e <;> cases hi'
  | ok y =>
  obtain ⟨d', g'⟩ := y
  rw [hd] at hi'
  cases hi'
  cases hh : loadDataHeader d (g', b) with
  | error e =>
    have := hhead _ _ _ hh
    unfold HnswIo.loadHnsw HnswIo.loadHnswWithDist at h
    rw [hi] at h
    simp only [hh] at h
    rcases h with h | h <;> (cases h; exact absurd rfl this)
  | ok y =>
  obtain ⟨u, s⟩ := y
  have hb12 := (loadDataHeader_ok hh).1
  simp only at hb12
  have hdrop : b.drop 12 = s.2 := by
    rw [hb12]
    have : (leBytes 4 magicDataP ++ leBytes 8 d.dim.toNat).length = 12 := by simp
    rw [← this, List.drop_left]
  -- enough: a short record after the header
  suffices key : d.version ≠ 2 ∧ ShortIn (d.dim.toNat * ty.size) s.2 by
    obtain ⟨hv, rs, id, v, tail, hs, hsh⟩ := key
    obtain ⟨k1, k2, -⟩ := loadDescr_ok hd
    refine ⟨g, g', b, d, rs, id, v, tail, hg, hb, ?_, ?_, ?_, hsh⟩
    · rw [k1, anyHeader_eq]
    · rcases k2 with k2 | k2
      · exact absurd k2 hv
      · exact k2
    · rw [hb12, hs, leBytes_le 8]
      have : leBytes 4 magicDataP = [0x00, 0x00, 0x7f, 0xa6] := by decide
      rw [this]
      simp only [List.append_assoc]
  have hload : ∀ {dm : Option DataMap} {o : ReloadOptions}, SafeMap ty dm →
      loadIndexation P ty d dm o s = .error .ub → d.version ≠ 2 ∧ ShortIn (d.dim.toNat * ty.size) s.2 :=
    fun hs hc => (records_loadIndexation hs _ s).1 hc
  rcases h with h | h
  · unfold HnswIo.loadHnsw at h
    rw [hi] at h
    simp only [hh] at h
    cases hc : checkDist ty dist.name d with
    | error e =>
      rw [hc] at h
      cases h
      unfold checkDist at hc
      split at hc
      · cases hc
      split at hc
      · split at hc <;> cases hc
      · cases hc
    | ok u =>
    rw [hc] at h
    simp only at h
    cases hm : io.mapData ty fs with
    | error e =>
      rw [hm] at h
      cases h
      unfold HnswIo.mapData at hm
      split at hm
      · split at hm
        · cases hm
        · cases hm
        · rename_i e _ he
          cases hm
          exact fromDump_ub hg hb hd hdrop he
      · cases hm
    | ok io1 =>
    rw [hm] at h
    simp only at h
    have hs : SafeMap ty io1.datamap := by
      unfold HnswIo.mapData at hm
      split at hm
      · split at hm
        · rename_i m he
          cases hm
          intro m' hm'
          cases hm'
          exact fromDump_in he
        · cases hm; exact hnone
        · cases hm
      · cases hm; exact hnone
    cases hl : loadIndexation P ty d io1.datamap io1.opts s with
    | error e =>
      rw [hl] at h
      cases h
      exact hload hs hl
    | ok z => rw [hl] at h; cases h
  · unfold HnswIo.loadHnswWithDist at h
    rw [hi] at h
    simp only [hh] at h
    split at h
    · cases h
    cases hl : loadIndexation P ty d io.datamap io.opts s with
    | error e =>
      rw [hl] at h
      cases h
      exact hload hnone hl
    | ok z => rw [hl] at h; cases h

/-- **C116** Whatever the files and the options, a reload reads out of bounds only if the files exist, the graph
file begins with a header of format 3 or 4, and the data file with its header and records one of which has less
bytes than a vector of the dimension in the header. -/
theorem C116_only_short {io : HnswIo} (h0 : io.datamap = none) {fs : Dir}
    (h : (io.loadHnsw P ty defScale dist fs).2 = .error .ub ∨
      io.loadHnswWithDist P ty defScale dist fs = .error .ub) :
    ∃ (g rest b : Bytes) (d : Descr) (rs : List (DataId × Bytes)) (id : DataId) (v tail : Bytes),
      fs (io.base ++ ".hnsw.graph") = some g ∧ fs (io.base ++ ".hnsw.data") = some b ∧
      g = headerOf d ++ rest ∧ (d.version = 3 ∨ d.version = 4) ∧
      b = [0x00, 0x00, 0x7f, 0xa6] ++ le 8 d.dim.toNat ++ rs.flatMap dataRecord ++ dataRecord (id, v) ++ tail ∧
      v.length < d.dim.toNat * ty.size :=
  only_short (fun m hm => by rw [h0] at hm; cases hm) h

/-! ## The converse, without a map -/

section
variable {d : Descr} {dm : Option DataMap} {o : ReloadOptions}

theorem short_loadPoint (hn : ty.noData = false) (hv : d.version = 3 ∨ d.version = 4) {f : FilePt} {b : Bytes}
    (hf : PtOk d f) (h64 : b.length < 2 ^ 64) (hs : b.length < d.dim.toNat * ty.size) :
    Fails2 (loadPoint ty d dm false) (anyPoint d.mode f) (recordBytes f.id b) .ub := by
  intro rg rd
  unfold loadPoint
  have h1 := (parses_anyPoint hf.1 hf.2.1 hf.2.2).onG rg (recordBytes f.id b ++ rd)
  rw [List.nil_append] at h1
  rw [Rd.bind_eq h1]
  simp only [Bool.false_eq_true, if_false]
  rw [Rd.bind_run]
  have hr : recordVec ty d b = .error .ub := by
    unfold recordVec
    rw [if_neg (by simp [hn]), if_neg (by omega), if_pos hv, if_neg (by omega)]
  have h2 : onD (loadPointData ty d f.id) (rg, recordBytes f.id b ++ rd) = .error .ub := by
    unfold onD loadPointData
    simp only
    rw [Rd.bind_eq (parses_anyRecord .exit f.id h64 rd), hr]
    rfl
  rw [h2]

theorem recOk_long (hn : ty.noData = false) (hv : d.version = 3 ∨ d.version = 4) {x : DataId × Bytes}
    (h64 : x.2.length < 2 ^ 64) (hs : ¬ x.2.length < d.dim.toNat * ty.size) : RecOk ty d dm false x := by
  refine ⟨h64, ty.decVec d.dim.toNat x.2, ?_⟩
  unfold vecFrom recordVec
  rw [if_neg (by simp), if_neg (by simp [hn]), if_neg (by omega), if_pos hv, if_pos (by omega)]

theorem noMap (ho : o.datamap = false) (still : Int) : pointUseMmap o still = false := by
  unfold pointUseMmap
  rw [ho]
  rfl

theorem short_loadPoints (ho : o.datamap = false) (hn : ty.noData = false) (hv : d.version = 3 ∨ d.version = 4)
    {l : Nat} {fs : List FilePt} {rs : List (DataId × Bytes)} {r : Nat} {still : Int}
    (hids : rs.map (·.1) = fs.map (·.id)) (h64 : ∀ x ∈ rs, x.2.length < 2 ^ 64) (hf : ∀ f ∈ fs, PtOk d f)
    (hpid : ∀ (i : Nat) f, fs[i]? = some f → f.pid = ⟨l, r + i⟩) (hst : (fs.length : Int) ≤ still)
    (hsh : ∃ x ∈ rs, x.2.length < d.dim.toNat * ty.size) :
    Fails2 (loadPoints ty d dm o l fs.length r still) (fs.flatMap (anyPoint d.mode)) (recordsOf rs) .ub := by
  induction fs generalizing rs r still with
  | nil =>
    cases rs with
    | nil => obtain ⟨x, hx, _⟩ := hsh; cases hx
    | cons x rs => simp at hids
  | cons f fs ih =>
    cases rs with
    | nil => simp at hids
    | cons x rs =>
      simp only [List.map_cons, List.cons.injEq] at hids
      simp only [List.length_cons] at hst
      have hp0 := hpid 0 f rfl
      have hfit := (hf f (by simp)).1
      have hrec : recordsOf (x :: rs) = recordBytes f.id x.2 ++ recordsOf rs := by rw [← hids.1]; rfl
      simp only [List.length_cons, loadPoints, List.flatMap_cons]
      rw [hrec, noMap ho]
      have hx64 := h64 x (by simp)
      by_cases hlt : x.2.length < d.dim.toNat * ty.size
      · exact Fails2.left (short_loadPoint hn hv (hf f (by simp)) hx64 hlt)
      · have hok := recOk_long (dm := dm) hn hv hx64 hlt
        rw [show x = (f.id, x.2) by rw [← hids.1]] at hok
        refine Fails2.right (parses_anyLoadPoint (hf f (by simp)) hok) ?_
        refine Fails2.right0 (Parses2.require ?_) ?_
        · simp [recFrom, hp0]
        refine Fails2.right0 (Parses2.require ?_) ?_
        · have h2 := hfit.2
          rw [hp0] at h2
          simp [recFrom, hp0]
          simpa using h2
        refine Fails2.right0 (Parses2.require ?_) ?_
        · simp; omega
        have := ih (r := r + 1) (still := still - 1) hids.2 (fun y hy => h64 y (by simp [hy]))
          (fun y hy => hf y (by simp [hy]))
          (fun i g hg => by rw [hpid (i + 1) g (by simpa using hg)]; congr 1; omega) (by omega) (by
            obtain ⟨y, hy, hly⟩ := hsh
            rcases List.mem_cons.1 hy with rfl | hy
            · exact absurd hly hlt
            · exact ⟨y, hy, hly⟩)
        intro rg rd
        rw [Rd.bind_run, this rg rd]

theorem short_loadLayers (ho : o.datamap = false) (hn : ty.noData = false) (hv : d.version = 3 ∨ d.version = 4)
    {l : Nat} {ls : List (List FilePt)} {rs : List (DataId × Bytes)} {still : Int}
    (hids : rs.map (·.1) = ls.flatten.map (·.id)) (h64 : ∀ x ∈ rs, x.2.length < 2 ^ 64)
    (hf : ∀ fs ∈ ls, fs.length < 2 ^ 64 ∧ ∀ f ∈ fs, PtOk d f)
    (hpid : ∀ (j i : Nat) fs f, ls[j]? = some fs → fs[i]? = some f → f.pid = ⟨l + j, i⟩)
    (hst : (ls.flatten.length : Int) ≤ still) (hsh : ∃ x ∈ rs, x.2.length < d.dim.toNat * ty.size) :
    Fails2 (loadLayers ty d dm o ls.length l still) (ls.flatMap (anyLayer d.mode)) (recordsOf rs) .ub := by
  induction ls generalizing rs l still with
  | nil =>
    cases rs with
    | nil => obtain ⟨x, hx, _⟩ := hsh; cases hx
    | cons x rs => simp at hids
  | cons fs ls ih =>
    have hids1 : (rs.take fs.length).map (·.1) = fs.map (·.id) := by
      rw [List.map_take, hids, List.flatten_cons, List.map_append, List.take_left' (by simp)]
    have hids2 : (rs.drop fs.length).map (·.1) = ls.flatten.map (·.id) := by
      rw [List.map_drop, hids, List.flatten_cons, List.map_append, List.drop_left' (by simp)]
    simp only [List.flatten_cons, List.length_append] at hst
    have hrec : recordsOf rs = recordsOf (rs.take fs.length) ++ recordsOf (rs.drop fs.length) := by
      rw [← recordsOf_append, List.take_append_drop]
    rw [hrec]
    have hlay : anyLayer d.mode fs =
        leBytes 4 magicLayer ++ (leBytes 8 fs.length ++ fs.flatMap (anyPoint d.mode)) := by
      unfold anyLayer
      simp only [List.append_assoc]
    simp only [List.length_cons, loadLayers, List.flatMap_cons, List.append_assoc, hlay]
    refine Fails2.rightG (parses_readNat .err (by decide)).onG ?_
    refine Fails2.right0 (Parses2.require (by simp)) ?_
    have h64l := (hf fs (by simp)).1
    refine Fails2.rightG (parses_readNat .err (by omega)).onG ?_
    have hpl : ∀ (i : Nat) f, fs[i]? = some f → f.pid = ⟨l, 0 + i⟩ :=
      fun i f hi => by rw [hpid 0 i fs f rfl hi]; simp
    by_cases hlt : ∃ x ∈ rs.take fs.length, x.2.length < d.dim.toNat * ty.size
    · exact Fails2.left (short_loadPoints ho hn hv hids1 (fun x hx => h64 x (List.mem_of_mem_take hx))
        (hf fs (by simp)).2 hpl (by omega) hlt)
    · have hr : RecsOk ty d dm o still (rs.take fs.length) := by
        intro i x hx
        have hm := List.mem_of_getElem? hx
        rw [noMap ho]
        exact recOk_long hn hv (h64 x (List.mem_of_mem_take hm)) fun hc => hlt ⟨x, hm, hc⟩
      refine Fails2.right (parses_anyPoints hids1 hr (hf fs (by simp)).2 hpl (by omega)) ?_
      have := ih (l := l + 1) (still := still - fs.length) hids2
        (fun x hx => h64 x (List.mem_of_mem_drop hx)) (fun x hx => hf x (by simp [hx]))
        (fun j i gs g hj hg => by rw [hpid (j + 1) i gs g (by simpa using hj) hg]; congr 1; omega) (by omega) (by
          obtain ⟨y, hy, hly⟩ := hsh
          rw [← List.take_append_drop fs.length rs] at hy
          rcases List.mem_append.1 hy with hy | hy
          · exact absurd ⟨y, hy, hly⟩ hlt
          · exact ⟨y, hy, hly⟩)
      intro rg rd
      rw [Rd.bind_run, this rg rd]

end

/-- **C116** (converse, without a map) A graph file of format 3 or 4 that a reload accepts, and a data file with
its header and a record for each of the points in order: if one of the records is shorter than a vector of the
dimension in the header, the reload reads out of bounds, whatever the record. -/
theorem C116_short_record {io : HnswIo} (ho : io.opts.datamap = false) {fs : Dir} {g b tail : Bytes} {d : Descr}
    {ls : List (List FilePt)} {epid : PointId} {rs : List (DataId × Bytes)}
    (hg : fs (io.base ++ ".hnsw.graph") = some g) (hb : fs (io.base ++ ".hnsw.data") = some b)
    (hgl : g.length < 2 ^ 64) (hbl : b.length < 2 ^ 64) (hG : GraphFile g d ls epid) (hv : d.version ≠ 2)
    (hbe : b = [0x00, 0x00, 0x7f, 0xa6] ++ le 8 d.dim.toNat ++ rs.flatMap dataRecord ++ tail)
    (hids : rs.map (·.1) = ls.flatten.map (·.id))
    (hn : ty.noData = false) (ht : ty.name = d.tName)
    (hsh : ∃ r ∈ rs, r.2.length < d.dim.toNat * ty.size) :
    ((∃ seg, (rsplitTerm dist.name).head? = some seg ∧ (rsplitTerm d.distName).head? = some seg) →
      (io.loadHnsw P ty defScale dist fs).2 = .error .ub) ∧
    (dist.name = d.distName → io.loadHnswWithDist P ty defScale dist fs = .error .ub) := by
  have hg : fs (graphName io.base) = some g := hg
  have hb : fs (dataName io.base) = some b := hb
  obtain ⟨eid, tg, hge⟩ := hG.bytes
  have hR := hG.readable
  have hdescr := parses_anyHeader hG.version hG.scale (by rw [strBytes_size]; exact hG.distLen)
    (by rw [strBytes_size]; exact hG.tLen)
  have hlen : ∀ l ∈ ls, ∀ f ∈ l, ∀ ns ∈ f.lists, ns.length < 2 ^ 64 := by
    intro l hl f hf ns hns
    have a1 := anyBytes_len (f := layerOf d.mode) hl
    have a2 := anyBytes_len (f := pointOf d.mode) hf
    have a3 := anyBytes_len (f := fun ns : List Neighbour => le 8 ns.length ++ ns.flatMap (linkOf d.mode)) hns
    have a4 := flatMap_len_ge (f := linkOf d.mode) (fun n => by
      unfold linkOf; simp only [List.length_append, le_length]; omega) ns
    rw [hge] at hgl
    simp only [List.length_append] at hgl a3
    have a5 : (l.flatMap (pointOf d.mode)).length ≤ (layerOf d.mode l).length := by
      unfold layerOf; simp only [List.length_append]; omega
    have a6 : (f.lists.flatMap fun ns : List Neighbour => le 8 ns.length ++ ns.flatMap (linkOf d.mode)).length
        ≤ (pointOf d.mode f).length := by
      unfold pointOf; simp only [List.length_append]; omega
    omega
  have hpidfit : ∀ l ∈ ls, ∀ f ∈ l, PidFits f.pid := by
    intro l hl f hf
    obtain ⟨a, ha, rfl⟩ := List.getElem_of_mem hl
    obtain ⟨b, hb, rfl⟩ := List.getElem_of_mem hf
    rw [hR.place a b _ _ (List.getElem?_eq_getElem ha) (List.getElem?_eq_getElem hb)]
    have h1 := hR.layers
    have h2 := hR.ranks _ hl
    constructor <;> simp only <;> omega
  have hpt : ∀ l ∈ ls, ∀ f ∈ l, PtOk d f := by
    intro l hl f hf
    refine ⟨hpidfit l hl f hf, hR.lists l hl f hf, ?_⟩
    intro ns hns
    refine ⟨hlen l hl f hf ns hns, fun n hn => ⟨?_, fun hm => hR.light hm l hl f hf ns hns n hn⟩⟩
    obtain ⟨l', hl', f', hf', e⟩ := hR.links l hl f hf ns hns n hn
    rw [e]
    exact hpidfit l' hl' f' hf'
  have h64 : ∀ x ∈ rs, x.2.length < 2 ^ 64 := by
    intro r hr
    have a1 := anyBytes_len (f := dataRecord) hr
    have a2 : r.2.length ≤ (dataRecord r).length := by
      unfold dataRecord; simp only [List.length_append]; omega
    rw [hbe] at hbl
    simp only [List.length_append] at hbl
    omega
  have hv' : d.version = 3 ∨ d.version = 4 := by
    rcases hG.version with h | h
    · exact absurd h hv
    · exact h
  have hann : asI64 d.nbPoint.toNat = (d.nbPoint.toNat : Int) := by
    unfold asI64
    rw [if_pos hR.announced]
  have hfail : ∀ dm, Fails2 (loadIndexation P ty d dm io.opts)
      ([UInt8.ofNat ls.length] ++ ls.flatMap (anyLayer d.mode)) (recordsOf rs) .ub := by
    intro dm
    unfold loadIndexation
    refine Fails2.right0 (Parses2.require (by simp [ht])) ?_
    refine Fails2.rightG (parses_byte .err _).onG ?_
    have h16 := hR.layers
    have hbyte : (UInt8.ofNat ls.length).toNat = ls.length := by rw [UInt8.toNat_ofNat']; omega
    rw [hbyte]
    refine Fails2.right0 (Parses2.require ?_) ?_
    · simp only [decide_eq_true_eq]; exact h16
    have hL := short_loadLayers (ty := ty) (dm := dm) (l := 0) (still := asI64 d.nbPoint.toNat) ho hn hv' hids h64
      (fun fs hfs => ⟨by have := hR.ranks fs hfs; omega, hpt fs hfs⟩)
      (fun j i fs f hj hi => by rw [hR.place j i fs f hj hi]; simp)
      (by rw [hann]; have := hR.count; omega) hsh
    intro rg rd
    rw [Rd.bind_run, hL rg rd]
  generalize hrest : [UInt8.ofNat ls.length] ++ ls.flatMap (anyLayer d.mode) ++
    (leBytes 8 eid.toNat ++ pidBytes epid ++ tg) = G
  have hgG : g = anyHeader d ++ G := by
    rw [hge, ← hrest, anyHeader_eq, show anyLayer d.mode = layerOf d.mode from funext (anyLayer_eq d.mode),
      leBytes_le, filePid_eq]
    simp only [List.append_assoc]
  have hd : loadDescr g = .ok (d, G) := by rw [hgG]; exact hdescr G
  have hh : loadDataHeader d (G, b) = .ok ((), (G, recordsOf rs ++ tail)) := by
    rw [hbe, ← recordsOf_eq]
    unfold loadDataHeader
    have m : ([0x00, 0x00, 0x7f, 0xa6] : Bytes) = leBytes 4 magicDataP := by decide
    rw [m, ← leBytes_le]
    simp only [List.append_assoc]
    have hp : Parses2 (do
        let magic ← onD (readNat .err 4)
        Rd.require (magic = magicDataP) .panic
        let dim ← onD (readNat .err 8)
        Rd.require (dim = d.dim.toNat) .panic) [] (leBytes 4 magicDataP ++ leBytes 8 d.dim.toNat) () := by
      refine (parses_readNat .err (by decide)).onD.bindD ?_
      refine (Parses2.require (by simp)).bind0 ?_
      refine Parses2.map (parses_readNat .err (UInt64.lt_pow _)).onD ?_
      exact Parses2.require (by simp)
    have := hp G (recordsOf rs ++ tail)
    rw [List.nil_append, List.append_assoc] at this
    exact this
  have hinit : io.init fs = .ok (d, (G, b)) := by
    unfold HnswIo.init
    rw [hg, hb]
    simp only [hd]
  have hload : ∀ dm, loadIndexation P ty d dm io.opts (G, recordsOf rs ++ tail) = .error .ub := by
    intro dm
    rw [← hrest]
    exact hfail dm _ _
  have hmap : io.mapData ty fs = .ok io := by unfold HnswIo.mapData; rw [ho]; rfl
  constructor
  · intro hdist
    have hc : checkDist ty dist.name d = .ok () := by
      obtain ⟨seg, e1, e2⟩ := hdist
      unfold checkDist
      rw [if_neg (by simp [hn]), e1, e2]
      simp
    unfold HnswIo.loadHnsw
    simp only [hinit, hh, hc, hmap, hload]
  · intro hdist
    unfold HnswIo.loadHnswWithDist
    simp only [hinit, hh, hload]
    rw [if_neg (by simp [hdist])]

/-- the dump of `io4` with another byte in the data file -/
def damagedData (i : Nat) (v : UInt8) : Dir := fun n =>
  match fileDump u8Ty io4 (fun _ => none) "a" [] with
  | some (fs, _) => if n = "a.hnsw.data" then (fs n).map (·.set i v) else fs n
  | none => none

/-- how the reload of a damaged dump fails, if it does -/
def failsData (o : ReloadOptions) (i : Nat) (v : UInt8) : Option Fail :=
  match ((HnswIo.new "a" o).loadHnsw (listPolicy UInt8) u8Ty exScale u8Dist (damagedData i v)).2 with
  | .ok _ => none
  | .error e => some e

/-- The hypothesis of `C116_only_short` is met: the length of the first, or of the last record (byte 24 or 90, 1
instead of 2) is damaged.  With a map of all points, the first one fails when the map is made; other damages are
noticed. -/
example : failsData .default 24 2 = none ∧ failsData .default 24 1 = some .ub ∧
    failsData .default 90 1 = some .ub ∧ failsData (ReloadOptions.default.setMmap true) 24 1 = some .ub ∧
    failsData .default 24 3 = some .panic ∧ failsData .default 12 1 = some .panic := by
  decide +kernel

/-- The hypotheses of `C116_short_record` are met whenever a reload accepts two files of format 3 or 4 with points
of at least one byte: cut all the records by a byte. -/
example (L : P.Lawful) (hP : ∀ v, P.sortPanics v = false) (hn : ty.noData = false) {io : HnswIo}
    (ho : io.opts.datamap = false) {fs : Dir} {g b : Bytes} {x : Loaded T}
    (hg : fs (io.base ++ ".hnsw.graph") = some g) (hb : fs (io.base ++ ".hnsw.data") = some b)
    (hgl : g.length < 2 ^ 64) (hbl : b.length < 2 ^ 64)
    (hx : (io.loadHnsw P ty defScale dist fs).2 = .ok x)
    (hd : ∀ d ls epid, GraphFile g d ls epid → d.version ≠ 2 ∧ 0 < d.dim.toNat * ty.size) :
    ∃ b' : Bytes, b'.length < b.length ∧ ∀ fs' : Dir, fs' (io.base ++ ".hnsw.graph") = some g →
      fs' (io.base ++ ".hnsw.data") = some b' →
      (io.loadHnsw P ty defScale dist fs').2 = .error .ub := by
  obtain ⟨d, ls, epid, k1, ⟨rs, tail, k2, k3, k4⟩, k5⟩ :=
    (C90_accepted_partial L ho hg hb hgl hbl (Or.inl hP)).1 ⟨x, hx⟩
  obtain ⟨hv, hpos⟩ := hd d ls epid k1
  have k5 := k5.resolve_left (by simp [hn])
  replace k4 : ∀ r ∈ rs, d.dim.toNat * ty.size ≤ r.2.length := fun r hr => by
    rcases k4 r hr with h | h | h
    · rw [hn] at h; cases h
    · exact absurd h.1 hv
    · exact h.2
  have hne : rs ≠ [] := by
    obtain ⟨l, hl, f, hf, -⟩ := k1.entry
    have hm : f.id ∈ ls.flatten.map (·.id) := List.mem_map.2 ⟨f, List.mem_flatten.2 ⟨l, hl, hf⟩, rfl⟩
    rw [← k3] at hm
    intro hc
    rw [hc] at hm
    cases hm
  generalize hrs' : rs.map (fun r => (r.1, r.2.take (d.dim.toNat * ty.size - 1))) = rs'
  have hlen : (rs'.flatMap dataRecord).length + rs.length ≤ (rs.flatMap dataRecord).length := by
    subst hrs'
    clear k2 k3 hne
    induction rs with
    | nil => simp
    | cons r rs ih =>
      have h1 := k4 r (by simp)
      have h2 := ih fun r hr => k4 r (by simp [hr])
      simp only [List.map_cons, List.flatMap_cons, List.length_append, List.length_cons]
      have : (dataRecord (r.1, r.2.take (d.dim.toNat * ty.size - 1))).length + 1 ≤ (dataRecord r).length := by
        unfold dataRecord
        simp only [List.length_append, le_length, List.length_take, List.length_cons, List.length_nil]
        omega
      omega
  have hpos' : 0 < rs.length := List.length_pos_iff.2 hne
  have hb' : ([0x00, 0x00, 0x7f, 0xa6] ++ le 8 d.dim.toNat ++ rs'.flatMap dataRecord ++ tail : Bytes).length <
      b.length := by
    rw [k2]
    simp only [List.length_append]
    omega
  refine ⟨_, hb', fun fs' hg' hb2 => ?_⟩
  refine (C116_short_record ho hg' hb2 hgl (by omega) k1 hv rfl ?_ hn k5.1 ?_).1 k5.2
  · rw [← hrs', List.map_map, ← k3]
    rfl
  · obtain ⟨r, hr⟩ := List.exists_mem_of_ne_nil rs hne
    refine ⟨_, hrs' ▸ List.mem_map.2 ⟨r, hr, rfl⟩, ?_⟩
    simp only [List.length_take]
    omega

end Verif
