import Verif.Props.GraphBytes
import Verif.Props.AnyMap

set_option autoImplicit false

/-!
# The files that a reload with a memory map accepts (C90)
-/

namespace Verif
variable {T : Type} {P : Policy T} {ty : Ty T} {defScale : Nat → F64} {dist : Dist T}
  {io io' : HnswIo} {fs : Dir} {x : Loaded T}

/-! ## Making a map -/

theorem imInsert_mem {m : List (DataId × Nat)} {k : DataId} {v : Nat} {k' : DataId}
    (h : k' = k ∨ k' ∈ m.map (·.1)) : k' ∈ (imInsert m k v).map (·.1) := by
  rw [imInsert_keys]
  split
  · rename_i hk
    rcases h with rfl | h
    · exact hk
    · exact h
  · rcases h with rfl | h
    · simp
    · exact List.mem_append_left _ h

theorem sliceAt_at {pre x post : Bytes} {n : Nat} (hn : x.length = n) {a : Nat} (ha : pre.length = a) :
    sliceAt (pre ++ (x ++ post)) a n = .ok x := by
  subst hn ha
  unfold sliceAt
  rw [if_pos (by simp only [List.length_append]; omega)]
  simp

theorem sliceAt_start {x post : Bytes} {n : Nat} (hn : x.length = n) : sliceAt (x ++ post) 0 n = .ok x :=
  sliceAt_at (pre := []) hn rfl

/-- records long enough are all entered in the map -/
theorem mapRecords_total {size dim : Nat} : ∀ {ms : List (DataId × Bytes)} {pre post : Bytes}
    {m : List (DataId × Nat)}, (∀ r ∈ ms, dim * size ≤ r.2.length ∧ r.2.length < 2 ^ 64) →
    ∃ m', mapRecords size dim (pre ++ (recordsOf ms ++ post)) ms.length pre.length m = .ok m' ∧
      ∀ k, (k ∈ m.map (·.1) ∨ k ∈ ms.map (·.1)) → k ∈ m'.map (·.1) := by
  intro ms
  induction ms with
  | nil =>
    intro pre post m _
    exact ⟨m, rfl, fun k hk => by simpa using hk⟩
  | cons r ms ih =>
    intro pre post m h
    obtain ⟨id, v⟩ := r
    obtain ⟨h1, h2⟩ := h (id, v) (by simp)
    simp only at h1 h2
    have hcons : recordsOf ((id, v) :: ms) = recordBytes id v ++ recordsOf ms := by simp [recordsOf]
    have hid : (leBytes 8 id.toNat).length = 8 := by simp
    have e1 : sliceAt (pre ++ (recordsOf ((id, v) :: ms) ++ post)) pre.length 4 = .ok (leBytes 4 magicDataP) := by
      rw [hcons]
      unfold recordBytes
      simp only [List.append_assoc]
      exact sliceAt_at (by simp) rfl
    have e2 : sliceAt (pre ++ (recordsOf ((id, v) :: ms) ++ post)) (pre.length + 4) 8 =
        .ok (leBytes 8 id.toNat) := by
      rw [hcons]
      unfold recordBytes
      have := sliceAt_at (pre := pre ++ leBytes 4 magicDataP) (x := leBytes 8 id.toNat)
        (post := leBytes 8 v.length ++ (v ++ (recordsOf ms ++ post))) (n := 8) (by simp)
        (a := pre.length + 4) (by simp)
      simpa only [List.append_assoc] using this
    have e3 : sliceAt (pre ++ (recordsOf ((id, v) :: ms) ++ post)) (pre.length + 12) 8 =
        .ok (leBytes 8 v.length) := by
      rw [hcons]
      unfold recordBytes
      have := sliceAt_at (pre := pre ++ (leBytes 4 magicDataP ++ leBytes 8 id.toNat)) (x := leBytes 8 v.length)
        (post := v ++ (recordsOf ms ++ post)) (n := 8) (by simp)
        (a := pre.length + 12) (by simp)
      simpa only [List.append_assoc] using this
    have e4 : sliceAt (pre ++ (recordsOf ((id, v) :: ms) ++ post)) (pre.length + 20) v.length = .ok v := by
      rw [hcons]
      unfold recordBytes
      have := sliceAt_at (pre := pre ++ (leBytes 4 magicDataP ++ (leBytes 8 id.toNat ++ leBytes 8 v.length)))
        (x := v) (post := recordsOf ms ++ post) (n := v.length) rfl
        (a := pre.length + 20) (by simp)
      simpa only [List.append_assoc] using this
    have hl1 : ofLE (leBytes 4 magicDataP) = magicDataP := by decide
    have hl2 : ofLE (leBytes 8 id.toNat) = id.toNat := ofLE_leBytes (UInt64.lt_pow _)
    have hl3 : ofLE (leBytes 8 v.length) = v.length := ofLE_leBytes (by omega)
    obtain ⟨m', k1, k2⟩ := ih (pre := pre ++ recordBytes id v) (post := post)
      (m := imInsert m (UInt64.ofNat id.toNat) (pre.length + 12)) (fun r hr => h r (by simp [hr]))
    refine ⟨m', ?_, ?_⟩
    · simp only [List.length_cons, mapRecords, e1, e2, e3, bind, Except.bind, hl1, hl2, hl3, e4]
      rw [if_neg (by simp)]
      rw [if_neg (by omega)]
      have hlen : (pre ++ recordBytes id v).length = pre.length + 20 + v.length := by
        simp [recordBytes]; omega
      rw [hlen] at k1
      rw [← k1, hcons]
      simp only [List.append_assoc]
    · intro k hk
      apply k2
      rw [List.map_cons, List.mem_cons] at hk
      rcases hk with hk | hk | hk
      · exact .inl (imInsert_mem (.inr hk))
      · exact .inl (imInsert_mem (.inl (by rw [hk, UInt64.ofNat_toNat])))
      · exact .inr hk

/-- the records that a map of the data file holds: as many as fit by the size computed from the dimension,
each of them at least so long -/
def Mappable (ty : Ty T) (b : Bytes) (dim : Nat) (ms : List (DataId × Bytes)) : Prop :=
  (∃ tail, b = [0x00, 0x00, 0x7f, 0xa6] ++ le 8 dim ++ ms.flatMap dataRecord ++ tail) ∧
  b.length < 12 + (ms.length + 1) * (20 + dim * ty.size) ∧ ∀ r ∈ ms, dim * ty.size ≤ r.2.length

theorem mappable_of_map {g b : Bytes} {d : Descr} {g' : Bytes} {base : String}
    (hg : fs (graphName base) = some g) (hb : fs (dataName base) = some b) (hd : loadDescr g = .ok (d, g'))
    {m : DataMap} (hm : DataMap.fromDump ty fs base = .ok m) :
    3 ≤ d.version ∧ ty.name = d.tName ∧ ∃ ms, Mappable ty b d.dim.toNat ms ∧
      ∀ id v, m.getData ty id = .ok (some v) → id ∈ ms.map (·.1) := by
  obtain ⟨g2, d2, g2', b2, rs, a1, a2, a3, a4, a5, -, -, -, -, a6, a7, a8, -, a9, a10, a11, -, -, a12, -⟩ :=
    fromDump_ok hm
  rw [hg] at a1
  obtain rfl := Option.some.inj a1
  rw [hb] at a3
  obtain rfl := Option.some.inj a3
  rw [hd] at a2
  injection a2 with a2
  rw [Prod.mk.injEq] at a2
  obtain ⟨rfl, -⟩ := a2
  refine ⟨a4, a5.symm, rs, ⟨⟨b.drop (12 + (recordsOf rs).length), ?_⟩, ?_, a11⟩, ?_⟩
  · refine a7.trans ?_
    rw [a9, recordsOf_eq, leBytes_le 8, List.append_assoc _ (rs.flatMap dataRecord)]
    rfl
  · have h1 : b.length - 12 < ((b.length - 12) / (20 + d.dim.toNat * ty.size) + 1) *
        (20 + d.dim.toNat * ty.size) := by
      rw [Nat.mul_comm]; exact Nat.lt_mul_div_succ _ (by omega)
    rw [← a8] at h1
    omega
  · intro id v hv
    apply Classical.byContradiction
    intro hc
    unfold DataMap.getData at hv
    rw [a12 id hc] at hv
    cases hv

theorem map_of_mappable {g b : Bytes} {d : Descr} {g' : Bytes} {base : String}
    (hg : fs (graphName base) = some g) (hb : fs (dataName base) = some b) (hd : loadDescr g = .ok (d, g'))
    (hbl : b.length < 2 ^ 64) (hv : 3 ≤ d.version) (hn : ty.name = d.tName)
    (hov : 20 + d.dim.toNat * ty.size < 2 ^ 64) {ms : List (DataId × Bytes)} (hms : Mappable ty b d.dim.toNat ms) :
    ∃ m, DataMap.fromDump ty fs base = .ok m ∧ ∀ id ∈ ms.map (·.1), ∃ v, m.getData ty id = .ok (some v) := by
  obtain ⟨⟨tail, hbt⟩, hlt, hlen⟩ := hms
  have hrl := recordsOf_length hlen
  have hm4 : ([0x00, 0x00, 0x7f, 0xa6] : Bytes) = leBytes 4 magicDataP := by decide
  have hb' : b = (leBytes 4 magicDataP ++ leBytes 8 d.dim.toNat) ++ (recordsOf ms ++ tail) := by
    rw [hbt, hm4, ← leBytes_le, recordsOf_eq]
    simp only [List.append_assoc]
  have hbl' : b.length = 12 + ((recordsOf ms).length + tail.length) := by
    rw [hb']; simp only [List.length_append, leBytes_length]
  have hcount : (b.length - 12) / (20 + d.dim.toNat * ty.size) = ms.length := by
    refine Nat.div_eq_of_lt_le ?_ ?_
    · omega
    · omega
  have hlens : ∀ r ∈ ms, d.dim.toNat * ty.size ≤ r.2.length ∧ r.2.length < 2 ^ 64 := by
    intro r hr
    refine ⟨hlen r hr, ?_⟩
    have a1 := anyBytes_len (f := dataRecord) hr
    have a2 : r.2.length ≤ (dataRecord r).length := by
      unfold dataRecord; simp only [List.length_append]; omega
    rw [recordsOf_eq] at hbl'
    omega
  obtain ⟨m', k1, k2⟩ := mapRecords_total (size := ty.size) (dim := d.dim.toNat)
    (pre := leBytes 4 magicDataP ++ leBytes 8 d.dim.toNat) (post := tail) (m := []) hlens
  rw [← hb', show (leBytes 4 magicDataP ++ leBytes 8 d.dim.toNat).length = 12 by simp] at k1
  have s1 : sliceAt b 0 4 = .ok (leBytes 4 magicDataP) := by
    rw [hb', List.append_assoc]
    exact sliceAt_start (leBytes_length 4 magicDataP)
  have s2 : sliceAt b 4 8 = .ok (leBytes 8 d.dim.toNat) := by
    have := sliceAt_at (pre := leBytes 4 magicDataP) (x := leBytes 8 d.dim.toNat)
      (post := recordsOf ms ++ tail) (n := 8) (by simp) (a := 4) (by simp)
    rw [hb', List.append_assoc]
    exact this
  have hl1 : ofLE (leBytes 4 magicDataP) = magicDataP := by decide
  have hl2 : ofLE (leBytes 8 d.dim.toNat) = d.dim.toNat := ofLE_leBytes (UInt64.lt_pow _)
  have hm : DataMap.fromDump ty fs base =
      .ok { bytes := b, hmap := m', tName := d.tName, dim := d.dim.toNat, distName := d.distName } := by
    unfold DataMap.fromDump
    rw [hg]
    simp only [hd]
    rw [if_neg (by omega), if_neg (by simpa using hn), hb]
    simp only [s1, s2, bind, Except.bind, hl1, hl2]
    rw [if_neg (by simp), if_neg (by simp)]
    rw [hcount, k1]
  refine ⟨_, hm, ?_⟩
  intro id hid
  have hmem : id ∈ m'.map (·.1) := k2 id (.inr hid)
  obtain ⟨g2, b2, d2, g2', rs, tail2, -, -, -, -, -, -, -, -, -, -, -, -, e7, -, e8⟩ :=
    C76_map_any fs base _ hm hov
  obtain ⟨r1, w, r2, v, -, -, hv, -⟩ := (e8 id).2 ((e7 id).1 hmem)
  exact ⟨v, hv⟩

/-! ## Reloads -/

/-- `b` is a data file for these points, and fulfils what a reload with a map and the threshold `t` demands.
The points number `i` with `i + t < nb_point` are mapped, the others are read. -/
structure MappedFile (ty : Ty T) (b : Bytes) (d : Descr) (ls : List (List FilePt)) (t : Nat) : Prop where
  bytes : ∃ (rs : List (DataId × Bytes)) (tail : Bytes),
    b = [0x00, 0x00, 0x7f, 0xa6] ++ le 8 d.dim.toNat ++ rs.flatMap dataRecord ++ tail ∧
    rs.map (·.1) = ls.flatten.map (·.id) ∧
    (∀ (i : Nat) r, rs[i]? = some r → d.nbPoint.toNat ≤ i + t →
      ty.noData = true ∨ (d.version = 2 ∧ (ty.bincode r.2).isSome) ∨
        (d.version ≠ 2 ∧ d.dim.toNat * ty.size ≤ r.2.length)) ∧
    ((d.version ≠ 2 ∧ ty.name = d.tName ∧ ∃ ms, Mappable ty b d.dim.toNat ms ∧
        ∀ (i : Nat) r, rs[i]? = some r → i + t < d.nbPoint.toNat → r.1 ∈ ms.map (·.1)) ∨
      ((d.version = 2 ∨ ty.name ≠ d.tName) ∧ d.nbPoint.toNat ≤ t))

theorem pointUseMmap_iff {t : Nat} (ht : t < 2 ^ 63) {n i : Nat} (hn : n < 2 ^ 63) :
    pointUseMmap ⟨true, t⟩ (asI64 n - (i : Nat)) = decide (i + t < n) := by
  unfold pointUseMmap asI64
  rw [if_pos ht, if_pos hn]
  simp only [Bool.true_and]
  by_cases h : i + t < n
  · rw [decide_eq_true h, decide_eq_false (by omega)]; rfl
  · rw [decide_eq_false h, decide_eq_true (by omega)]; rfl

theorem sliceAt_err {b : Bytes} {a n : Nat} : sliceAt b a n ≠ .error .err := by
  unfold sliceAt
  split
  · exact nofun
  · exact nofun

theorem mapRecords_err {size dim : Nat} {b : Bytes} : ∀ {n a : Nat} {m : List (DataId × Nat)},
    mapRecords size dim b n a m ≠ .error .err := by
  intro n
  induction n with
  | zero => intro a m h; cases h
  | succ n ih =>
    intro a m h
    unfold mapRecords at h
    cases h1 : sliceAt b a 4 with
    | error e => rw [h1] at h; injection h with h; exact sliceAt_err (h ▸ h1)
    | ok magic =>
    rw [h1] at h
    simp only [bind, Except.bind] at h
    split at h
    · cases h
    cases h2 : sliceAt b (a + 4) 8 with
    | error e => rw [h2] at h; injection h with h; exact sliceAt_err (h ▸ h2)
    | ok id =>
    rw [h2] at h
    simp only at h
    cases h3 : sliceAt b (a + 12) 8 with
    | error e => rw [h3] at h; injection h with h; exact sliceAt_err (h ▸ h3)
    | ok len =>
    rw [h3] at h
    simp only at h
    cases h4 : sliceAt b (a + 20) (ofLE len) with
    | error e => rw [h4] at h; injection h with h; exact sliceAt_err (h ▸ h4)
    | ok v =>
    rw [h4] at h
    simp only at h
    split at h
    · cases h
    exact ih h

/-- when a map can be made -/
theorem mapData_iff {g b : Bytes} {d : Descr} {g' : Bytes} {s1 : Two} (h0 : io.datamap = none) {t : Nat}
    (ho : io.opts = ⟨true, t⟩) (hg : fs (graphName io.base) = some g) (hb : fs (dataName io.base) = some b)
    (hd : loadDescr g = .ok (d, g')) (hh : loadDataHeader d (g', b) = .ok ((), s1))
    (hm : io.mapData ty fs = .ok io') :
    io'.opts = ⟨true, t⟩ ∧
    ((∃ m, io'.datamap = some m ∧ DataMap.fromDump ty fs io.base = .ok m) ∨
      (io'.datamap = none ∧ (d.version ≤ 2 ∨ ty.name ≠ d.tName))) := by
  unfold HnswIo.mapData at hm
  rw [ho] at hm
  simp only [if_true] at hm
  split at hm
  · rename_i m hf
    injection hm with hm
    subst hm
    exact ⟨rfl, .inl ⟨m, rfl, hf⟩⟩
  · rename_i hf
    injection hm with hm
    subst hm
    refine ⟨ho, .inr ⟨h0, ?_⟩⟩
    apply Classical.byContradiction
    intro hc
    have hc1 : ¬ d.version ≤ 2 := fun h => hc (.inl h)
    have hc2 : ¬ ty.name ≠ d.tName := fun h => hc (.inr h)
    obtain ⟨e1, -⟩ := loadDataHeader_ok hh
    have e1' : b = leBytes 4 magicDataP ++ leBytes 8 d.dim.toNat ++ s1.2 := e1
    have s1' : sliceAt b 0 4 = .ok (leBytes 4 magicDataP) := by
      rw [e1', List.append_assoc]
      exact sliceAt_start (leBytes_length 4 magicDataP)
    have s2' : sliceAt b 4 8 = .ok (leBytes 8 d.dim.toNat) := by
      rw [e1', List.append_assoc]
      exact sliceAt_at (leBytes_length 8 _) (leBytes_length 4 _)
    have hl1 : ofLE (leBytes 4 magicDataP) = magicDataP := by decide
    have hl2 : ofLE (leBytes 8 d.dim.toNat) = d.dim.toNat := ofLE_leBytes (UInt64.lt_pow _)
    unfold DataMap.fromDump at hf
    rw [hg] at hf
    simp only [hd] at hf
    rw [if_neg hc1, if_neg hc2, hb] at hf
    simp only [s1', s2', bind, Except.bind, hl1, hl2] at hf
    rw [if_neg (by simp), if_neg (by simp)] at hf
    split at hf
    · rename_i e he
      injection hf with hf
      subst hf
      exact mapRecords_err he
    · cases hf
  · cases hm

/-- **C90** (partial: no NaN among the distances of the links, or sorting does not panic on NaN) With a map
and a threshold, a new `HnswIo` returns an index exactly when the graph file is a graph file, the data file has
a record for each point in order, those of the points that are not mapped can be decoded, the map can be made
and has a record for each mapped point (or, if the format or the type do not allow a map, no point is mapped), and
the type and the distance are the ones named in the header.  Files shorter than 2^64 bytes, and no overflow in
the size of a record. -/
theorem C90_accepted_mapped_partial (L : P.Lawful) (h0 : io.datamap = none) {t : Nat} (ho : io.opts = ⟨true, t⟩)
    (ht : t < 2 ^ 63) {g b : Bytes}
    (hg : fs (io.base ++ ".hnsw.graph") = some g) (hb : fs (io.base ++ ".hnsw.data") = some b)
    (hgl : g.length < 2 ^ 64) (hbl : b.length < 2 ^ 64)
    (hov : ∀ d g', loadDescr g = .ok (d, g') → 20 + d.dim.toNat * ty.size < 2 ^ 64)
    (hS : (∀ v, P.sortPanics v = false) ∨ ∀ d ls epid, GraphFile g d ls epid → NoNaNLinks ls) :
    (∃ x, (io.loadHnsw P ty defScale dist fs).2 = .ok x) ↔
    ∃ d ls epid, GraphFile g d ls epid ∧ MappedFile ty b d ls t ∧
      (ty.noData = true ∨ ty.name = d.tName ∧ ∃ seg, (rsplitTerm dist.name).head? = some seg ∧
        (rsplitTerm d.distName).head? = some seg) := by
  have hg' : fs (graphName io.base) = some g := hg
  have hb' : fs (dataName io.base) = some b := hb
  constructor
  · rintro ⟨x, hx⟩
    have hx' : io.loadHnsw P ty defScale dist fs = ((io.loadHnsw P ty defScale dist fs).1, .ok x) := by
      rw [← hx]
    generalize (io.loadHnsw P ty defScale dist fs).1 = io1 at hx'
    unfold HnswIo.loadHnsw at hx'
    split at hx'
    · cases hx'
    rename_i d s hi
    split at hx'
    · cases hx'
    rename_i u s1 hh
    split at hx'
    · cases hx'
    rename_i u' hc
    split at hx'
    · cases hx'
    rename_i io2 hm
    split at hx'
    · cases hx'
    rename_i idx mm s2 hl
    have hi' : ∃ g', loadDescr g = .ok (d, g') ∧ s = (g', b) := by
      unfold HnswIo.init at hi
      rw [hg', hb'] at hi
      simp only at hi
      split at hi
      · rename_i d' g' hd
        injection hi with hi
        rw [Prod.mk.injEq] at hi
        obtain ⟨rfl, rfl⟩ := hi
        exact ⟨g', hd, rfl⟩
      · cases hi
      · cases hi
    obtain ⟨g', hd, rfl⟩ := hi'
    obtain ⟨k0, kmap⟩ := mapData_iff h0 ho hg' hb' hd hh hm
    rw [k0] at hl
    obtain ⟨ls, epid, k1, ⟨rs, tail, k2, k3, k4⟩, k5⟩ :=
      (load_parts_found L hgl hbl d hS).1 ⟨g', s1, _, s2, hd, hh, hl⟩
    have hnb := k1.readable.announced
    simp only [pointUseMmap_iff ht hnb] at k4
    refine ⟨d, ls, epid, k1, ⟨rs, tail, k2, k3, ?_, ?_⟩, ?_⟩
    · intro i r hr hle
      obtain ⟨v, hv⟩ := k4 i r hr
      rw [decide_eq_false (by omega)] at hv
      exact (recordVec_ok_iff k1.version r.2).1 ⟨v, hv⟩
    · rcases kmap with ⟨m, e1, e2⟩ | ⟨e1, e2⟩
      · obtain ⟨a1, a2, ms, a3, a4⟩ := mappable_of_map hg' hb' hd e2
        refine .inl ⟨by omega, a2, ms, a3, ?_⟩
        intro i r hr hlt
        obtain ⟨v, hv⟩ := k4 i r hr
        rw [decide_eq_true hlt] at hv
        have hv' : mappedVec ty io2.datamap r.1 = .ok v := hv
        rw [e1] at hv'
        unfold mappedVec at hv'
        simp only at hv'
        split at hv'
        · cases hv'
        · cases hv'
        · rename_i w hw
          exact a4 r.1 w hw
      · refine .inr ⟨e2.imp (fun h => ?_) id, ?_⟩
        · have := k1.version
          omega
        · apply Classical.byContradiction
          intro hlt
          obtain ⟨l, hl', f, hf, -⟩ := k1.entry
          have hne : ls.flatten ≠ [] := by
            intro h
            have : f ∈ ls.flatten := List.mem_flatten.2 ⟨l, hl', hf⟩
            rw [h] at this
            cases this
          cases hrs : rs with
          | nil =>
            rw [hrs] at k3
            exact hne (List.map_eq_nil_iff.1 k3.symm)
          | cons r rs' =>
            obtain ⟨v, hv⟩ := k4 0 r (by rw [hrs]; rfl)
            rw [decide_eq_true (by omega)] at hv
            have hv' : mappedVec ty io2.datamap r.1 = .ok v := hv
            rw [e1] at hv'
            cases hv'
    · rcases k5 with k5 | k5
      · exact .inl k5
      · rcases (checkDist_ok_iff d).1 hc with k6 | k6
        · exact .inl k6
        · exact .inr ⟨k5, k6⟩
  · rintro ⟨d, ls, epid, k1, ⟨rs, tail, k2, k3, k4, k5⟩, k6⟩
    have hnb := k1.readable.announced
    have hdescr := parses_anyHeader k1.version k1.scale (by rw [strBytes_size]; exact k1.distLen)
      (by rw [strBytes_size]; exact k1.tLen)
    obtain ⟨eid, tg, hgb⟩ := k1.bytes
    have hd : ∃ g', loadDescr g = .ok (d, g') := by
      rw [hgb, ← anyHeader_eq]
      simp only [List.append_assoc]
      exact ⟨_, hdescr _⟩
    obtain ⟨g', hd⟩ := hd
    have hmd : ∃ io2, io.mapData ty fs = .ok io2 ∧ io2.opts = ⟨true, t⟩ ∧
        ∀ (i : Nat) r, rs[i]? = some r → i + t < d.nbPoint.toNat → ∃ v, mappedVec ty io2.datamap r.1 = .ok v := by
      rcases k5 with ⟨c1, c2, ms, c3, c4⟩ | ⟨c1, c2⟩
      · obtain ⟨m, e1, e2⟩ := map_of_mappable hg' hb' hd hbl (by have := k1.version; omega) c2 (hov d g' hd) c3
        refine ⟨{ io with datamap := some m }, ?_, ho, ?_⟩
        · unfold HnswIo.mapData
          rw [ho]
          simp only [if_true, e1]
        · intro i r hr hlt
          obtain ⟨v, hv⟩ := e2 r.1 (c4 i r hr hlt)
          refine ⟨v, ?_⟩
          unfold mappedVec
          simp only [hv]
      · refine ⟨io, ?_, ho, fun i r _ hlt => by omega⟩
        unfold HnswIo.mapData
        rw [ho]
        simp only [if_true]
        have : DataMap.fromDump ty fs io.base = .error .err := by
          unfold DataMap.fromDump
          rw [hg']
          simp only [hd]
          by_cases hv : d.version ≤ 2
          · rw [if_pos hv]
          · rw [if_neg hv]
            rcases c1 with c1 | c1
            · omega
            · rw [if_pos c1]
        rw [this]
    obtain ⟨io2, m1, m2, m3⟩ := hmd
    have hfound : DataFound ty io2.datamap ⟨true, t⟩ b d ls := by
      refine ⟨rs, tail, k2, k3, ?_⟩
      intro i r hr
      rw [pointUseMmap_iff ht hnb]
      by_cases hlt : i + t < d.nbPoint.toNat
      · rw [decide_eq_true hlt]
        exact m3 i r hr hlt
      · rw [decide_eq_false hlt]
        exact (recordVec_ok_iff k1.version r.2).2 (k4 i r hr (by omega))
    obtain ⟨g'', s1, ⟨idx, m⟩, s2, h1, h2, h3⟩ :=
      (load_parts_found (P := P) L hgl hbl d hS).2 ⟨ls, epid, k1, hfound, k6.imp id (·.1)⟩
    have hinit : io.init fs = .ok (d, (g'', b)) := by
      unfold HnswIo.init
      rw [hg', hb']
      simp only [h1]
    have hc := (checkDist_ok_iff (ty := ty) (dist := dist) d).2 (k6.imp id (·.2))
    unfold HnswIo.loadHnsw
    simp only [hinit, h2, hc, m1, m2, h3]
    exact ⟨_, rfl⟩

/-- does a new `HnswIo` with this threshold return an index of these files -/
def mapLoads (t : Nat) (fs : Dir) : Bool :=
  match ((HnswIo.new "a" ⟨true, t⟩).loadHnsw (listPolicy UInt8) u8Ty exScale u8Dist fs).2 with
  | .ok _ => true
  | .error _ => false

/-- A dump of four points is accepted with every threshold, files of format 2 not if a point is mapped, and
bytes after the last record only if they are fewer than the 22 bytes of a record, even if no point is mapped. -/
example : mapLoads 0 (mapFs id) = true ∧ mapLoads 2 (mapFs id) = true ∧ mapLoads 4 (mapFs id) = true ∧
    mapLoads 3 (mapFs2 id) = false ∧
    mapLoads 4 (fun n => (mapFs id n).map fun b =>
      if n = "a.hnsw.data" then b ++ List.replicate 21 0 else b) = true ∧
    mapLoads 4 (fun n => (mapFs id n).map fun b =>
      if n = "a.hnsw.data" then b ++ List.replicate 22 0 else b) = false := by
  decide +kernel

/-- The hypotheses of `C90_accepted_mapped_partial` are met by the dump of `io4`, half of whose points are mapped. -/
example (g b : Bytes) (hg : mapFs id "a.hnsw.graph" = some g) (hb : mapFs id "a.hnsw.data" = some b) :
    ∃ d ls epid, GraphFile g d ls epid ∧ MappedFile u8Ty b d ls 2 := by
  have hgl : ((mapFs id "a.hnsw.graph").map List.length).all (· < 2000) = true := by decide +kernel
  have hbl : ((mapFs id "a.hnsw.data").map List.length).all (· < 1000) = true := by decide +kernel
  have hdl : (((mapFs id "a.hnsw.graph").bind fun g => (loadDescr g).toOption).all
    fun r => decide (20 + r.1.dim.toNat * u8Ty.size < 2 ^ 64)) = true := by decide +kernel
  rw [hg] at hgl hdl
  rw [hb] at hbl
  simp only [Option.map_some, Option.all_some, decide_eq_true_eq] at hbl hgl
  obtain ⟨d, ls, epid, h1, h2, -⟩ := (C90_accepted_mapped_partial (io := HnswIo.new "a" ⟨true, 2⟩)
    (P := listPolicy UInt8) (ty := u8Ty) (defScale := exScale) (dist := u8Dist) listPolicy_lawful rfl rfl
    (by decide) hg hb (by omega) (by omega)
    (by
      intro d g' hd
      rw [Option.bind_some, hd] at hdl
      simpa [Except.toOption] using hdl)
    (Or.inl fun _ => rfl)).1
    (by
      have : mapLoads 2 (mapFs id) = true := by decide +kernel
      unfold mapLoads at this
      split at this
      · rename_i x hx; exact ⟨x, hx⟩
      · cases this)
  exact ⟨d, ls, epid, h1, h2⟩

end Verif
