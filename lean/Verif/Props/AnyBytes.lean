import Verif.AnyMapLemmas
import Verif.IoExamples

set_option autoImplicit false

/-!
# Reloading files of any content (C73 - C76)

Nothing is assumed of the files: they may be damaged, or not be dumps at all.
-/

namespace Verif
variable {T : Type} {P : Policy T} {ty : Ty T} {defScale : Nat → F64} {dist : Dist T}
  {io io' : HnswIo} {fs : Dir} {x : Loaded T}

/-- `k` bytes of `n`, the lowest one first -/
def le (k n : Nat) : Bytes := (List.range k).map fun i => UInt8.ofNat (n / 256 ^ i)

theorem leBytes_le (k n : Nat) : leBytes k n = le k n := by
  induction k generalizing n with
  | zero => rfl
  | succ k ih =>
    unfold leBytes le
    rw [List.range_succ_eq_map, List.map_cons, List.map_map, ih]
    simp only [Nat.pow_zero, Nat.div_one, le]
    congr 1
    refine List.map_congr_left fun i _ => ?_
    simp only [Function.comp_apply, Nat.pow_succ]
    rw [Nat.div_div_eq_div_mul, Nat.mul_comm]

/-! ## C73 -/

/-- **C73** (partial: a list is sorted if it has no NaN) Whatever the files, an index returned by `load_hnsw` is well formed: at most 16 layers, each
point at the place its id says, an entry point among the points, the right count, lists leading to
points of the index, and no list for a layer above 15 or for a point that is not there. -/
theorem C73_wellformed_partial (L : P.Lawful) (hx : io.loadHnsw P ty defScale dist fs = (io', .ok x)) :
    x.hnsw.idx.layers.length ≤ 16 ∧
    (∀ (l r : Nat) (ps : List (Ref T)) (p : Ref T), x.hnsw.idx.layers[l]? = some ps →
      ps[r]? = some p → p.pid = ⟨l, r⟩) ∧
    (∃ e, x.hnsw.idx.entry = some e ∧ e ∈ x.hnsw.idx.points) ∧
    getNbPoint x.hnsw.idx = x.hnsw.idx.points.length ∧
    ∀ p l, (∀ e ∈ x.hnsw.idx.nb p l, e.pt ∈ x.hnsw.idx.points) ∧
      ((∀ e ∈ x.hnsw.idx.nb p l, e.dist.isNaN = false) →
        (x.hnsw.idx.nb p l).Pairwise (fun a b => a.dist.key ≤ b.dist.key)) ∧
      (x.hnsw.idx.nb p l ≠ [] → l < 16 ∧ ∃ q ∈ x.hnsw.idx.points, q.pid = p) := by
  obtain ⟨g, b, d, g', s1, idx, m, s2, -, -, -, -, hl, rfl⟩ := load_ok_parts hx
  obtain ⟨h1, h2, h3, h4, h5, h6, h7, -⟩ := loadIndexation_ok L hl
  refine ⟨h1, ?_, h3, h4, fun p l => ⟨h5 p l, h6 p l, h7 p l⟩⟩
  intro l r ps p hps hp
  apply h2 l r p
  show ((idx.layers[l]?).getD [])[r]? = some p
  have : idx.layers[l]? = some ps := hps
  rw [this]
  exact hp

/-- the dump of `io4`, one byte of the graph file changed -/
def damaged (i : Nat) (v : UInt8) : Dir := fun n =>
  match fileDump u8Ty io4 (fun _ => none) "a" [] with
  | some (fs, _) => if n = "a.hnsw.graph" then (fs n).map (·.set i v) else fs n
  | none => none

/-- links of the reload of a damaged dump -/
def damagedLinks (i : Nat) (v : UInt8) : Option (List (PointId × List PointId)) :=
  match ((HnswIo.new "a" .default).loadHnsw (listPolicy UInt8) u8Ty exScale u8Dist (damaged i v)).2 with
  | .ok x => some (x.hnsw.idx.points.map fun p => (p.pid, (x.hnsw.idx.nb p.pid 0).map (·.pt.pid)))
  | .error _ => none

/-- The hypothesis is met by damaged files: with byte 137 cleared the point `⟨0, 0⟩` is its own neighbour
after the reload, with byte 332 cleared `⟨0, 1⟩` has the same neighbour twice. -/
example :
    damagedLinks 137 0 = some [(⟨0, 0⟩, [⟨0, 0⟩]), (⟨0, 1⟩, [⟨1, 0⟩, ⟨0, 0⟩]),
      (⟨1, 0⟩, [⟨0, 0⟩, ⟨0, 1⟩]), (⟨2, 0⟩, [⟨0, 1⟩, ⟨1, 0⟩, ⟨0, 0⟩])] ∧
    damagedLinks 332 0 = some [(⟨0, 0⟩, [⟨0, 1⟩]), (⟨0, 1⟩, [⟨0, 0⟩, ⟨0, 0⟩]),
      (⟨1, 0⟩, [⟨0, 0⟩, ⟨0, 1⟩]), (⟨2, 0⟩, [⟨0, 1⟩, ⟨1, 0⟩, ⟨0, 0⟩])] := by
  decide +kernel

/-! ## C74 -/

/-- **C74** Whatever the files, searches in an index returned by `load_hnsw` terminate; they do not panic
if the distances from the query to the points are legal (no filter, or `ef` or `knbn` positive). -/
theorem C74_search_safe (L : P.Lawful) (hx : io.loadHnsw P ty defScale dist fs = (io', .ok x))
    (q : List T) (knbn efArg : Nat) (filt : Option (DataId → Bool)) :
    searchFilter P x.hnsw.cfg x.hnsw.idx q knbn efArg filt ≠ .error .fuel ∧
    ((∀ p ∈ x.hnsw.idx.points, (dist.eval q p.data).Legal) → filt = none ∨ 1 ≤ max efArg knbn →
      ∃ ns, searchFilter P x.hnsw.cfg x.hnsw.idx q knbn efArg filt = .ok ns) := by
  have hn := load_navig L hx
  have hev : x.hnsw.cfg.eval = dist.eval := by
    obtain ⟨g, b, d, g', s1, idx, m, s2, -, -, -, -, -, rfl⟩ := load_ok_parts hx
    rfl
  have hne : x.hnsw.idx.points ≠ [] := by
    obtain ⟨-, -, ⟨e, -, he⟩, -⟩ := C73_wellformed_partial L hx
    exact List.ne_nil_of_mem he
  constructor
  · obtain ⟨ep, pivot, l, -, -, hst, -, -, heq⟩ :=
      searchFilter_eq (P := P) (cfg := x.hnsw.cfg) (q := q) hn hne knbn efArg filt
    rw [heq]
    have h1 := loop_no_fuel (cfg := x.hnsw.cfg) (q := q) (l := l) L hn hst (max efArg knbn) filt
    split
    · rename_i e he
      rw [he] at h1
      simpa using h1
    · split
      · rename_i e he
        unfold Policy.intoSortedC at he
        split at he
        · injection he with he; rw [← he]; simp
        · cases he
      · simp
  · intro hL hf
    have hL' : LegalOn x.hnsw.cfg.eval x.hnsw.idx q := by
      rw [hev]; exact fun p hp => hL p hp
    cases filt with
    | none =>
      obtain ⟨_, _, _, _, _, -, -, -, -, -, -, heq⟩ :=
        searchNone_res (cfg := x.hnsw.cfg) L hn hne hL' knbn efArg
      exact ⟨_, heq⟩
    | some φ =>
      have hf' : 1 ≤ max efArg knbn := by simpa using hf
      obtain ⟨_, _, _, _, _, -, -, -, -, -, -, heq⟩ :=
        searchSome_res (cfg := x.hnsw.cfg) L hn hne hL' knbn efArg hf' φ
      exact ⟨_, heq⟩

/-- **C74** (partial: sorted if no distance is NaN) and the answers are sorted, at most `knbn`, all different, each with the id of a point of the
index and its distance to the query; there is at least one if `knbn ≥ 1`, the distances are legal and
there is no filter. -/
theorem C74_answers_partial (L : P.Lawful) (hx : io.loadHnsw P ty defScale dist fs = (io', .ok x))
    (q : List T) (knbn efArg : Nat) (filt : Option (DataId → Bool)) (ns : List Neighbour)
    (hs : searchFilter P x.hnsw.cfg x.hnsw.idx q knbn efArg filt = .ok ns) :
    ((∀ p ∈ x.hnsw.idx.points, (dist.eval q p.data).isNaN = false) → SortedAnswers ns) ∧
    ns.length ≤ knbn ∧ (ns.map (·.pId)).Nodup ∧
    (∀ n ∈ ns, ∃ p ∈ x.hnsw.idx.points, n = ⟨p.origin, dist.eval q p.data, p.pid⟩) ∧
    (1 ≤ knbn → filt = none → (∀ p ∈ x.hnsw.idx.points, (dist.eval q p.data).Legal) → ns ≠ []) := by
  have hn := load_navig L hx
  have hev : x.hnsw.cfg.eval = dist.eval := by
    obtain ⟨g, b, d, g', s1, idx, m, s2, -, -, -, -, -, rfl⟩ := load_ok_parts hx
    rfl
  have hne : x.hnsw.idx.points ≠ [] := by
    obtain ⟨-, -, ⟨e, -, he⟩, -⟩ := C73_wellformed_partial L hx
    exact List.ne_nil_of_mem he
  have hs0 := hs
  obtain ⟨pivot, l, r, -, -, hA, rfl⟩ := searchFilter_res L hn hne hs
  refine ⟨?_, ?_, ?_, ?_, ?_⟩
  · intro hN
    rw [← hev] at hN
    unfold SortedAnswers
    rw [List.pairwise_map]
    exact (L.intoSorted_sorted r (hA.built fun v hv => hN v hv.1)).sublist (List.take_sublist _ _)
  · rw [List.length_map, List.length_take]; omega
  · rw [List.map_map]
    have h1 : ((P.intoSorted r).map (fun x => x.pt.pid)).Nodup :=
      ((L.intoSorted_perm r).map (fun x : PWO T => x.pt.pid)).nodup_iff.2 hA.nd
    exact h1.sublist ((List.take_sublist knbn (P.intoSorted r)).map (fun x => x.pt.pid))
  · intro n hn'
    obtain ⟨y, hy, rfl⟩ := List.mem_map.1 hn'
    have hy' := (L.intoSorted_perm r).mem_iff.1 (List.mem_of_mem_take hy)
    refine ⟨y.pt, (hA.inK y hy').1, ?_⟩
    rw [← hev]
    exact toNeighbour_answer (hA.dist y hy')
  · intro hk hf hL
    subst hf
    have hL' : LegalOn x.hnsw.cfg.eval x.hnsw.idx q := by
      rw [hev]; exact fun p hp => hL p hp
    obtain ⟨ep, ps, pv, l', r', -, -, -, -, hA', hR', heq⟩ :=
      searchNone_res (cfg := x.hnsw.cfg) L hn hne hL' knbn efArg
    rw [hs0] at heq
    injection heq with heq
    rw [heq]
    have hne' : P.items r' ≠ [] := hR'.ne
    intro h0
    rw [List.map_eq_nil_iff, List.take_eq_nil_iff] at h0
    rcases h0 with h0 | h0
    · omega
    · have := (L.intoSorted_perm r').symm
      rw [h0] at this
      exact hne' this.eq_nil

/-- ids found by a search in the reload of a damaged dump -/
def damagedSearch (i : Nat) (v : UInt8) (q : List UInt8) (knbn ef : Nat) : Option (List DataId) :=
  match ((HnswIo.new "a" .default).loadHnsw (listPolicy UInt8) u8Ty exScale u8Dist (damaged i v)).2 with
  | .ok x =>
    match search (listPolicy UInt8) x.hnsw.cfg x.hnsw.idx q knbn ef with
    | .ok ns => some (ns.map (·.dId))
    | .error _ => none
  | .error _ => none

example : damagedSearch 332 0 [26, 0] 3 5 = some [5, 9, 8] := by decide +kernel

/-! ## C75 -/

/-- a record of a data file with this id and these bytes -/
def dataRecord (r : DataId × Bytes) : Bytes :=
  [0x00, 0x00, 0x7f, 0xa6] ++ le 8 r.1.toNat ++ le 8 r.2.length ++ r.2

theorem recordBytes_eq (id : DataId) (v : Bytes) : recordBytes id v = dataRecord (id, v) := by
  unfold recordBytes dataRecord
  rw [leBytes_le 8, leBytes_le 8]
  rfl

theorem recordsOf_eq (rs : List (DataId × Bytes)) : recordsOf rs = rs.flatMap dataRecord := by
  unfold recordsOf
  exact congrArg (fun f => List.flatMap f rs) (funext fun v => recordBytes_eq v.1 v.2)

/-- `v` is made of the `n` values found one after the other at the beginning of `b` -/
def Decodes (ty : Ty T) (n : Nat) (b : Bytes) (v : List T) : Prop :=
  n * ty.size ≤ b.length ∧ v.length = n ∧
    ∀ i, i < n → v[i]? = some (ty.dec ((b.drop (i * ty.size)).take ty.size))

theorem decVec_decodes (ty : Ty T) {n : Nat} {b : Bytes} (r : Bytes) (h : n * ty.size ≤ b.length) :
    Decodes ty n b (ty.decVec n (b ++ r)) := by
  refine ⟨h, ?_, ?_⟩
  · clear h
    generalize b ++ r = b
    induction n generalizing b with
    | zero => rfl
    | succ n ih => simp [Ty.decVec, ih]
  · induction n generalizing b with
    | zero => intro i hi; omega
    | succ n ih =>
      intro i hi
      rw [Nat.succ_mul] at h
      cases i with
      | zero =>
        simp only [Ty.decVec, List.getElem?_cons_zero, Nat.zero_mul, List.drop_zero]
        rw [List.take_append_of_le_length (by omega)]
      | succ i =>
        have := ih (b := b.drop ty.size) (by rw [List.length_drop]; omega) i (by omega)
        simp only [Ty.decVec, List.getElem?_cons_succ]
        rw [List.drop_append_of_le_length (by omega), this, List.drop_drop, Nat.succ_mul,
          Nat.add_comm ty.size]

/-- **C75** Whatever the files, `load_hnsw` returns an index only if the data file is a header with the
dimension of the graph file followed by one record for each point of the index, in the order of the
points and with their ids; maybe more bytes follow.  The vector of a point that is not mapped is decoded
from its own record, which is long enough (formats 3 and 4, type not `NoData`). -/
theorem C75_data_file (L : P.Lawful) (hn : ty.noData = false)
    (hx : io.loadHnsw P ty defScale dist fs = (io', .ok x)) :
    ∃ (g b : Bytes) (d : Descr) (g' : Bytes) (rs : List (DataId × Bytes)) (tail : Bytes),
      fs (graphName io.base) = some g ∧ fs (dataName io.base) = some b ∧ loadDescr g = .ok (d, g') ∧
      b = [0x00, 0x00, 0x7f, 0xa6] ++ le 8 d.dim.toNat ++ rs.flatMap dataRecord ++ tail ∧
      rs.map (·.1) = x.hnsw.idx.points.map (·.origin) ∧
      x.mapped.length = x.hnsw.idx.points.length ∧
      ∀ (i : Nat) p r, x.hnsw.idx.points[i]? = some p → x.mapped[i]? = some false → rs[i]? = some r →
        d.version ≠ 2 → Decodes ty d.dim.toNat r.2 p.data := by
  obtain ⟨g, b, d, g', s1, idx, m, s2, hg, hb, hd, hh, hl, rfl⟩ := load_ok_parts hx
  obtain ⟨-, -, -, -, -, -, -, ps, vs, hps, rfl, hD, hs⟩ := loadIndexation_ok L hl
  have hh' := (loadDataHeader_ok hh).1
  refine ⟨g, b, d, g', vs, s2.2, hg, hb, hd, ?_, ?_, ?_, ?_⟩
  · rw [show b = leBytes 4 magicDataP ++ leBytes 8 d.dim.toNat ++ s1.2 from hh', hs, leBytes_le 8,
      recordsOf_eq, ← List.append_assoc]
    rfl
  · show _ = idx.points.map _
    rw [← hps, List.map_map]
    exact hD.1
  · show _ = idx.points.length
    rw [← hps]; simp
  · intro i p r hp hm hr hv
    have hp' : idx.points[i]? = some p := hp
    rw [← hps, List.getElem?_map] at hp'
    simp only [List.getElem?_map] at hm
    cases hi : ps[i]? with
    | none => simp [hi] at hp'
    | some q =>
      rw [hi] at hp' hm
      simp only [Option.map_some, Option.some.injEq] at hp' hm
      have hV := hD.2 i q r hi hr
      unfold VecOf at hV
      rw [hm, hp'] at hV
      simp only [Bool.false_eq_true, if_false] at hV
      unfold recordVec at hV
      simp only [hn, Bool.false_eq_true, if_false, hv] at hV
      split at hV
      · split at hV
        · rename_i h
          injection hV with hV
          have := decVec_decodes ty [] h
          rw [List.append_nil, hV] at this
          exact this
        · cases hV
      · cases hV

/-- the dump of `io4`, with another data file -/
def withData (f : Bytes → Bytes) : Dir := fun n =>
  match fileDump u8Ty io4 (fun _ => none) "a" [] with
  | some (fs, _) => if n = "a.hnsw.data" then (fs n).map f else fs n
  | none => none

/-- the vectors of the reload of the dump of `io4` with another data file -/
def withDataVectors (f : Bytes → Bytes) : Option (List (List UInt8)) :=
  match ((HnswIo.new "a" .default).loadHnsw (listPolicy UInt8) u8Ty exScale u8Dist (withData f)).2 with
  | .ok x => some (x.hnsw.idx.points.map (·.data))
  | .error _ => none

/-- Bytes after the last record or another vector in a record do not prevent the reload; another id, magic
number or dimension do. -/
example :
    withDataVectors (· ++ [1, 2, 3]) = some [[10, 1], [30, 3], [20, 2], [25, 4]] ∧
    withDataVectors (·.set 33 77) = some [[10, 77], [30, 3], [20, 2], [25, 4]] ∧
    withDataVectors (·.set 16 77) = none ∧ withDataVectors (·.set 12 77) = none ∧
    withDataVectors (·.set 4 3) = none := by
  decide +kernel

/-! ## C76 -/

/-- the map made from any files, with exact arithmetic -/
theorem map_any_bytes (fs : Dir) (base : String) (m : DataMap)
    (h : DataMap.fromDump ty fs base = .ok m) :
    ∃ (g b : Bytes) (d : Descr) (g' : Bytes) (rs : List (DataId × Bytes)) (tail : Bytes),
      fs (graphName base) = some g ∧ fs (dataName base) = some b ∧ loadDescr g = .ok (d, g') ∧
      3 ≤ d.version ∧ d.tName = ty.name ∧ m.tName = ty.name ∧ m.distName = d.distName ∧
      m.dim = d.dim.toNat ∧
      b = [0x00, 0x00, 0x7f, 0xa6] ++ le 8 m.dim ++ rs.flatMap dataRecord ++ tail ∧
      tail.length < 20 + m.dim * ty.size ∧
      m.ids.Nodup ∧ m.ids.Sublist (rs.map (·.1)) ∧ (∀ id, id ∈ m.ids ↔ id ∈ rs.map (·.1)) ∧
      m.nbData = m.ids.length ∧
      ∀ id, (id ∉ rs.map (·.1) → m.getData ty id = .ok none) ∧
        (id ∈ rs.map (·.1) → ∃ r1 w r2 v, rs = r1 ++ (id, w) :: r2 ∧ id ∉ r2.map (·.1) ∧
          m.getData ty id = .ok (some v) ∧ Decodes ty m.dim w v) := by
  obtain ⟨g, d, g', b, rs, hg, hd, hb, hv, hn, hmb, hmt, hmd, hmn, -, hb12, hrl, -, hrd, hrb, hrs, hnd,
    hsub, hout, hin⟩ := fromDump_ok h
  have hids : ∀ id, id ∈ m.ids ↔ id ∈ rs.map (·.1) := by
    intro id
    constructor
    · exact fun h => hsub.subset h
    · intro h
      obtain ⟨r1, v, r2, -, -, hg⟩ := hin id h
      apply Classical.byContradiction
      intro hc
      rw [imGet_isSome.2 hc] at hg
      cases hg
  have hlen := recordsOf_length hrs
  refine ⟨g, b, d, g', rs, b.drop (12 + (recordsOf rs).length), hg, hb, hd, hv, hn, hmt.trans hn, hmn,
    hmd, ?_, ?_, hnd, hsub, hids, ?_, ?_⟩
  · refine hb12.trans ?_
    rw [hrd, recordsOf_eq, leBytes_le 8, ← hmd, List.append_assoc _ (rs.flatMap dataRecord)]
    rfl
  · rw [List.length_drop, hmd]
    have h1 : b.length - 12 < ((b.length - 12) / (20 + d.dim.toNat * ty.size) + 1) *
        (20 + d.dim.toNat * ty.size) := by
      rw [Nat.mul_comm]; exact Nat.lt_mul_div_succ _ (by omega)
    rw [← hrl, Nat.succ_mul] at h1
    omega
  · show m.hmap.length = (m.hmap.map _).length
    simp
  · intro id
    constructor
    · intro hid
      unfold DataMap.getData
      rw [hout id hid]
    · intro hid
      obtain ⟨r1, w, r2, hrs', hr2, hget⟩ := hin id hid
      have hw : d.dim.toNat * ty.size ≤ w.length := hrs (id, w) (by rw [hrs']; simp)
      refine ⟨r1, w, r2, ty.decVec m.dim (w ++ (recordsOf r2 ++ b.drop (12 + (recordsOf rs).length))),
        hrs', hr2, ?_, ?_⟩
      · unfold DataMap.getData
        rw [hget, hmb]
        have hb' : b = (leBytes 4 magicDataP ++ leBytes 8 d.dim.toNat ++ recordsOf r1 ++
            (leBytes 4 magicDataP ++ leBytes 8 id.toNat)) ++
            (leBytes 8 w.length ++ (w ++ (recordsOf r2 ++ b.drop (12 + (recordsOf rs).length)))) := by
          refine hb12.trans ?_
          rw [hrd]
          have : recordsOf rs = recordsOf r1 ++ (recordBytes id w ++ recordsOf r2) := by
            rw [hrs', recordsOf_append]; simp [recordsOf]
          rw [this]
          unfold recordBytes
          simp only [List.append_assoc]
        generalize b.drop (12 + (recordsOf rs).length) = tail at hb' ⊢
        have hpre : (leBytes 4 magicDataP ++ leBytes 8 d.dim.toNat ++ recordsOf r1 ++
            (leBytes 4 magicDataP ++ leBytes 8 id.toNat)).length = 12 + (recordsOf r1).length + 12 := by
          simp; omega
        have s1 := sliceAt_mid _ (leBytes 8 w.length) (w ++ (recordsOf r2 ++ tail)) hpre.symm
          (n := 8) (by simp)
        rw [← hb'] at s1
        simp only [s1, bind, Except.bind]
        have hd2 : b.drop (12 + (recordsOf r1).length + 12 + 8) = w ++ (recordsOf r2 ++ tail) := by
          rw [← List.drop_drop, hb', ← hpre, List.drop_left, List.drop_left' (by simp)]
        rw [if_neg, hd2]
        have hbl := congrArg List.length hb'
        rw [List.length_append, hpre] at hbl
        simp only [List.length_append, leBytes_length] at hbl
        rw [hmd]
        omega
      · rw [hmd]
        exact decVec_decodes ty _ hw

/-- **C76** Whatever the files, `DataMap::from_hnswdump` succeeds only if the graph file is of format 3 or
4 and names the type asked for, and the data file is a header with the dimension of the graph file
followed by records of at least that dimension and by less bytes than a record takes.  The ids of the map
are those of the records, each once, in their order.  `get_data` then never panics nor reads beyond the
file: it returns nothing for an id without record, else the vector of the last record with that id.
The hypothesis excludes a dimension for which the computation of the size of a record (153-155 of
datamap.rs) overflows, which is not in this model (see C140). -/
theorem C76_map_any (fs : Dir) (base : String) (m : DataMap)
    (h : DataMap.fromDump ty fs base = .ok m) (_hov : 20 + m.dim * ty.size < 2 ^ 64) :
    ∃ (g b : Bytes) (d : Descr) (g' : Bytes) (rs : List (DataId × Bytes)) (tail : Bytes),
      fs (graphName base) = some g ∧ fs (dataName base) = some b ∧ loadDescr g = .ok (d, g') ∧
      3 ≤ d.version ∧ d.tName = ty.name ∧ m.tName = ty.name ∧ m.distName = d.distName ∧
      m.dim = d.dim.toNat ∧
      b = [0x00, 0x00, 0x7f, 0xa6] ++ le 8 m.dim ++ rs.flatMap dataRecord ++ tail ∧
      tail.length < 20 + m.dim * ty.size ∧
      m.ids.Nodup ∧ m.ids.Sublist (rs.map (·.1)) ∧ (∀ id, id ∈ m.ids ↔ id ∈ rs.map (·.1)) ∧
      m.nbData = m.ids.length ∧
      ∀ id, (id ∉ rs.map (·.1) → m.getData ty id = .ok none) ∧
        (id ∈ rs.map (·.1) → ∃ r1 w r2 v, rs = r1 ++ (id, w) :: r2 ∧ id ∉ r2.map (·.1) ∧
          m.getData ty id = .ok (some v) ∧ Decodes ty m.dim w v) :=
  map_any_bytes fs base m h

/-- what a map of a changed data file gives for some ids -/
def withDataMap (f : Bytes → Bytes) (ids : List DataId) : Option (List (Option (List UInt8))) :=
  match DataMap.fromDump u8Ty (withData f) "a" with
  | .ok m => some (ids.map fun i => match m.getData u8Ty i with | .ok v => v | .error _ => none)
  | .error _ => none

/-- The hypotheses are met by the dump of `io4`, by its data file with more bytes, and with the id of the
second record replaced by that of the first: the map gives the second vector for that id. -/
example :
    withDataMap id [7, 9, 8, 5, 6] = some [some [10, 1], some [30, 3], some [20, 2], some [25, 4], none] ∧
    withDataMap (· ++ [1, 2, 3]) [7, 6] = some [some [10, 1], none] ∧
    withDataMap (·.set 38 7) [7, 9, 8] = some [some [30, 3], none, some [20, 2]] := by
  decide +kernel

end Verif
