import Verif.Ffi
import Verif.Props.Search
import Verif.Props.Filter
import Verif.Props.Header
import Verif.Props.Files
import Verif.Props.Reload

set_option autoImplicit false

/-!
# The C interface (C58, C59, C64 - C66)

Memory given by the caller is a list; its hypotheses say that it holds what the arguments announce.
-/

namespace Verif
variable {T : Type} {P : Policy T} {cfg : Cfg T} {s : Idx T}

/-! ## C58 -/

/-- the fields of the description returned, none for a null pointer -/
def descFields (fs : Dir) (name : String) :
    Option (List Nat) :=
  match cLoadDescription fs name with
  | .ok none => some []
  | .ok (some x) => some [x.dumpmode.toNat, x.maxNb.toNat, x.nbLayer.toNat, x.ef.toNat, x.nbPoint.toNat,
      x.dim.toNat, x.distLen]
  | .error _ => none

/-- **C58 is false**: the number of points is never reported (a dump of 4 points), and the mode is
always reported as 1. -/
theorem C58_refuted :
    ((fileDump u8Ty io4 (fun _ => none) "a" []).map fun r => descFields r.1 "a.hnsw.graph") =
      some (some [1, 3, 16, 10, 0, 2, 33]) ∧ io4.idx.points.length = 4 ∧
    ((loadDescr (dumpDescr (io4.descr u8Ty false) false).g).toOption.map fun r => r.1.mode) = some 0 ∧
    (descFields (fun _ => some (dumpDescr (io4.descr u8Ty false) false).g) "b").map
      (·.take 1) = some [1] := by
  refine ⟨?_, ?_, ?_, ?_⟩ <;> decide +kernel

/-- **C58** (partial: all but the number of points and the mode) A null pointer is returned if the file
does not exist or has no readable header; otherwise the description has the connections, layers, `ef`,
dimension and names of the header. -/
theorem C58_description_partial (fs : Dir) (fname : String) :
    (fs fname = none → cLoadDescription fs fname = .ok none) ∧
    (∀ b, fs fname = some b → loadDescr b = .error .err → cLoadDescription fs fname = .ok none) ∧
    ∀ b d rest, fs fname = some b → loadDescr b = .ok (d, rest) →
      ∃ x, cLoadDescription fs fname = .ok (some x) ∧
        x.maxNb = d.maxNb ∧ x.nbLayer = d.nbLayer ∧ x.ef = d.ef ∧ x.dim = d.dim ∧
        (∃ n, x.dist = some n ∧ n = strBytes d.distName ∧ x.distLen = n.length) ∧
        (∃ n, x.tName = some n ∧ n = strBytes d.tName ∧ x.tLen = n.length) ∧
        (d.nbPoint = 0 → x.nbPoint = d.nbPoint) ∧ (d.mode = 1 → x.dumpmode = d.mode) := by
  refine ⟨?_, ?_, ?_⟩
  · intro h
    unfold cLoadDescription
    rw [h]
  · intro b h1 h2
    unfold cLoadDescription
    rw [h1]
    simp only [h2]
  · intro b d rest h1 h2
    unfold cLoadDescription
    rw [h1]
    simp only [h2]
    exact ⟨_, rfl, rfl, rfl, rfl, rfl, ⟨_, rfl, rfl, rfl⟩, ⟨_, rfl, rfl, rfl⟩,
      fun h => h.symm, fun h => h.symm⟩

/-- no such file; not a dump; a dump -/
example : descFields (fun _ => none) "a" = some [] ∧ descFields (fun _ => some [1, 2, 3, 4, 5]) "a" = some [] ∧
    (descFields (fun _ => some (dumpDescr (io4.descr u8Ty true) true).g) "a") =
      some [1, 3, 16, 10, 0, 2, 33] := by
  refine ⟨?_, ?_, ?_⟩ <;> decide +kernel

/-! ## C59 -/

theorem asI64_small {n : Nat} (h : n < 2 ^ 63) : asI64 n = (n : Int) := by
  unfold asI64
  rw [if_pos h]

/-- a structure returned to C holds exactly the answers -/
def Holds (a : CArr NeighbourApi) (ns : List Neighbour) : Prop :=
  a.len = ns.length ∧ a.mem.length = ns.length ∧
    a.read = .ok (ns.map fun n => ⟨n.dId, n.distance⟩)

theorem holds_toNeighbourhood {ns : List Neighbour} (h : ns.length < 2 ^ 63) :
    Holds (toNeighbourhood ns) ns := by
  refine ⟨asI64_small h, by simp [toNeighbourhood], ?_⟩
  unfold CArr.read toNeighbourhood cSlice
  simp only [asI64_small h]
  rw [if_pos (by omega), if_pos (by simp)]
  rw [Int.toNat_natCast, List.take_of_length_le (by simp)]
  rfl

theorem cSlice_ok {α : Type} {mem : List α} {len : Nat} (h : len ≤ mem.length) :
    cSlice mem len = .ok (mem.take len) := if_pos h

/-- answers are fewer than the points -/
theorem search_length_le (L : P.Lawful) (hr : Reach P cfg s) {q : List T} {knbn ef : Nat}
    {ns : List Neighbour} (h : search P cfg s q knbn ef = .ok ns) : ns.length ≤ s.points.length := by
  have h1 := C03_distinct L hr q knbn ef none ns h
  have h2 := C02_true_answers L hr q knbn ef none ns h
  have h3 : (ns.map (·.pId)) ⊆ s.points.map (·.pid) := by
    intro x hx
    obtain ⟨n, hn, rfl⟩ := List.mem_map.1 hx
    obtain ⟨p, hp, rfl⟩ := h2 n hn
    exact List.mem_map_of_mem (f := fun p : Ref T => p.pid) hp
  have := length_le_of_nodup_subset h1 h3
  simpa using this

/-- **C59** `search_neighbours_*` reads the vector of the caller, and returns the ids and distances of
`search` in order, with their exact number; it panics exactly when `search` does. -/
theorem C59_search (L : P.Lawful) (hr : Reach P cfg s) (hsz : s.points.length < 2 ^ 63)
    (data : List T) (len : Nat) (hlen : len ≤ data.length) (knbn ef : Nat) :
    (∀ ns, search P cfg s (data.take len) knbn ef = .ok ns →
      ∃ a, cSearch P cfg s len data knbn ef = .ok a ∧ Holds a ns) ∧
    (∀ e, search P cfg s (data.take len) knbn ef = .error e →
      cSearch P cfg s len data knbn ef = .error .panic) := by
  unfold cSearch
  rw [cSlice_ok hlen]
  constructor
  · intro ns h
    refine ⟨toNeighbourhood ns, by simp only [h, cCall],
      holds_toNeighbourhood (Nat.lt_of_le_of_lt (search_length_le L hr h) hsz)⟩
  · intro e h
    simp only [h, cCall]

theorem cVectors_ok {ptrs : List (List T)} {vl : Nat} : ∀ (n i : Nat), i + n ≤ ptrs.length →
    (∀ p ∈ ptrs, vl ≤ p.length) →
    cVectors ptrs vl n i = .ok (((ptrs.drop i).take n).map (·.take vl)) := by
  intro n
  induction n with
  | zero => intro i _ _; simp [cVectors]
  | succ n ih =>
    intro i hi hp
    have hlt : i < ptrs.length := by omega
    rw [cVectors, List.getElem?_eq_getElem hlt]
    simp only
    rw [cSlice_ok (hp _ (List.getElem_mem hlt))]
    simp only
    rw [ih (i + 1) (by omega) hp, List.drop_eq_getElem_cons hlt]
    rfl

/-- **C59** `parallel_search_neighbours_*` of `nb` vectors of length `vl`: one structure per request,
in their order, each holding exactly the answers of `search` for this request; and it panics only if
one of the searches does. -/
theorem C59_parallel (L : P.Lawful) (hr : Reach P cfg s) (hsz : s.points.length < 2 ^ 63)
    (datas : List (List T)) (nb vl : Nat) (hnb : nb ≤ datas.length) (hnb2 : nb < 2 ^ 63)
    (hvl2 : vl < 2 ^ 63) (hvl : ∀ p ∈ datas.take nb, vl ≤ p.length) (knbn ef : Nat) (order : List Nat)
    (ho : order.Perm (List.range nb)) :
    (∀ a, cParallelSearch P cfg s nb vl datas knbn ef order = .ok a →
      a.len = nb ∧ ∃ l, a.read = .ok l ∧ l.length = nb ∧ a.mem.length = nb ∧
        ∀ (i : Nat) (v : List T), i < nb → datas[i]? = some v →
          ∃ x ns, l[i]? = some x ∧ search P cfg s (v.take vl) knbn ef = .ok ns ∧ Holds x ns) ∧
    ((∀ v ∈ datas.take nb, ∃ ns, search P cfg s (v.take vl) knbn ef = .ok ns) →
      ∃ a, cParallelSearch P cfg s nb vl datas knbn ef order = .ok a) := by
  have hu : asUsize (vl : Int) = vl := by unfold asUsize; omega
  have htl : (datas.take nb).length = nb := by rw [List.length_take]; omega
  have hv : cVectors (datas.take nb) vl nb 0 = .ok ((datas.take nb).map (·.take vl)) := by
    rw [cVectors_ok nb 0 (by omega) hvl]
    simp [List.take_take]
  have heq : cParallelSearch P cfg s nb vl datas knbn ef order =
      match cCall (parallelSearch P cfg s ((datas.take nb).map (·.take vl)) knbn ef order) with
      | .error e => .error e
      | .ok answers => .ok ⟨asI64 nb, answers.map toNeighbourhood⟩ := by
    unfold cParallelSearch
    rw [cSlice_ok hnb]
    simp only [hu, hv]
    rfl
  have hlen : ((datas.take nb).map (·.take vl)).length = nb := by rw [List.length_map, htl]
  constructor
  · intro a ha
    rw [heq] at ha
    cases hp : parallelSearch P cfg s ((datas.take nb).map (·.take vl)) knbn ef order with
    | error e => rw [hp] at ha; cases ha
    | ok answers =>
      rw [hp] at ha
      injection ha with ha
      subst ha
      obtain ⟨h1, h2⟩ := (C12_parallel_search s _ knbn ef order (by rw [hlen]; exact ho) answers).1 hp
      rw [hlen] at h1
      refine ⟨asI64_small hnb2, answers.map toNeighbourhood, ?_, by simpa using h1, by simpa using h1, ?_⟩
      · unfold CArr.read
        simp only [asI64_small hnb2]
        rw [if_pos (by omega), Int.toNat_natCast, cSlice_ok (by simp [h1]),
          List.take_of_length_le (by simp [h1])]
      · intro i v hi hvi
        obtain ⟨ns, h3, h4⟩ := h2 i (v.take vl) (by
          rw [List.getElem?_map, List.getElem?_take, if_pos hi, hvi]
          rfl)
        refine ⟨toNeighbourhood ns, ns, ?_, h4, holds_toNeighbourhood
          (Nat.lt_of_le_of_lt (search_length_le L hr h4) hsz)⟩
        rw [List.getElem?_map, h3]
        rfl
  · intro hall
    have hex : ∃ answers : List (List Neighbour), answers.length = nb ∧
        ∀ (i : Nat) (q : List T), ((datas.take nb).map (·.take vl))[i]? = some q →
          ∃ a, answers[i]? = some a ∧ search P cfg s q knbn ef = .ok a := by
      refine ⟨((datas.take nb).map (·.take vl)).map fun q =>
        match search P cfg s q knbn ef with
        | .ok a => a
        | .error _ => [], by rw [List.length_map, hlen], ?_⟩
      intro i q hq
      have hm := List.mem_of_getElem? hq
      obtain ⟨v, hv1, hv2⟩ := List.mem_map.1 hm
      obtain ⟨ns, hns⟩ := hall v hv1
      rw [hv2] at hns
      refine ⟨ns, ?_, hns⟩
      rw [List.getElem?_map, hq]
      simp [hns]
    obtain ⟨answers, h1, h2⟩ := hex
    have := (C12_parallel_search s _ knbn ef order (by rw [hlen]; exact ho) answers).2
      ⟨by rw [h1, hlen], h2⟩
    rw [heq, this]
    exact ⟨_, rfl⟩

/-- what a C program reads -/
def cRead (x : Except Fail (CArr NeighbourApi)) : Option (Int × List (DataId × Nat)) :=
  match x with
  | .ok a => match a.read with
    | .ok l => some (a.len, l.map fun n => (n.id, n.d.mag.val))
    | .error _ => none
  | .error _ => none

/-- a search of `[22]`, given with one more value in memory -/
example : cRead (cSearch (listPolicy Nat) (exCfg 3) ex4 1 [22, 5] 3 10) =
    some (3, [(20, 2), (25, 3), (30, 8)]) := by decide +kernel

/-- what a C program reads from the answers of several searches -/
def cReadAll (x : Except Fail (CArr (CArr NeighbourApi))) :
    Option (Int × List (Int × List DataId)) :=
  match x with
  | .ok a => match a.read with
    | .ok l => some (a.len, l.map fun x => (x.len, ((x.read.toOption).getD []).map (·.id)))
    | .error _ => none
  | .error _ => none

/-- two searches, the second one answering first -/
example : cReadAll (cParallelSearch (listPolicy Nat) (exCfg 3) ex4 2 1 [[22, 5], [31], [7]] 2 10 [1, 0]) =
    some (2, [(2, [20, 25]), (2, [30, 25])]) := by decide +kernel

/-! ## C64 -/

theorem cRequest_ok {vs : List (List T)} {ids : List DataId} : ∀ (n i : Nat), i + n ≤ vs.length →
    i + n ≤ ids.length →
    cRequest vs ids n i = .ok (((vs.drop i).take n).zip ((ids.drop i).take n)) := by
  intro n
  induction n with
  | zero => intro i _ _; simp [cRequest]
  | succ n ih =>
    intro i h1 h2
    have l1 : i < vs.length := by omega
    have l2 : i < ids.length := by omega
    rw [cRequest, List.getElem?_eq_getElem l1, List.getElem?_eq_getElem l2]
    simp only
    rw [ih (i + 1) (by omega) (by omega), List.drop_eq_getElem_cons l1, List.drop_eq_getElem_cons l2]
    rfl

/-- **C59**, lengths that are not valid: `vec_len` is an `i64` converted to `usize`; if it is negative, a call
with at least one request makes slices of at least `2^63` elements, out of any vector of the caller. -/
theorem C59_negative_length (datas : List (List T)) (nb : Nat) (vl : Int) (h0 : 0 < nb) (hnb : nb ≤ datas.length)
    (hneg : -2 ^ 63 ≤ vl ∧ vl < 0) (hmem : ∀ p ∈ datas, p.length < 2 ^ 63) (knbn ef : Nat) (order : List Nat) :
    cParallelSearch P cfg s nb vl datas knbn ef order = .error .ub := by
  have hu : 2 ^ 63 ≤ asUsize vl := by unfold asUsize; omega
  obtain ⟨n, rfl⟩ : ∃ n, nb = n + 1 := ⟨nb - 1, by omega⟩
  obtain ⟨v, vs, rfl⟩ : ∃ v vs, datas = v :: vs := by
    cases datas with
    | nil => simp at hnb
    | cons v vs => exact ⟨v, vs, rfl⟩
  have hv := hmem v (by simp)
  have h1 : cSlice (v :: vs) (n + 1) = .ok (v :: vs.take n) := by
    unfold cSlice
    rw [if_pos hnb]
    simp
  unfold cParallelSearch
  rw [h1]
  simp only
  unfold cVectors
  simp only [List.getElem?_cons_zero]
  have h2 : cSlice v (asUsize vl) = .error .ub := by
    unfold cSlice
    rw [if_neg (by omega)]
  rw [h2]

/-- **C64** `insert_*` inserts the vector of the caller with its id; `parallel_insert_*` gives to
`parallel_insert` exactly the `nb` pairs of the caller, in order. -/
theorem C64_insert_args (datas : List (List T)) (ids : List DataId) (nb vl : Nat)
    (h1 : nb ≤ datas.length) (h2 : nb ≤ ids.length) (hvl : ∀ p ∈ datas.take nb, vl ≤ p.length) :
    (∀ (data : List T) (len : Nat) (id : DataId), len ≤ data.length →
      cInsertArg len data id = .ok (data.take len, id)) ∧
    ∃ r, cParallelInsertArg nb vl datas ids = .ok r ∧ r.length = nb ∧
      ∀ (i : Nat) (v : List T) (id : DataId), i < nb → datas[i]? = some v → ids[i]? = some id →
        r[i]? = some (v.take vl, id) := by
  constructor
  · intro data len id hlen
    unfold cInsertArg
    rw [cSlice_ok hlen]
  · have hv : cVectors (datas.take nb) vl nb 0 = .ok ((datas.take nb).map (·.take vl)) := by
      rw [cVectors_ok nb 0 (by rw [List.length_take]; omega) hvl]
      simp [List.take_take]
    refine ⟨((datas.take nb).map (·.take vl)).zip (ids.take nb), ?_, ?_, ?_⟩
    · unfold cParallelInsertArg
      rw [cSlice_ok h1, cSlice_ok h2]
      simp only
      rw [hv]
      simp only
      rw [cRequest_ok nb 0 (by simp; omega) (by simp; omega)]
      simp [← List.map_take, List.take_take]
    · simp
      omega
    · intro i v id hi hv hid
      rw [List.getElem?_zip_eq_some]
      constructor
      · rw [List.getElem?_map, List.getElem?_take, if_pos hi, hv]
        rfl
      · rw [List.getElem?_take, if_pos hi, hid]

/-- two vectors out of three -/
example : (cParallelInsertArg 2 1 [[22, 5], [31], [7]] [4, 5, 6, 7]).toOption =
    some [([22], 4), ([31], 5)] := by decide

/-! ## C65 -/

/-- the points, by id, of an index loaded from C -/
def cLoadedIds {T : Type} (x : HnswIo × Except Fail (Option (Hnsw T))) : Option (List DataId) :=
  match x.2 with
  | .ok (some h) => some (h.idx.points.map (·.origin))
  | _ => none

/-- `io4` is dumped as "a", loaded, a point is inserted, and the index is dumped as "a" by
`file_dump_u8`: the result, and the ids found when loading "a". -/
def cScenario : Option (Option Int × Option (List DataId) × Option (List DataId)) :=
  match cFileDump u8Ty io4 (fun _ => none) "a" [] with
  | some (fs, _) =>
    match (cLoad (listPolicy UInt8) u8Ty exScale u8Dist (cGetHnswio "a") fs).2 with
    | .ok (some h) =>
      match insert (listPolicy UInt8) h.cfg ⟨h.idx, [], h.idx.points.map (·.pid)⟩ ([9, 9], 99) 0 with
      | .ok _ c =>
        (cFileDump u8Ty { h with idx := c.idx } fs "a" [7]).map fun r =>
          (r.2.toOption, cLoadedIds (cLoad (listPolicy UInt8) u8Ty exScale u8Dist (cGetHnswio "a") r.1),
            cLoadedIds (cLoad (listPolicy UInt8) u8Ty exScale u8Dist (cGetHnswio "a-7") r.1))
      | _ => none
    | _ => none
  | none => none

/-- **C65 is false**: `file_dump_u8` of a reloaded index answers 1 but has used another name, which it
does not tell; loading the name given finds the old index. -/
theorem C65_refuted : cScenario = some (some 1, some [7, 9, 8, 5], some [7, 9, 99, 8, 5]) := by
  decide +kernel

/-- **C65** (partial: the index was not itself reloaded; vectors of one length; sizes fit) If
`file_dump_*` returns 1 then loading this name gives an index with the same points, entry point and
links. -/
theorem C65_dump_load_partial {ty : Ty T} {defScale : Nat → F64} {ml : Nat} {h : Hnsw T} {c : CSt T}
    {fs fs' : Dir} {name : String} {draws : List Nat} (L : P.Lawful) (hT : ty.Lawful)
    (hn : ty.noData = false) (hr : HReach P ty defScale ml h c) (hs : Sizes ty h) (hu : SameDim h.idx)
    (hm : h.mapped = false) (hd : cFileDump ty h fs name draws = some (fs', .ok 1))
    (dist : Dist T) (hdn : dist.name = h.distName) :
    ∃ io h', cLoad P ty defScale dist (cGetHnswio name) fs' = (io, .ok (some h')) ∧
      h'.idx.layers = h.idx.layers ∧ h'.idx.entry = h.idx.entry ∧
      (∀ p l, (h'.idx.nb p l).Perm (h.idx.nb p l)) := by
  obtain ⟨⟨fs1, r⟩, h1, h2⟩ := Option.map_eq_some_iff.1 hd
  simp only [Prod.mk.injEq] at h2
  obtain ⟨rfl, h2⟩ := h2
  have hname : r = .ok name := by
    unfold fileDump dumpName at h1
    rw [hm] at h1
    simp only [Bool.not_false, if_true, Option.map_some, Option.some.injEq, Prod.mk.injEq] at h1
    obtain ⟨-, h1⟩ := h1
    rw [← h1] at h2 ⊢
    split
    · rfl
    · rename_i e he
      rw [he] at h2
      cases e <;> cases h2
  subst hname
  obtain ⟨io', x, h3, h4, h5, -, h7, -⟩ := C40_reload_same_partial L hT hn hr hs hu h1 .default
    (by intro h; cases h) dist hdn
  refine ⟨io', x.hnsw, ?_, h4, h5, ?_⟩
  · unfold cLoad cGetHnswio
    rw [h3]
  · intro p l
    rw [h7]
    exact L.sort_perm _

/-- `io4` was not reloaded, and its dump from C answers 1 -/
example : io4.mapped = false ∧
    (cFileDump u8Ty io4 (fun _ => none) "a" []).map (fun r => r.2.toOption) = some (some 1) := by
  constructor <;> decide +kernel

/-! ## C66 -/

/-- **C66 is false**: indexes of `f32` with `DistHellinger` and of `u16` with `DistJaccard` can be
created and dumped from C, but there is no function to load them. -/
theorem C66_refuted :
    ("DistHellinger" ∈ cInitNames .f32 ∧ "DistHellinger" ∉ cLoadNames .f32) ∧
    ("DistJaccard" ∈ cInitNames .u16 ∧ "DistJaccard" ∉ cLoadNames .u16) := by decide

/-- **C66** (partial) These are the only two: every other index created by `init_hnsw_*` has a function
to load it. -/
theorem C66_loadable_partial {defScale : Nat → F64} {distOf : String → Dist T} {ct : CTy}
    {maxNb ef : Nat} {name : String} {h : Hnsw T}
    (hi : cInit defScale distOf ct maxNb ef name = .ok (some h))
    (hne : (ct, name) ≠ (.f32, "DistHellinger") ∧ (ct, name) ≠ (.u16, "DistJaccard")) :
    name ∈ cLoadNames ct ∧ h.cfg.maxLayer = 16 ∧ h.cfg.maxNb = maxNb ∧ h.cfg.efC = ef ∧
      h.distName = (distOf name).name ∧ h.cfg.eval = (distOf name).eval := by
  unfold cInit at hi
  split at hi
  · rename_i hmem
    split at hi
    · rename_i h' hh
      injection hi with hi
      injection hi with hi
      subst hi
      unfold Hnsw.new at hh
      split at hh
      · cases hh
      · injection hh with hh
        subst hh
        refine ⟨?_, rfl, rfl, rfl, rfl, rfl⟩
        revert hmem hne
        cases ct <;> simp only [cInitNames, cLoadNames, List.mem_cons, List.not_mem_nil, or_false, ne_eq,
          Prod.mk.injEq, true_and, reduceCtorEq, false_and, not_false_eq_true]
        all_goals first
          | (rintro h (h' | h' | h' | h' | h' | h') <;> simp_all; done)
          | (rintro h (h' | h' | h' | h' | h') <;> simp_all; done)
          | (rintro h (h' | h' | h' | h') <;> simp_all; done)
          | (rintro (h' | h' | h' | h') <;> simp_all; done)
          | (rintro (h' | h' | h') <;> simp_all; done)
    · cases hi
  · cases hi

/-- **C66** (the other direction, partial) Every index that can be loaded from C can be created from C, except
those of `f32` with `DistCosine`: unless `max_nb_connection` is above 256, which makes `Hnsw::new` exit,
`init_hnsw_*` answers an index with the distance named. -/
theorem C66_creatable_partial {defScale : Nat → F64} {distOf : String → Dist T} {ct : CTy} {maxNb ef : Nat}
    {name : String} (hl : name ∈ cLoadNames ct) (hne : (ct, name) ≠ (.f32, "DistCosine"))
    (hm : maxNb ≤ 256) :
    ∃ h, cInit defScale distOf ct maxNb ef name = .ok (some h) ∧ h.distName = (distOf name).name ∧
      h.cfg.eval = (distOf name).eval := by
  have hmem : name ∈ cInitNames ct := by
    revert hl hne
    cases ct <;> simp only [cInitNames, cLoadNames, List.mem_cons, List.not_mem_nil, or_false, ne_eq,
      Prod.mk.injEq, true_and, reduceCtorEq, false_and, not_false_eq_true]
    all_goals first
      | (rintro (h' | h' | h' | h' | h' | h') h <;> simp_all; done)
      | (rintro (h' | h' | h' | h' | h') <;> simp_all; done)
      | (rintro (h' | h' | h' | h') <;> simp_all; done)
      | (rintro (h' | h' | h') <;> simp_all; done)
  unfold cInit
  rw [if_pos hmem]
  unfold Hnsw.new
  rw [if_neg (by omega)]
  exact ⟨_, rfl, rfl, rfl⟩

/-- there is a function to load an index of `f32` with `DistCosine`, and none to create one -/
theorem C66_creatable_refuted : "DistCosine" ∈ cLoadNames .f32 ∧ "DistCosine" ∉ cInitNames .f32 := by decide

/-- an index of bytes is made, with 16 layers -/
example : (match cInit exScale (fun _ => u8Dist) .u8 3 10 "DistHamming" with
    | .ok (some h) => some h.cfg.maxLayer
    | _ => none) = some 16 ∧
    (match cInit exScale (fun _ => u8Dist) .u8 3 10 "DistCosine" with
    | .ok none => true
    | _ => false) = true := by
  constructor <;> decide +kernel

end Verif
