import Verif.GraphLemmas

set_option autoImplicit false

/-!
# Memory asked by a reload (for C138)

`load_hnsw` reserves room for numbers it has just read in the files: the points of a layer, the neighbours of a list, the bytes
of a vector.  Elsewhere the model ignores capacities.  Here `room` is the largest block the allocator gives: a request of more
than `isize::MAX` bytes is the panic "capacity overflow", another one above `room` aborts the process (`Fail.exit`).  Blocks
whose size is not read in a file (headers, names of at most 256 bytes, the 16 lists) are left out, as is the `HashMap` of
neighbours, which grows with what has been read.
-/

namespace Verif
variable {T : Type}

/-- a request of `n` bytes -/
def Rd.reserve {σ : Type} (room n : Nat) : Rd σ Unit := do
  Rd.require (n ≤ 2 ^ 63 - 1) .panic
  Rd.require (n ≤ room) .exit

/-- one list of neighbours (/repo/src/hnswio.rs 1249-1279) with `Vec::with_capacity(nb_neighbours)` (1259); a `Neighbour` has
24 bytes (hnsw.rs 97-106). -/
def loadListMem (room : Nat) (mode : UInt8) : Rd Bytes (List Neighbour) := do
  let n ← readNat .panic 8
  Rd.reserve room (24 * n)
  Rd.rep n (loadNeighbour mode)

/-- `load_point_graph` (/repo/src/hnswio.rs 1221-1289) -/
def loadPointGraphMem (room : Nat) (d : Descr) : Rd Bytes (DataId × PointId × List (List Neighbour)) := do
  let magic ← readNat .panic 4
  Rd.require (magic = magicPoint) .err
  let origin ← readNat .panic 8
  let layer ← readNat .panic 1
  let rank ← readNat .panic 4
  let lists ← Rd.rep d.nbLayer.toNat (loadListMem room d.mode)
  pure (UInt64.ofNat origin, ⟨layer, rank⟩,
    lists ++ List.replicate (nbLayerMax - d.nbLayer.toNat) [])

/-- the bytes of the vector of one record (/repo/src/hnswio.rs 1128-1154, 1183-1209), with `vec![0; serialized_len]`
(1153, 1208). -/
def readRecordMem (room : Nat) (eof : Fail) (origin : DataId) : Rd Bytes Bytes := do
  let magic ← readNat eof 4
  Rd.require (magic = magicDataP) .panic
  let id ← readNat eof 8
  Rd.require (id = origin.toNat) .panic
  let len ← readNat eof 8
  Rd.reserve room len
  readExact eof len

/-- `load_point_data` (/repo/src/hnswio.rs 1119-1178) -/
def loadPointDataMem (room : Nat) (ty : Ty T) (d : Descr) (origin : DataId) : Rd Bytes (List T) := do
  let b ← readRecordMem room .exit origin
  Rd.lift (recordVec ty d b)

/-- `load_point` (/repo/src/hnswio.rs 793-839) -/
def loadPointMem (room : Nat) (ty : Ty T) (d : Descr) (dm : Option DataMap) (mm : Bool) : Rd Two (PointRec T) := do
  let (origin, pid, lists) ← onG (loadPointGraphMem room d)
  if mm then do
    let _ ← onD (readRecordMem room .err origin)
    let v ← Rd.lift (mappedVec ty dm origin)
    pure ⟨⟨pid, origin, v⟩, lists, true⟩
  else do
    let v ← onD (loadPointDataMem room ty d origin)
    pure ⟨⟨pid, origin, v⟩, lists, false⟩

/-- the points of a layer (/repo/src/hnswio.rs 670-716) -/
def loadPointsMem (room : Nat) (ty : Ty T) (d : Descr) (dm : Option DataMap) (o : ReloadOptions) (l : Nat) :
    Nat → Nat → Int → Rd Two (List (PointRec T) × Int)
  | 0, _, still => pure ([], still)
  | n + 1, r, still => do
    let p ← loadPointMem room ty d dm (pointUseMmap o still)
    Rd.require (l = p.pt.pid.layer) .panic
    Rd.require (p.pt.pid.rank < 2 ^ 31 && r = p.pt.pid.rank) .panic
    Rd.require (0 ≤ still - 1) .panic
    let (ps, still') ← loadPointsMem room ty d dm o l n (r + 1) (still - 1)
    pure (p :: ps, still')

/-- the layers (/repo/src/hnswio.rs 655-718) with `Vec::with_capacity(nbpoints)` (669), 8 bytes for each `Arc` -/
def loadLayersMem (room : Nat) (ty : Ty T) (d : Descr) (dm : Option DataMap) (o : ReloadOptions) :
    Nat → Nat → Int → Rd Two (List (List (PointRec T)))
  | 0, _, _ => pure []
  | n + 1, l, still => do
    let magic ← onG (readNat .err 4)
    Rd.require (magic = magicLayer) .err
    let nbpoints ← onG (readNat .err 8)
    Rd.reserve room (8 * nbpoints)
    let (ps, still') ← loadPointsMem room ty d dm o l nbpoints 0 still
    let ls ← loadLayersMem room ty d dm o n (l + 1) still'
    pure (ps :: ls)

/-- `load_point_indexation` (/repo/src/hnswio.rs 615-790) -/
def loadIndexationMem (room : Nat) (P : Policy T) (ty : Ty T) (d : Descr) (dm : Option DataMap) (o : ReloadOptions) :
    Rd Two (Idx T × List Bool) := do
  Rd.require (ty.noData || ty.name == d.tName) .panic
  let nbLayer ← onG (readNat .err 1)
  Rd.require (nbLayer ≤ nbLayerMax) .err
  let recs ← loadLayersMem room ty d dm o nbLayer 0 (asI64 d.nbPoint.toNat)
  let layers := recs.map fun l => l.map (·.pt)
  let tbl ← Rd.lift (mapE (fun l => mapE (fun r => linkPoint P layers r.lists) l) recs)
  let _origin ← onG (readNat .err 8)
  let layer ← onG (readNat .err 1)
  let rank ← onG (readNat .err 4)
  let e ← Rd.lift (resolve layers ⟨layer, rank⟩)
  pure (mkIdx layers tbl e, recs.flatten.map (·.mapped))

/-- a request of `n` bytes outside of a reader -/
def askBytes (room n : Nat) : Except Fail Unit :=
  if 2 ^ 63 - 1 < n then .error .panic else if room < n then .error .exit else .ok ()

/-- the loop on the records of a mapped file (/repo/src/datamap.rs 163-208), with `vec![0; serialized_len]` (202) -/
def mapRecordsMem (room size dim : Nat) (b : Bytes) :
    Nat → Nat → List (DataId × Nat) → Except Fail (List (DataId × Nat))
  | 0, _, m => .ok m
  | n + 1, a, m => do
    let magic ← sliceAt b a 4
    if ofLE magic ≠ magicDataP then .error .panic
    let id ← sliceAt b (a + 4) 8
    let len ← sliceAt b (a + 12) 8
    askBytes room (ofLE len)
    let _v ← sliceAt b (a + 20) (ofLE len)
    if ofLE len < dim * size then .error .ub
    mapRecordsMem room size dim b n (a + 20 + ofLE len) (imInsert m (UInt64.ofNat (ofLE id)) (a + 12))

/-- `DataMap::from_hnswdump` (/repo/src/datamap.rs 44-228); the capacity of the `IndexMap` (160) is bounded by the length of the
file and left out. -/
def DataMap.fromDumpMem (room : Nat) (ty : Ty T) (fs : Dir) (base : String) : Except Fail DataMap :=
  match fs (graphName base) with
  | none => .error .exit
  | some g =>
    match loadDescr g with
    | .error .err => .error .panic
    | .error e => .error e
    | .ok (d, _) =>
      if d.version ≤ 2 then .error .err
      else if ty.name ≠ d.tName then .error .err
      else
        match fs (dataName base) with
        | none => .error .exit
        | some b => do
          let magic ← sliceAt b 0 4
          if ofLE magic ≠ magicDataP then .error .panic
          let dim ← sliceAt b 4 8
          if ofLE dim ≠ d.dim.toNat then .error .err
          let recordSize := 20 + ofLE dim * ty.size
          let m ← mapRecordsMem room ty.size (ofLE dim) b ((b.length - 12) / recordSize) 12 []
          .ok { bytes := b, hmap := m, tName := d.tName, dim := d.dim.toNat, distName := d.distName }

/-- memory mapping in `load_hnsw` (/repo/src/hnswio.rs 496-504) -/
def HnswIo.mapDataMem (room : Nat) (ty : Ty T) (io : HnswIo) (fs : Dir) : Except Fail HnswIo :=
  if io.opts.datamap then
    match DataMap.fromDumpMem room ty fs io.base with
    | .ok m => .ok { io with datamap := some m }
    | .error .err => .ok io
    | .error e => .error e
  else .ok io

/-- the result of `load_hnsw` (/repo/src/hnswio.rs 431-524) when the allocator gives blocks of at most `room` bytes. -/
def HnswIo.loadHnswMem (room : Nat) (P : Policy T) (ty : Ty T) (defScale : Nat → F64) (dist : Dist T) (io : HnswIo)
    (fs : Dir) : Except Fail (Loaded T) :=
  match io.init fs with
  | .error e => .error e
  | .ok (d, s) =>
    match loadDataHeader d s with
    | .error e => .error e
    | .ok (_, s) =>
      match checkDist ty dist.name d with
      | .error e => .error e
      | .ok _ =>
        match io.mapDataMem room ty fs with
        | .error e => .error e
        | .ok io' =>
          match loadIndexationMem room P ty d io'.datamap io'.opts s with
          | .error e => .error e
          | .ok ((idx, m), _) => .ok ⟨mkHnsw defScale dist d idx true, m⟩

/-- `load_hnsw_with_dist` (/repo/src/hnswio.rs 531-613) when the allocator gives blocks of at most `room` bytes. -/
def HnswIo.loadHnswWithDistMem (room : Nat) (P : Policy T) (ty : Ty T) (defScale : Nat → F64) (dist : Dist T)
    (io : HnswIo) (fs : Dir) : Except Fail (Loaded T) :=
  match io.init fs with
  | .error e => .error e
  | .ok (d, s) =>
    match loadDataHeader d s with
    | .error e => .error e
    | .ok (_, s) =>
      if !ty.noData && dist.name != d.distName then .error .err
      else
        match loadIndexationMem room P ty d io.datamap io.opts s with
        | .error e => .error e
        | .ok ((idx, m), _) => .ok ⟨mkHnsw defScale dist d idx false, m⟩

/-! ## Readers that agree when the requests are granted -/

/-- `m'` is `m` with requests: where `m'` succeeds so does `m`, and in the states with `K` the converse holds. `m` consumes at
least `c` of the measure `w`. Where `m'` gives `Err`, or reads out of bounds, so does `m`. -/
structure Fit {σ α : Type} (K : σ → Prop) (w : σ → Nat) (c : Nat) (m m' : Rd σ α) : Prop where
  eats : ∀ {s a s'}, m s = .ok (a, s') → w s' + c ≤ w s ∧ (K s → K s')
  up : ∀ {s a s'}, K s → m s = .ok (a, s') → m' s = .ok (a, s')
  down : ∀ {s x}, m' s = .ok x → m s = .ok x
  same : ∀ {s e}, m' s = .error e → e = .err ∨ e = .ub → m s = .error e

section
variable {σ α β : Type} {K : σ → Prop} {w : σ → Nat} {c e : Nat}

theorem Fit.weaken {m m' : Rd σ α} (h : Fit K w c m m') (he : e ≤ c) : Fit K w e m m' :=
  ⟨fun hm => ⟨by have := (h.eats hm).1; omega, (h.eats hm).2⟩, h.up, h.down, h.same⟩

theorem Fit.bind {m m' : Rd σ α} {f f' : α → Rd σ β} (h : Fit K w c m m') (hf : ∀ a, Fit K w e (f a) (f' a)) :
    Fit K w (c + e) (m >>= f) (m' >>= f') where
  eats := by
    intro s b s' hb
    obtain ⟨a, s1, h1, h2⟩ := Rd.bind_ok hb
    have e1 := h.eats h1
    have e2 := (hf a).eats h2
    exact ⟨by omega, fun hk => e2.2 (e1.2 hk)⟩
  up := by
    intro s b s' hk hb
    obtain ⟨a, s1, h1, h2⟩ := Rd.bind_ok hb
    rw [Rd.bind_eq (h.up hk h1)]
    exact (hf a).up ((h.eats h1).2 hk) h2
  down := by
    intro s x hx
    obtain ⟨b, s'⟩ := x
    obtain ⟨a, s1, h1, h2⟩ := Rd.bind_ok hx
    rw [Rd.bind_eq (h.down h1)]
    exact (hf a).down h2
  same := by
    intro s x hx hk
    rw [Rd.bind_run] at hx ⊢
    cases hm : m' s with
    | error y =>
      rw [hm] at hx
      injection hx with hx
      subst hx
      rw [h.same hm hk]
    | ok r =>
      obtain ⟨a, s1⟩ := r
      rw [hm] at hx
      rw [h.down hm]
      exact (hf a).same hx hk

theorem Fit.pure (a : α) : Fit K w 0 (Pure.pure a) (Pure.pure a) where
  eats := by
    intro s b s' h
    obtain ⟨_, h2⟩ := pure_ok h
    subst h2
    exact ⟨Nat.le_refl _, id⟩
  up := fun _ h => h
  down := id
  same := fun h _ => h

theorem Fit.require (b : Bool) (f : Fail) : Fit K w 0 (Rd.require b f) (Rd.require b f) where
  eats := by
    intro s a s' h
    unfold Rd.require at h
    split at h
    · injection h with h
      rw [Prod.mk.injEq] at h
      rw [← h.2]
      exact ⟨Nat.le_refl _, id⟩
    · cases h
  up := fun _ h => h
  down := id
  same := fun h _ => h

theorem Fit.lift (x : Except Fail α) : Fit K w 0 (Rd.lift x) (Rd.lift x) where
  eats := by
    intro s a s' h
    unfold Rd.lift at h
    split at h
    · injection h with h
      rw [Prod.mk.injEq] at h
      rw [← h.2]
      exact ⟨Nat.le_refl _, id⟩
    · cases h
  up := fun _ h => h
  down := id
  same := fun h _ => h

theorem Fit.rep {m m' : Rd σ α} (h : Fit K w c m m') (n : Nat) : Fit K w (n * c) (Rd.rep n m) (Rd.rep n m') := by
  induction n with
  | zero => exact (Fit.pure []).weaken (by omega)
  | succ n ih => exact (h.bind fun a => ih.bind fun as => Fit.pure (a :: as)).weaken (by rw [Nat.succ_mul]; omega)

theorem reserve_run {room n : Nat} {s : σ} (h1 : n ≤ 2 ^ 63 - 1) (h2 : n ≤ room) :
    (Rd.reserve room n : Rd σ Unit) s = .ok ((), s) := by
  unfold Rd.reserve
  rw [Rd.bind_eq (a := ()) (s1 := s) (by simp only [Rd.require, h1, decide_true, if_true])]
  simp only [Rd.require, h2, decide_true, if_true]

theorem reserve_ok {room n : Nat} {s s' : σ} {u : Unit} (h : (Rd.reserve room n : Rd σ Unit) s = .ok (u, s')) : s' = s := by
  obtain ⟨_, s1, h1, h2⟩ := Rd.bind_ok h
  have e1 := (Fit.require (K := fun x => x = s) (w := fun _ => 0) _ _).eats h1
  have e2 := (Fit.require (K := fun x => x = s) (w := fun _ => 0) _ _).eats h2
  exact e2.2 (e1.2 rfl)

theorem reserve_fails {room n : Nat} {s : σ} {e : Fail} (h : (Rd.reserve room n : Rd σ Unit) s = .error e) :
    e = .panic ∨ e = .exit := by
  unfold Rd.reserve at h
  rw [Rd.bind_run] at h
  unfold Rd.require at h
  by_cases h1 : n ≤ 2 ^ 63 - 1
  · rw [if_pos (by simpa using h1)] at h
    by_cases h2 : n ≤ room
    · simp [h2] at h
    · simp [h2] at h
      exact .inr h.symm
  · rw [if_neg (by simpa using h1)] at h
    injection h with h
    exact .inl h.symm

/-- a request that is granted because what follows cannot succeed on less than `c` -/
theorem Fit.reserve {m m' : Rd σ α} {room n : Nat} (h : Fit K w c m m')
    (hr : ∀ s, K s → c ≤ w s → n ≤ room ∧ n ≤ 2 ^ 63 - 1) :
    Fit K w c m (Rd.reserve room n >>= fun _ => m') where
  eats := h.eats
  up := by
    intro s a s' hk hm
    have := hr s hk (by have := (h.eats hm).1; omega)
    rw [Rd.bind_eq (reserve_run this.2 this.1)]
    exact h.up hk hm
  down := by
    intro s x hx
    obtain ⟨a, s'⟩ := x
    obtain ⟨_, s1, h1, h2⟩ := Rd.bind_ok hx
    rw [reserve_ok h1] at h2
    exact h.down h2
  same := by
    intro s x hx hk
    rw [Rd.bind_run] at hx
    cases hm : (Rd.reserve room n : Rd σ Unit) s with
    | error y =>
      rw [hm] at hx
      injection hx with hx
      subst hx
      obtain rfl | rfl := reserve_fails hm
      · exact absurd hk (by simp)
      · exact absurd hk (by simp)
    | ok r =>
      obtain ⟨a, s1⟩ := r
      rw [hm] at hx
      rw [reserve_ok hm] at hx
      exact h.same hx hk

end

/-- a file of which `k` times the length can be asked -/
def Room1 (room k : Nat) (s : Bytes) : Prop := k * s.length ≤ room ∧ k * s.length ≤ 2 ^ 63 - 1

/-- twice the graph file and once the data file can be asked -/
def Room2 (room : Nat) (s : Two) : Prop := Room1 room 2 s.1 ∧ Room1 room 1 s.2

theorem Room1.shorter {room k : Nat} {s s' : Bytes} (h : Room1 room k s) (hl : s'.length ≤ s.length) : Room1 room k s' := by
  have := Nat.mul_le_mul_left k hl
  exact ⟨Nat.le_trans this h.1, Nat.le_trans this h.2⟩

section
variable {room k : Nat}

theorem fit_readExact (f : Fail) (n : Nat) : Fit (Room1 room k) List.length n (readExact f n) (readExact f n) where
  eats := by
    intro s b s' h
    obtain ⟨h1, h2⟩ := readExact_ok h
    have h3 : s'.length + n = s.length := by rw [h1, List.length_append, h2]; omega
    exact ⟨by omega, fun hk => hk.shorter (by omega)⟩
  up := fun _ h => h
  down := id
  same := fun h _ => h

theorem fit_readNat (f : Fail) (n : Nat) : Fit (Room1 room k) List.length n (readNat f n) (readNat f n) :=
  (fit_readExact f n).bind fun _ => Fit.pure _

theorem Fit.onG {α : Type} {m m' : Rd Bytes α} {c : Nat} (h : Fit (Room1 room 2) List.length c m m') :
    Fit (Room2 room) (fun s => s.1.length) c (onG m) (onG m') where
  eats := by
    intro s a s' hm
    obtain ⟨h1, h2⟩ := onG_ok hm
    have := h.eats h1
    exact ⟨this.1, fun hk => ⟨this.2 hk.1, by rw [h2]; exact hk.2⟩⟩
  up := by
    intro s a s' hk hm
    obtain ⟨h1, h2⟩ := onG_ok hm
    unfold Verif.onG
    rw [h.up hk.1 h1, ← h2]
  down := by
    intro s x hx
    obtain ⟨a, s'⟩ := x
    obtain ⟨h1, h2⟩ := onG_ok hx
    unfold Verif.onG
    rw [h.down h1, ← h2]
  same := by
    intro s x hx hk
    unfold Verif.onG at hx ⊢
    cases hm : m' s.1 with
    | error y =>
      rw [hm] at hx
      injection hx with hx
      subst hx
      rw [h.same hm hk]
    | ok r => rw [hm] at hx; cases hx

theorem Fit.onD {α : Type} {m m' : Rd Bytes α} {c : Nat} (h : Fit (Room1 room 1) List.length c m m') :
    Fit (Room2 room) (fun s => s.1.length) 0 (onD m) (onD m') where
  eats := by
    intro s a s' hm
    obtain ⟨h1, h2⟩ := onD_ok hm
    have := h.eats h1
    exact ⟨by rw [h2]; exact Nat.le_refl _, fun hk => ⟨by rw [h2]; exact hk.1, this.2 hk.2⟩⟩
  up := by
    intro s a s' hk hm
    obtain ⟨h1, h2⟩ := onD_ok hm
    unfold Verif.onD
    rw [h.up hk.2 h1, ← h2]
  down := by
    intro s x hx
    obtain ⟨a, s'⟩ := x
    obtain ⟨h1, h2⟩ := onD_ok hx
    unfold Verif.onD
    rw [h.down h1, ← h2]
  same := by
    intro s x hx hk
    unfold Verif.onD at hx ⊢
    cases hm : m' s.2 with
    | error y =>
      rw [hm] at hx
      injection hx with hx
      subst hx
      rw [h.same hm hk]
    | ok r => rw [hm] at hx; cases hx

theorem fit_neighbour (mode : UInt8) :
    Fit (Room1 room 2) List.length 12 (loadNeighbour mode) (loadNeighbour mode) := by
  unfold loadNeighbour
  have hp : Fit (Room1 room 2) List.length 0 (loadNbPid mode) (loadNbPid mode) := by
    unfold loadNbPid
    split
    · exact ((fit_readNat .panic 1).bind fun a => (fit_readNat .panic 4).bind fun b => Fit.pure _).weaken (by omega)
    · exact Fit.pure _
  exact ((fit_readNat .panic 8).bind fun a => hp.bind fun b => (fit_readNat .panic 4).bind fun e => Fit.pure _).weaken
    (by omega)

theorem fit_list (mode : UInt8) : Fit (Room1 room 2) List.length 8 (loadList mode) (loadListMem room mode) := by
  unfold loadList loadListMem
  refine (Fit.bind (e := 0) (fit_readNat .panic 8) fun n => ?_).weaken (by omega)
  refine (((fit_neighbour mode).rep n).reserve ?_).weaken (by omega)
  intro s hk hc
  obtain ⟨h1, h2⟩ := hk
  exact ⟨by omega, by omega⟩

theorem fit_pointGraph (d : Descr) :
    Fit (Room1 room 2) List.length 17 (loadPointGraph d) (loadPointGraphMem room d) := by
  unfold loadPointGraph loadPointGraphMem
  exact ((fit_readNat .panic 4).bind fun a => (Fit.require _ _).bind fun _ => (fit_readNat .panic 8).bind fun b =>
    (fit_readNat .panic 1).bind fun e => (fit_readNat .panic 4).bind fun f =>
    ((fit_list d.mode).rep d.nbLayer.toNat).bind fun l => Fit.pure _).weaken (by omega)

theorem fit_record (f : Fail) (origin : DataId) :
    Fit (Room1 room 1) List.length 0 (readRecord f origin) (readRecordMem room f origin) := by
  unfold readRecord readRecordMem
  refine ((fit_readNat f 4).bind fun a => (Fit.require _ _).bind fun _ => (fit_readNat f 8).bind fun b =>
    (Fit.require _ _).bind fun _ => Fit.bind (e := 0) (fit_readNat f 8) fun n => ?_).weaken (by omega)
  refine ((fit_readExact f n).reserve ?_).weaken (by omega)
  intro s hk hc
  obtain ⟨h1, h2⟩ := hk
  exact ⟨by omega, by omega⟩

theorem fit_point (ty : Ty T) (d : Descr) (dm : Option DataMap) (mm : Bool) :
    Fit (Room2 room) (fun s => s.1.length) 17 (loadPoint ty d dm mm) (loadPointMem room ty d dm mm) := by
  unfold loadPoint loadPointMem
  refine (Fit.bind (e := 0) (fit_pointGraph d).onG fun x => ?_).weaken (by omega)
  obtain ⟨origin, pid, lists⟩ := x
  cases mm with
  | true => exact (fit_record .err origin).onD.bind fun _ => (Fit.lift _).bind fun v => Fit.pure _
  | false => exact ((fit_record .exit origin).bind fun b => Fit.lift _).onD.bind fun v => Fit.pure _

theorem fit_points (ty : Ty T) (d : Descr) (dm : Option DataMap) (o : ReloadOptions) (l n r : Nat) (still : Int) :
    Fit (Room2 room) (fun s => s.1.length) (17 * n) (loadPoints ty d dm o l n r still)
      (loadPointsMem room ty d dm o l n r still) := by
  induction n generalizing r still with
  | zero => exact Fit.pure _
  | succ n ih =>
    unfold loadPoints loadPointsMem
    exact ((fit_point ty d dm _).bind fun p => (Fit.require _ _).bind fun _ => (Fit.require _ _).bind fun _ =>
      (Fit.require _ _).bind fun _ => Fit.bind (e := 0) (ih (r + 1) (still - 1)) fun x => Fit.pure _).weaken (by omega)

theorem fit_layers (ty : Ty T) (d : Descr) (dm : Option DataMap) (o : ReloadOptions) (n l : Nat) (still : Int) :
    Fit (Room2 room) (fun s => s.1.length) 0 (loadLayers ty d dm o n l still) (loadLayersMem room ty d dm o n l still) := by
  induction n generalizing l still with
  | zero => exact Fit.pure _
  | succ n ih =>
    unfold loadLayers loadLayersMem
    refine ((fit_readNat .err 4).onG.bind fun a => (Fit.require _ _).bind fun _ =>
      Fit.bind (e := 0) (fit_readNat .err 8).onG fun nb => ?_).weaken (by omega)
    have h : Fit (Room2 room) (fun s => s.1.length) (17 * nb + 0)
        (loadPoints ty d dm o l nb 0 still >>= fun x => loadLayers ty d dm o n (l + 1) x.2 >>= fun ls => pure (x.1 :: ls))
        (loadPointsMem room ty d dm o l nb 0 still >>= fun x =>
          loadLayersMem room ty d dm o n (l + 1) x.2 >>= fun ls => pure (x.1 :: ls)) :=
      (fit_points ty d dm o l nb 0 still).bind fun x => (ih (l + 1) x.2).bind fun ls => Fit.pure _
    refine (h.reserve ?_).weaken (by omega)
    intro s hk hc
    obtain ⟨⟨h1, h2⟩, _⟩ := hk
    exact ⟨by omega, by omega⟩

theorem fit_indexation (P : Policy T) (ty : Ty T) (d : Descr) (dm : Option DataMap) (o : ReloadOptions) :
    Fit (Room2 room) (fun s => s.1.length) 0 (loadIndexation P ty d dm o) (loadIndexationMem room P ty d dm o) := by
  unfold loadIndexation loadIndexationMem
  exact ((Fit.require _ _).bind fun _ => (fit_readNat .err 1).onG.bind fun a => (Fit.require _ _).bind fun _ =>
    (fit_layers ty d dm o _ _ _).bind fun recs => (Fit.lift _).bind fun tbl => (fit_readNat .err 8).onG.bind fun _ =>
    (fit_readNat .err 1).onG.bind fun _ => (fit_readNat .err 4).onG.bind fun _ => (Fit.lift _).bind fun e =>
    Fit.pure _).weaken (by omega)

end

/-! ## The map -/

theorem sliceAt_fits {b v : Bytes} {a n : Nat} (h : sliceAt b a n = .ok v) : n ≤ b.length := by
  unfold sliceAt at h
  split at h
  · omega
  · cases h

theorem sliceAt_not_err {b : Bytes} {a n : Nat} : sliceAt b a n ≠ .error .err := by
  unfold sliceAt
  split <;> simp

theorem askBytes_run {room n : Nat} (h1 : n ≤ room) (h2 : n ≤ 2 ^ 63 - 1) : askBytes room n = .ok () := by
  unfold askBytes
  rw [if_neg (by omega), if_neg (by omega)]

theorem mapRecordsMem_up {room size dim : Nat} {b : Bytes} (hb : Room1 room 1 b) (n a : Nat) (m r : List (DataId × Nat))
    (h : mapRecords size dim b n a m = .ok r) : mapRecordsMem room size dim b n a m = .ok r := by
  induction n generalizing a m with
  | zero => exact h
  | succ n ih =>
    simp only [mapRecords, mapRecordsMem, bind, Except.bind] at h ⊢
    cases h1 : sliceAt b a 4 with
    | error e => rw [h1] at h; cases h
    | ok v1 =>
      rw [h1] at h
      simp only at h ⊢
      by_cases hm : ofLE v1 ≠ magicDataP
      · rw [if_pos hm] at h; cases h
      rw [if_neg hm] at h ⊢
      cases h2 : sliceAt b (a + 4) 8 with
      | error e => rw [h2] at h; cases h
      | ok v2 =>
        rw [h2] at h
        simp only at h ⊢
        cases h3 : sliceAt b (a + 12) 8 with
        | error e => rw [h3] at h; cases h
        | ok v3 =>
          rw [h3] at h
          simp only at h ⊢
          cases h4 : sliceAt b (a + 20) (ofLE v3) with
          | error e => rw [h4] at h; cases h
          | ok v4 =>
            have hf := sliceAt_fits h4
            rw [askBytes_run (by have := hb.1; omega) (by have := hb.2; omega)]
            rw [h4] at h
            simp only at h ⊢
            by_cases hd : ofLE v3 < dim * size
            · rw [if_pos hd] at h; cases h
            rw [if_neg hd] at h ⊢
            exact ih _ _ h

theorem mapRecordsMem_down {room size dim : Nat} {b : Bytes} (n a : Nat) (m r : List (DataId × Nat))
    (h : mapRecordsMem room size dim b n a m = .ok r) : mapRecords size dim b n a m = .ok r := by
  induction n generalizing a m with
  | zero => exact h
  | succ n ih =>
    simp only [mapRecords, mapRecordsMem, bind, Except.bind] at h ⊢
    cases h1 : sliceAt b a 4 with
    | error e => rw [h1] at h; cases h
    | ok v1 =>
      rw [h1] at h
      simp only at h ⊢
      by_cases hm : ofLE v1 ≠ magicDataP
      · rw [if_pos hm] at h; cases h
      rw [if_neg hm] at h ⊢
      cases h2 : sliceAt b (a + 4) 8 with
      | error e => rw [h2] at h; cases h
      | ok v2 =>
        rw [h2] at h
        simp only at h ⊢
        cases h3 : sliceAt b (a + 12) 8 with
        | error e => rw [h3] at h; cases h
        | ok v3 =>
          rw [h3] at h
          simp only at h ⊢
          cases hq : askBytes room (ofLE v3) with
          | error e => rw [hq] at h; cases h
          | ok u =>
            rw [hq] at h
            simp only at h
            cases h4 : sliceAt b (a + 20) (ofLE v3) with
            | error e => rw [h4] at h; cases h
            | ok v4 =>
              rw [h4] at h
              simp only at h ⊢
              by_cases hd : ofLE v3 < dim * size
              · rw [if_pos hd] at h; cases h
              rw [if_neg hd] at h ⊢
              exact ih _ _ h

theorem sliceAt_not_ub {b : Bytes} {a n : Nat} : sliceAt b a n ≠ .error .ub := by
  unfold sliceAt
  split <;> simp

theorem askBytes_not_ub {room n : Nat} : askBytes room n ≠ .error .ub := by
  unfold askBytes
  split
  · simp
  · split <;> simp

theorem mapRecordsMem_ub {room size dim : Nat} {b : Bytes} (n a : Nat) (m : List (DataId × Nat))
    (h : mapRecordsMem room size dim b n a m = .error .ub) : mapRecords size dim b n a m = .error .ub := by
  induction n generalizing a m with
  | zero => cases h
  | succ n ih =>
    simp only [mapRecords, mapRecordsMem, bind, Except.bind] at h ⊢
    cases h1 : sliceAt b a 4 with
    | error e => rw [h1] at h; simp only [Except.error.injEq] at h; rw [h] at h1; exact absurd h1 sliceAt_not_ub
    | ok v1 =>
      rw [h1] at h
      simp only at h ⊢
      by_cases hm : ofLE v1 ≠ magicDataP
      · rw [if_pos hm] at h; cases h
      rw [if_neg hm] at h ⊢
      cases h2 : sliceAt b (a + 4) 8 with
      | error e => rw [h2] at h; simp only [Except.error.injEq] at h; rw [h] at h2; exact absurd h2 sliceAt_not_ub
      | ok v2 =>
        rw [h2] at h
        simp only at h ⊢
        cases h3 : sliceAt b (a + 12) 8 with
        | error e => rw [h3] at h; simp only [Except.error.injEq] at h; rw [h] at h3; exact absurd h3 sliceAt_not_ub
        | ok v3 =>
          rw [h3] at h
          simp only at h ⊢
          cases hq : askBytes room (ofLE v3) with
          | error e => rw [hq] at h; simp only [Except.error.injEq] at h; rw [h] at hq; exact absurd hq askBytes_not_ub
          | ok u =>
            rw [hq] at h
            simp only at h
            cases h4 : sliceAt b (a + 20) (ofLE v3) with
            | error e => rw [h4] at h; simp only [Except.error.injEq] at h; rw [h] at h4; exact absurd h4 sliceAt_not_ub
            | ok v4 =>
              rw [h4] at h
              simp only at h ⊢
              by_cases hd : ofLE v3 < dim * size
              · rw [if_pos hd]
              rw [if_neg hd] at h ⊢
              exact ih _ _ h

theorem mapRecords_not_err {size dim : Nat} {b : Bytes} (n a : Nat) (m : List (DataId × Nat)) :
    mapRecords size dim b n a m ≠ .error .err := by
  induction n generalizing a m with
  | zero => simp [mapRecords]
  | succ n ih =>
    simp only [mapRecords, bind, Except.bind]
    have s1 := @sliceAt_not_err b
    intro h
    split at h
    · rename_i e he; injection h with h; subst h; exact s1 he
    split at h
    · simp at h
    split at h
    · rename_i e he; injection h with h; subst h; exact s1 he
    split at h
    · rename_i e he; injection h with h; subst h; exact s1 he
    split at h
    · rename_i e he; injection h with h; subst h; exact s1 he
    split at h
    · simp at h
    exact ih _ _ h

theorem mapRecordsMem_not_err {room size dim : Nat} {b : Bytes} (n a : Nat) (m : List (DataId × Nat)) :
    mapRecordsMem room size dim b n a m ≠ .error .err := by
  induction n generalizing a m with
  | zero => simp [mapRecordsMem]
  | succ n ih =>
    simp only [mapRecordsMem, bind, Except.bind]
    have s1 := @sliceAt_not_err b
    intro h
    split at h
    · rename_i e he; injection h with h; subst h; exact s1 he
    split at h
    · simp at h
    split at h
    · rename_i e he; injection h with h; subst h; exact s1 he
    split at h
    · rename_i e he; injection h with h; subst h; exact s1 he
    split at h
    · rename_i e he
      injection h with h
      subst h
      unfold askBytes at he
      split at he
      · simp at he
      · split at he <;> simp at he
    split at h
    · rename_i e he; injection h with h; subst h; exact s1 he
    split at h
    · simp at h
    exact ih _ _ h

/-- the outcomes after which `load_hnsw` goes on -/
def GoesOn {α : Type} (r : Except Fail α) : Prop := (∃ a, r = .ok a) ∨ r = .error .err

theorem fromDumpMem_up {room : Nat} (ty : Ty T) {fs : Dir} {base : String}
    (hb : ∀ b, fs (dataName base) = some b → Room1 room 1 b) {r : Except Fail DataMap} (hr : GoesOn r)
    (h : DataMap.fromDump ty fs base = r) : DataMap.fromDumpMem room ty fs base = r := by
  unfold DataMap.fromDump at h
  unfold DataMap.fromDumpMem
  cases hg : fs (graphName base) with
  | none => simp only [hg] at h ⊢; exact h
  | some g =>
    simp only [hg] at h ⊢
    cases hl : loadDescr g with
    | error e => cases e <;> (simp only [hl] at h ⊢; exact h)
    | ok x =>
      obtain ⟨d, g'⟩ := x
      simp only [hl] at h ⊢
      by_cases hv : d.version ≤ 2
      · rw [if_pos hv] at h ⊢; exact h
      rw [if_neg hv] at h ⊢
      by_cases ht : ty.name ≠ d.tName
      · rw [if_pos ht] at h ⊢; exact h
      rw [if_neg ht] at h ⊢
      cases hd : fs (dataName base) with
      | none => simp only [hd] at h ⊢; exact h
      | some b =>
        simp only [hd, bind, Except.bind] at h ⊢
        cases h1 : sliceAt b 0 4 with
        | error e => simp only [h1] at h ⊢; exact h
        | ok v1 =>
          simp only [h1] at h ⊢
          by_cases hm : ofLE v1 ≠ magicDataP
          · rw [if_pos hm] at h ⊢; exact h
          rw [if_neg hm] at h ⊢
          cases h2 : sliceAt b 4 8 with
          | error e => simp only [h2] at h ⊢; exact h
          | ok v2 =>
            simp only [h2] at h ⊢
            by_cases hn : ofLE v2 ≠ d.dim.toNat
            · rw [if_pos hn] at h ⊢; exact h
            rw [if_neg hn] at h ⊢
            split at h
            · rename_i e he
              obtain ⟨a, ha⟩ | ha := hr
              · rw [ha] at h; cases h
              · rw [ha] at h
                injection h with h
                rw [h] at he
                exact absurd he (mapRecords_not_err _ _ _)
            · rename_i m hm
              rw [mapRecordsMem_up (hb b hd) _ _ _ _ hm]
              exact h

theorem fromDumpMem_down {room : Nat} (ty : Ty T) {fs : Dir} {base : String} {r : Except Fail DataMap} (hr : GoesOn r)
    (h : DataMap.fromDumpMem room ty fs base = r) : DataMap.fromDump ty fs base = r := by
  unfold DataMap.fromDumpMem at h
  unfold DataMap.fromDump
  cases hg : fs (graphName base) with
  | none => simp only [hg] at h ⊢; exact h
  | some g =>
    simp only [hg] at h ⊢
    cases hl : loadDescr g with
    | error e => cases e <;> (simp only [hl] at h ⊢; exact h)
    | ok x =>
      obtain ⟨d, g'⟩ := x
      simp only [hl] at h ⊢
      by_cases hv : d.version ≤ 2
      · rw [if_pos hv] at h ⊢; exact h
      rw [if_neg hv] at h ⊢
      by_cases ht : ty.name ≠ d.tName
      · rw [if_pos ht] at h ⊢; exact h
      rw [if_neg ht] at h ⊢
      cases hd : fs (dataName base) with
      | none => simp only [hd] at h ⊢; exact h
      | some b =>
        simp only [hd, bind, Except.bind] at h ⊢
        cases h1 : sliceAt b 0 4 with
        | error e => simp only [h1] at h ⊢; exact h
        | ok v1 =>
          simp only [h1] at h ⊢
          by_cases hm : ofLE v1 ≠ magicDataP
          · rw [if_pos hm] at h ⊢; exact h
          rw [if_neg hm] at h ⊢
          cases h2 : sliceAt b 4 8 with
          | error e => simp only [h2] at h ⊢; exact h
          | ok v2 =>
            simp only [h2] at h ⊢
            by_cases hn : ofLE v2 ≠ d.dim.toNat
            · rw [if_pos hn] at h ⊢; exact h
            rw [if_neg hn] at h ⊢
            split at h
            · rename_i e he
              obtain ⟨a, ha⟩ | ha := hr
              · rw [ha] at h; cases h
              · rw [ha] at h
                injection h with h
                rw [h] at he
                exact absurd he (mapRecordsMem_not_err _ _ _)
            · rename_i m hm
              rw [mapRecordsMem_down _ _ _ _ hm]
              exact h

theorem fromDumpMem_ub {room : Nat} (ty : Ty T) {fs : Dir} {base : String}
    (h : DataMap.fromDumpMem room ty fs base = .error .ub) : DataMap.fromDump ty fs base = .error .ub := by
  unfold DataMap.fromDumpMem at h
  unfold DataMap.fromDump
  cases hg : fs (graphName base) with
  | none => simp only [hg] at h ⊢; exact h
  | some g =>
    simp only [hg] at h ⊢
    cases hl : loadDescr g with
    | error e => cases e <;> simp_all
    | ok x =>
      obtain ⟨d, g'⟩ := x
      simp only [hl] at h ⊢
      by_cases hv : d.version ≤ 2
      · rw [if_pos hv] at h ⊢; exact h
      rw [if_neg hv] at h ⊢
      by_cases ht : ty.name ≠ d.tName
      · rw [if_pos ht] at h ⊢; exact h
      rw [if_neg ht] at h ⊢
      cases hd : fs (dataName base) with
      | none => simp only [hd] at h ⊢; exact h
      | some b =>
        simp only [hd, bind, Except.bind] at h ⊢
        cases h1 : sliceAt b 0 4 with
        | error e => simp only [h1] at h ⊢; exact h
        | ok v1 =>
          simp only [h1] at h ⊢
          by_cases hm : ofLE v1 ≠ magicDataP
          · rw [if_pos hm] at h ⊢; exact h
          rw [if_neg hm] at h ⊢
          cases h2 : sliceAt b 4 8 with
          | error e => simp only [h2] at h ⊢; exact h
          | ok v2 =>
            simp only [h2] at h ⊢
            by_cases hn : ofLE v2 ≠ d.dim.toNat
            · rw [if_pos hn] at h ⊢; exact h
            rw [if_neg hn] at h ⊢
            split at h
            · rename_i e he
              injection h with h
              rw [h] at he
              rw [mapRecordsMem_ub _ _ _ he]
            · cases h

theorem mapDataMem_up {room : Nat} (ty : Ty T) {io io' : HnswIo} {fs : Dir}
    (hb : ∀ b, fs (dataName io.base) = some b → Room1 room 1 b) (h : io.mapData ty fs = .ok io') :
    io.mapDataMem room ty fs = .ok io' := by
  unfold HnswIo.mapData at h
  unfold HnswIo.mapDataMem
  split at h
  · rename_i ho
    rw [if_pos ho]
    split at h
    · rename_i m hm
      rw [fromDumpMem_up ty hb (.inl ⟨m, rfl⟩) hm]
      exact h
    · rename_i hm
      rw [fromDumpMem_up ty hb (.inr rfl) hm]
      exact h
    · cases h
  · rename_i ho
    rw [if_neg ho]
    exact h

theorem mapDataMem_down {room : Nat} (ty : Ty T) {io io' : HnswIo} {fs : Dir} (h : io.mapDataMem room ty fs = .ok io') :
    io.mapData ty fs = .ok io' := by
  unfold HnswIo.mapDataMem at h
  unfold HnswIo.mapData
  split at h
  · rename_i ho
    rw [if_pos ho]
    split at h
    · rename_i m hm
      rw [fromDumpMem_down ty (.inl ⟨m, rfl⟩) hm]
      exact h
    · rename_i hm
      rw [fromDumpMem_down ty (.inr rfl) hm]
      exact h
    · cases h
  · rename_i ho
    rw [if_neg ho]
    exact h

theorem mapDataMem_same {room : Nat} (ty : Ty T) {io : HnswIo} {fs : Dir} {e : Fail} (hk : e = .err ∨ e = .ub)
    (h : io.mapDataMem room ty fs = .error e) : io.mapData ty fs = .error e := by
  unfold HnswIo.mapDataMem at h
  unfold HnswIo.mapData
  split at h
  · rename_i ho
    rw [if_pos ho]
    split at h
    · cases h
    · cases h
    · rename_i e' he' hm
      injection h with h
      subst h
      obtain rfl | rfl := hk
      · exact absurd rfl he'
      · rw [fromDumpMem_ub ty hm]
  · cases h

/-- what is left of the files after the header and the description -/
theorem init_shorter {io : HnswIo} {fs : Dir} {d : Descr} {s : Two} (h : io.init fs = .ok (d, s)) :
    ∃ g b, fs (graphName io.base) = some g ∧ fs (dataName io.base) = some b ∧ s.2 = b ∧ loadDescr g = .ok (d, s.1) := by
  unfold HnswIo.init at h
  split at h
  · rename_i g b hg hb
    split at h
    · rename_i d' g' hd
      injection h with h
      rw [Prod.mk.injEq] at h
      refine ⟨g, b, hg, hb, ?_, ?_⟩
      · rw [← h.2]
      · rw [hd, h.1, ← h.2]
    · cases h
    · cases h
  · cases h

theorem dataHeader_shorter {d : Descr} {s s' : Two} {u : Unit} (h : loadDataHeader d s = .ok (u, s')) :
    s'.1 = s.1 ∧ s'.2.length ≤ s.2.length := by
  unfold loadDataHeader at h
  obtain ⟨_, s1, h1, h⟩ := Rd.bind_ok h
  obtain ⟨_, s2, h2, h⟩ := Rd.bind_ok h
  obtain ⟨_, s3, h3, h4⟩ := Rd.bind_ok h
  have e1 := onD_ok h1
  have e3 := onD_ok h3
  have f1 := ((fit_readNat (room := 0) (k := 0) _ _).eats e1.1).1
  have f3 := ((fit_readNat (room := 0) (k := 0) _ _).eats e3.1).1
  have e2 := ((Fit.require (K := fun x => x = s1) (w := fun _ => 0) _ _).eats h2).2 rfl
  have e4 := ((Fit.require (K := fun x => x = s3) (w := fun _ => 0) _ _).eats h4).2 rfl
  subst e2 e4
  exact ⟨by rw [e3.2, e1.2], by omega⟩

/-- the requests that follow the headers fit -/
theorem room_after {room : Nat} {io : HnswIo} {fs : Dir} {d : Descr} {s s1 : Two} {u : Unit}
    (hg : ∀ g, fs (graphName io.base) = some g → 2 * g.length ≤ room ∧ 2 * g.length < 2 ^ 63)
    (hb : ∀ b, fs (dataName io.base) = some b → b.length ≤ room ∧ b.length < 2 ^ 63)
    (hi : io.init fs = .ok (d, s)) (hh : loadDataHeader d s = .ok (u, s1)) : Room2 room s1 := by
  obtain ⟨g, b, e1, e2, e3, e4⟩ := init_shorter hi
  obtain ⟨e5, e6⟩ := dataHeader_shorter hh
  have e7 := congrArg List.length (loadDescr_ok e4).1
  rw [List.length_append] at e7
  have hgl := hg g e1
  have hbl := hb b e2
  rw [e3] at e6
  refine ⟨⟨?_, ?_⟩, ⟨?_, ?_⟩⟩
  · rw [e5]; omega
  · rw [e5]; omega
  · omega
  · omega

end Verif
