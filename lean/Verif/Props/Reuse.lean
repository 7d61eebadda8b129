import Verif.Props.Bounds

set_option autoImplicit false

/-!
# C117: reloads through an `HnswIo` that has been used
-/

namespace Verif
variable {T : Type} {P : Policy T} {ty : Ty T} {defScale : Nat → F64} {dist : Dist T}

/-- `HnswIo::set_options` (/repo/src/hnswio.rs 426-428) -/
def HnswIo.setOptions (io : HnswIo) (o : ReloadOptions) : HnswIo := { io with opts := o }

/-- The `HnswIo` a program can have made, with which it may have called `load_hnsw` for vectors of this type any
number of times, in states of the directory for which `dirs` holds.  `load_hnsw_with_dist` does not change it. -/
inductive HnswIo.Used (ty : Ty T) (dirs : Dir → Prop) : HnswIo → Prop
  | new (base : String) (o : ReloadOptions) : Used ty dirs (HnswIo.new base o)
  | default : Used ty dirs HnswIo.default
  | setValues {io : HnswIo} (base : String) (o : ReloadOptions) :
      Used ty dirs io → Used ty dirs (io.setValues base o).1
  | setOptions {io : HnswIo} (o : ReloadOptions) : Used ty dirs io → Used ty dirs (io.setOptions o)
  | load {io : HnswIo} (P : Policy T) (defScale : Nat → F64) (dist : Dist T) {fs : Dir} (h : dirs fs) :
      Used ty dirs io → Used ty dirs (io.loadHnsw P ty defScale dist fs).1

/-- what `load_hnsw` does to its `HnswIo` -/
theorem load_io (io : HnswIo) (fs : Dir) :
    (io.loadHnsw P ty defScale dist fs).1 = io ∨
    ∃ m, DataMap.fromDump ty fs io.base = .ok m ∧
      (io.loadHnsw P ty defScale dist fs).1 = { io with datamap := some m } := by
  unfold HnswIo.loadHnsw
  split
  · exact Or.inl rfl
  split
  · exact Or.inl rfl
  split
  · exact Or.inl rfl
  split
  · exact Or.inl rfl
  rename_i io1 hm
  have h : io1 = io ∨ ∃ m, DataMap.fromDump ty fs io.base = .ok m ∧ io1 = { io with datamap := some m } := by
    unfold HnswIo.mapData at hm
    split at hm
    · split at hm
      · rename_i m he
        cases hm
        exact Or.inr ⟨m, he, rfl⟩
      · cases hm; exact Or.inl rfl
      · cases hm
    · cases hm; exact Or.inl rfl
  split
  · exact h
  · exact h

theorem HnswIo.Used.safe {dirs : Dir → Prop} {io : HnswIo} (h : io.Used ty dirs) : SafeMap ty io.datamap := by
  induction h with
  | new base o => exact nofun
  | default => exact nofun
  | setValues base o _ ih =>
    unfold HnswIo.setValues
    split
    · exact ih
    · exact nofun
  | setOptions o _ ih => exact ih
  | @load io P defScale dist fs hd _ ih =>
    rcases load_io (P := P) (ty := ty) (defScale := defScale) (dist := dist) io fs with he | ⟨m, hm, he⟩
    · rw [he]; exact ih
    · rw [he]
      intro m' hm'
      cases hm'
      exact fromDump_in hm

/-- **C116** (an `HnswIo` that has been used) The same through an `HnswIo` with which any reloads of vectors of this
type were done, whatever the files were then. -/
theorem C116_used {io : HnswIo} (hu : io.Used ty fun _ => True) {fs : Dir}
    (h : (io.loadHnsw P ty defScale dist fs).2 = .error .ub ∨
      io.loadHnswWithDist P ty defScale dist fs = .error .ub) :
    ∃ (g rest b : Bytes) (d : Descr) (rs : List (DataId × Bytes)) (id : DataId) (v tail : Bytes),
      fs (io.base ++ ".hnsw.graph") = some g ∧ fs (io.base ++ ".hnsw.data") = some b ∧
      g = headerOf d ++ rest ∧ (d.version = 3 ∨ d.version = 4) ∧
      b = [0x00, 0x00, 0x7f, 0xa6] ++ le 8 d.dim.toNat ++ rs.flatMap dataRecord ++ dataRecord (id, v) ++ tail ∧
      v.length < d.dim.toNat * ty.size :=
  only_short hu.safe h

/-! ## The map is not used without the option -/

section
variable {d : Descr} {o : ReloadOptions}

theorem loadPoint_noMap (dm dm' : Option DataMap) : loadPoint ty d dm false = loadPoint ty d dm' false := rfl

theorem loadPoints_noMap (ho : o.datamap = false) (dm dm' : Option DataMap) (l n r : Nat) (still : Int) :
    loadPoints ty d dm o l n r still = loadPoints ty d dm' o l n r still := by
  induction n generalizing r still with
  | zero => rfl
  | succ n ih =>
    unfold loadPoints
    simp only [noMap ho, ih]
    rfl

theorem loadLayers_noMap (ho : o.datamap = false) (dm dm' : Option DataMap) (n l : Nat) (still : Int) :
    loadLayers ty d dm o n l still = loadLayers ty d dm' o n l still := by
  induction n generalizing l still with
  | zero => rfl
  | succ n ih =>
    unfold loadLayers
    simp only [loadPoints_noMap ho dm dm', ih]

theorem loadIndexation_noMap (ho : o.datamap = false) (dm dm' : Option DataMap) :
    loadIndexation P ty d dm o = loadIndexation P ty d dm' o := by
  unfold loadIndexation
  simp only [loadLayers_noMap ho dm dm']

end

/-- a map of files that do not change -/
theorem HnswIo.Used.map {fs : Dir} {io : HnswIo} (h : io.Used ty (· = fs)) :
    io.datamap = none ∨ ∃ m, DataMap.fromDump ty fs io.base = .ok m ∧ io.datamap = some m := by
  induction h with
  | new base o => exact Or.inl rfl
  | default => exact Or.inl rfl
  | setValues base o _ ih =>
    unfold HnswIo.setValues
    split
    · exact ih
    · exact Or.inl rfl
  | setOptions o _ ih => exact ih
  | @load io P defScale dist fs' hd _ ih =>
    subst hd
    rcases load_io (P := P) (ty := ty) (defScale := defScale) (dist := dist) io fs' with he | ⟨m, hm, he⟩
    · rw [he]; exact ih
    · rw [he]; exact Or.inr ⟨m, hm, rfl⟩

/-- **C117** While the files do not change, `load_hnsw` through an `HnswIo` that has been used, for any number of
reloads with any options, whether they succeeded or not, gives the same result as through a new one with the same
name and the present options. -/
theorem C117_reused {io : HnswIo} {fs : Dir} (hu : io.Used ty (· = fs)) :
    (io.loadHnsw P ty defScale dist fs).2 =
      ((HnswIo.new io.base io.opts).loadHnsw P ty defScale dist fs).2 := by
  have hinit : (HnswIo.new io.base io.opts).init fs = io.init fs := rfl
  unfold HnswIo.loadHnsw
  rw [hinit]
  split
  · rfl
  split
  · rfl
  split
  · rfl
  unfold HnswIo.mapData
  have hopt : (HnswIo.new io.base io.opts).opts = io.opts := rfl
  have hbase : (HnswIo.new io.base io.opts).base = io.base := rfl
  rw [hopt, hbase]
  cases ho : io.opts.datamap with
  | true =>
    simp only [if_true]
    cases hf : DataMap.fromDump ty fs io.base with
    | ok m =>
      simp only
      split <;> rfl
    | error e =>
      have hnone : io.datamap = none := by
        rcases hu.map with h | ⟨m, h, -⟩
        · exact h
        · rw [hf] at h; cases h
      cases e
      · simp only [hnone]
        have : (HnswIo.new io.base io.opts).datamap = none := rfl
        simp only [this, hopt]
        split <;> rfl
      all_goals rfl
  | false =>
    simp only [Bool.false_eq_true, if_false]
    rw [loadIndexation_noMap (P := P) ho io.datamap none]
    have : (HnswIo.new io.base io.opts).datamap = none := rfl
    simp only [this, hopt]
    split <;> rfl

/-- an `HnswIo` used for a reload with a map, then given the default options -/
def usedIo (fs : Dir) : HnswIo :=
  ((HnswIo.new "a" (ReloadOptions.default.setMmap true)).loadHnsw (listPolicy UInt8) u8Ty exScale u8Dist fs).1.setOptions
    .default

/-- The hypotheses of `C117_reused` and `C116_used` are met by an `HnswIo` that has a map which is used no more; with
the map used again; and after a reload that failed.  (Byte 0 of the data file of the dump is 0.) -/
example : (usedIo (damagedData 0 0)).Used u8Ty (· = damagedData 0 0) ∧
    (usedIo (damagedData 0 0)).datamap.isSome = true ∧
    ((usedIo (damagedData 0 0)).setOptions (ReloadOptions.default.setMmap true)).Used u8Ty (· = damagedData 0 0) ∧
    (usedIo (damagedData 24 1)).Used u8Ty (fun _ => True) ∧ (usedIo (damagedData 24 1)).datamap.isSome = false :=
  ⟨.setOptions _ (.load _ _ _ rfl (.new _ _)), by decide +kernel,
    .setOptions _ (.setOptions _ (.load _ _ _ rfl (.new _ _))),
    .setOptions _ (.load _ _ _ trivial (.new _ _)), by decide +kernel⟩

/-- The files must not change: with a map of the old files the vectors of the old ones are given (`load_hnsw_with_dist`
never makes a map); here the data file of the dump of `io4` is replaced by one with another first byte of a
vector. -/
example :
    ((((HnswIo.new "a" (ReloadOptions.default.setMmap true)).loadHnsw (listPolicy UInt8) u8Ty exScale u8Dist
        (damagedData 0 0)).1.loadHnswWithDist (listPolicy UInt8) u8Ty exScale u8Dist (damagedData 32 99)).toOption.map
          fun x => x.hnsw.idx.points.map (·.data)) =
      ((((HnswIo.new "a" .default).loadHnsw (listPolicy UInt8) u8Ty exScale u8Dist (damagedData 0 0)).2).toOption.map
          fun x => x.hnsw.idx.points.map (·.data)) ∧
    ((((HnswIo.new "a" .default).loadHnsw (listPolicy UInt8) u8Ty exScale u8Dist (damagedData 32 99)).2).toOption.map
          fun x => x.hnsw.idx.points.map (·.data)) ≠
      ((((HnswIo.new "a" .default).loadHnsw (listPolicy UInt8) u8Ty exScale u8Dist (damagedData 0 0)).2).toOption.map
          fun x => x.hnsw.idx.points.map (·.data)) := by
  decide +kernel

end Verif
