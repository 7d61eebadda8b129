import Verif.MapArith

set_option autoImplicit false

/-!
# Arithmetic of a reload (for C141)

The counter `nb_still_to_load` is an `i64` made from the `u64` of the header.  In builds with overflow checks `nb_still_to_load -= 1`
panics on the least `i64`, in others it gives the largest.
-/

namespace Verif
variable {T : Type}

/-- `nb_still_to_load -= 1` (/repo/src/hnswio.rs 713) -/
def decI64 (checks : Bool) (n : Int) : Except Fail Int :=
  if n = -2 ^ 63 then if checks then .error .panic else .ok (2 ^ 63 - 1) else .ok (n - 1)

/-- the points of layer `l`: `n` are left, the next one has rank `r` (/repo/src/hnswio.rs 670-716). -/
def loadPointsU (checks : Bool) (ty : Ty T) (d : Descr) (dm : Option DataMap) (o : ReloadOptions) (l : Nat) :
    Nat → Nat → Int → Rd Two (List (PointRec T) × Int)
  | 0, _, still => pure ([], still)
  | n + 1, r, still => do
    let p ← loadPoint ty d dm (pointUseMmap o still)
    Rd.require (l = p.pt.pid.layer) .panic
    Rd.require (p.pt.pid.rank < 2 ^ 31 && r = p.pt.pid.rank) .panic
    let still ← Rd.lift (decI64 checks still)
    Rd.require (0 ≤ still) .panic
    let (ps, still') ← loadPointsU checks ty d dm o l n (r + 1) still
    pure (p :: ps, still')

/-- the layers: `n` are left, the next one is `l` (/repo/src/hnswio.rs 655-718). -/
def loadLayersU (checks : Bool) (ty : Ty T) (d : Descr) (dm : Option DataMap) (o : ReloadOptions) :
    Nat → Nat → Int → Rd Two (List (List (PointRec T)))
  | 0, _, _ => pure []
  | n + 1, l, still => do
    let magic ← onG (readNat .err 4)
    Rd.require (magic = magicLayer) .err
    let nbpoints ← onG (readNat .err 8)
    let (ps, still') ← loadPointsU checks ty d dm o l nbpoints 0 still
    let ls ← loadLayersU checks ty d dm o n (l + 1) still'
    pure (ps :: ls)

/-- `load_point_indexation` (/repo/src/hnswio.rs 615-784), without the level generator. -/
def loadIndexationU (checks : Bool) (P : Policy T) (ty : Ty T) (d : Descr) (dm : Option DataMap) (o : ReloadOptions) :
    Rd Two (Idx T × List Bool) := do
  Rd.require (ty.noData || ty.name == d.tName) .panic
  let nbLayer ← onG (readNat .err 1)
  Rd.require (nbLayer ≤ nbLayerMax) .err
  let recs ← loadLayersU checks ty d dm o nbLayer 0 (asI64 d.nbPoint.toNat)
  let layers := recs.map fun l => l.map (·.pt)
  let tbl ← Rd.lift (mapE (fun l => mapE (fun r => linkPoint P layers r.lists) l) recs)
  let _origin ← onG (readNat .err 8)
  let layer ← onG (readNat .err 1)
  let rank ← onG (readNat .err 4)
  let e ← Rd.lift (resolve layers ⟨layer, rank⟩)
  pure (mkIdx layers tbl e, recs.flatten.map (·.mapped))

/-- memory mapping in `load_hnsw` (/repo/src/hnswio.rs 496-504) -/
def HnswIo.mapDataU (checks : Bool) (ty : Ty T) (io : HnswIo) (fs : Dir) : Except Fail HnswIo :=
  if io.opts.datamap then
    match DataMap.fromDumpU checks ty fs io.base with
    | .ok m => .ok { io with datamap := some m }
    | .error .err => .ok io
    | .error e => .error e
  else .ok io

/-- `load_hnsw` (/repo/src/hnswio.rs 431-524) in a build with or without overflow checks -/
def HnswIo.loadHnswU (checks : Bool) (P : Policy T) (ty : Ty T) (defScale : Nat → F64) (dist : Dist T) (io : HnswIo)
    (fs : Dir) : HnswIo × Except Fail (Loaded T) :=
  match io.init fs with
  | .error e => (io, .error e)
  | .ok (d, s) =>
    match loadDataHeader d s with
    | .error e => (io, .error e)
    | .ok (_, s) =>
      match checkDist ty dist.name d with
      | .error e => (io, .error e)
      | .ok _ =>
        match io.mapDataU checks ty fs with
        | .error e => (io, .error e)
        | .ok io' =>
          match loadIndexationU checks P ty d io'.datamap io'.opts s with
          | .error e => (io', .error e)
          | .ok ((idx, m), _) => (io', .ok ⟨mkHnsw defScale dist d idx true, m⟩)

/-- `load_hnsw_with_dist` (/repo/src/hnswio.rs 531-613) in a build with or without overflow checks -/
def HnswIo.loadHnswWithDistU (checks : Bool) (P : Policy T) (ty : Ty T) (defScale : Nat → F64) (dist : Dist T)
    (io : HnswIo) (fs : Dir) : Except Fail (Loaded T) :=
  match io.init fs with
  | .error e => .error e
  | .ok (d, s) =>
    match loadDataHeader d s with
    | .error e => .error e
    | .ok (_, s) =>
      if !ty.noData && dist.name != d.distName then .error .err
      else
        match loadIndexationU checks P ty d io.datamap io.opts s with
        | .error e => .error e
        | .ok ((idx, m), _) => .ok ⟨mkHnsw defScale dist d idx false, m⟩

theorem loadPoints_still {ty : Ty T} {d : Descr} {dm : Option DataMap} {o : ReloadOptions} {l : Nat} :
    ∀ {n r : Nat} {still : Int} {s s' : Two} {ps : List (PointRec T)} {st : Int},
      loadPoints ty d dm o l n r still s = .ok ((ps, st), s') → st = still ∨ 0 ≤ st
  | 0, r, still, s, s', ps, st, h => by
    simp only [loadPoints, pure, Rd.pure] at h
    injection h with h
    injection h with h _
    injection h with _ h
    exact .inl h.symm
  | n + 1, r, still, s, s', ps, st, h => by
    simp only [loadPoints, bind, Rd.bind] at h
    split at h
    · cases h
    split at h
    · cases h
    split at h
    · cases h
    split at h
    · cases h
    rename_i hq
    split at h
    · cases h
    rename_i x s2 hx
    obtain ⟨ps2, st2⟩ := x
    simp only [pure, Rd.pure] at h
    injection h with h
    injection h with h _
    injection h with _ h
    subst h
    rcases loadPoints_still hx with h | h
    · right
      rw [h]
      by_cases hs : 0 ≤ still - 1
      · exact hs
      · simp [Rd.require, show ¬ 1 ≤ still by omega] at hq
    · exact .inr h

theorem loadPointsU_eq (checks : Bool) {ty : Ty T} {d : Descr} {dm : Option DataMap} {o : ReloadOptions} {l : Nat} :
    ∀ {n r : Nat} {still : Int}, checks = true ∨ still ≠ -2 ^ 63 →
      loadPointsU checks ty d dm o l n r still = loadPoints ty d dm o l n r still
  | 0, r, still, h => rfl
  | n + 1, r, still, h => by
    funext s
    simp only [loadPointsU, loadPoints, bind, Rd.bind]
    split
    · rfl
    split
    · rfl
    split
    · rfl
    rename_i s3 _
    by_cases hs : still = -2 ^ 63
    · have hc : checks = true := h.resolve_right (fun h => h hs)
      subst hc
      have h1 : decI64 true still = .error .panic := by unfold decI64; rw [if_pos hs]; rfl
      rw [h1]
      simp [Rd.lift, Rd.require, show ¬ 1 ≤ still by omega]
    · have h1 : decI64 checks still = .ok (still - 1) := by unfold decI64; rw [if_neg hs]
      rw [h1]
      simp only [Rd.lift]
      by_cases h2 : (0 : Int) ≤ still - 1
      · rw [loadPointsU_eq checks (.inr (by omega))]
      · simp [Rd.require, show ¬ 1 ≤ still by omega]

theorem loadLayersU_eq (checks : Bool) {ty : Ty T} {d : Descr} {dm : Option DataMap} {o : ReloadOptions} :
    ∀ {n l : Nat} {still : Int}, checks = true ∨ still ≠ -2 ^ 63 →
      loadLayersU checks ty d dm o n l still = loadLayers ty d dm o n l still
  | 0, l, still, h => rfl
  | n + 1, l, still, h => by
    funext s
    simp only [loadLayersU, loadLayers, bind, Rd.bind]
    split
    · rfl
    split
    · rfl
    split
    · rfl
    rw [loadPointsU_eq checks h]
    split
    · rfl
    rename_i x s4 hx
    obtain ⟨ps, st⟩ := x
    simp only
    rw [loadLayersU_eq checks ?_]
    rcases h with h | h
    · exact .inl h
    · rcases loadPoints_still hx with h' | h'
      · rw [h']; exact .inr h
      · exact .inr (by omega)

theorem asI64_least {n : Nat} (h : n ≠ 2 ^ 63) : asI64 n ≠ -2 ^ 63 := by
  unfold asI64
  split <;> omega

theorem loadIndexationU_eq {checks : Bool} {P : Policy T} {ty : Ty T} {d : Descr} {dm : Option DataMap} {o : ReloadOptions}
    (h : checks = true ∨ d.nbPoint.toNat ≠ 2 ^ 63) :
    loadIndexationU checks P ty d dm o = loadIndexation P ty d dm o := by
  unfold loadIndexationU loadIndexation
  simp only [loadLayersU_eq checks (h.imp_right asI64_least)]

theorem mapDataU_eq {checks : Bool} {ty : Ty T} {io : HnswIo} {fs : Dir}
    (h : io.opts.datamap = true → ∀ b, fs (dataName io.base) = some b → 20 + ofLE ((b.drop 4).take 8) * ty.size < 2 ^ 64) :
    io.mapDataU checks ty fs = io.mapData ty fs := by
  unfold HnswIo.mapDataU HnswIo.mapData
  by_cases hm : io.opts.datamap = true
  · rw [if_pos hm, if_pos hm, fromDumpU_small checks ty fs io.base (h hm)]
    cases DataMap.fromDump ty fs io.base with
    | ok m => rfl
    | error e => cases e <;> rfl
  · rw [if_neg hm, if_neg hm]

theorem mapDataU_ok {checks : Bool} {ty : Ty T} {io io' : HnswIo} {fs : Dir}
    (hb : ∀ b, fs (dataName io.base) = some b → b.length + 20 < 2 ^ 64) (h : io.mapDataU checks ty fs = .ok io') :
    io.mapData ty fs = .ok io' := by
  by_cases hs : io.opts.datamap = true → ∀ b, fs (dataName io.base) = some b →
      20 + ofLE ((b.drop 4).take 8) * ty.size < 2 ^ 64
  · rw [← mapDataU_eq hs]; exact h
  · apply Classical.byContradiction
    intro hne
    apply hs
    intro hm b hd
    apply Classical.byContradiction
    intro hov
    unfold HnswIo.mapDataU at h
    unfold HnswIo.mapData at hne
    rw [if_pos hm] at h hne
    rcases fromDumpU_large checks ty fs io.base hd (by omega) (hb b hd) with h' | ⟨-, h' | ⟨-, e, he, h'⟩⟩
    · rw [h'] at h
      apply hne
      rw [← h]
      cases DataMap.fromDump ty fs io.base with
      | ok m => rfl
      | error e => cases e <;> rfl
    · rw [h'] at h
      cases h
    · rw [h'] at h
      cases e <;> first | exact he rfl | cases h

theorem loadPointsU_count {checks : Bool} {ty : Ty T} {d : Descr} {dm : Option DataMap} {o : ReloadOptions} {l : Nat}
    (ho : o.datamap = false) : ∀ {n r : Nat} {still : Int} {s s' : Two} {ps : List (PointRec T)} {st : Int},
      loadPointsU checks ty d dm o l n r still s = .ok ((ps, st), s') →
      ps.length = n ∧ ∀ N : Int, n ≤ N → loadPoints ty d dm o l n r N s = .ok ((ps, N - n), s')
  | 0, r, still, s, s', ps, st, h => by
    simp only [loadPointsU, pure, Rd.pure] at h
    injection h with h
    injection h with h h2
    injection h with h _
    subst h h2
    refine ⟨rfl, fun N _ => ?_⟩
    simp [loadPoints, pure, Rd.pure]
  | n + 1, r, still, s, s', ps, st, h => by
    have hp : ∀ N, pointUseMmap o N = false := fun N => by unfold pointUseMmap; rw [ho]; rfl
    simp only [loadPointsU, bind, Rd.bind, hp] at h
    split at h
    · cases h
    rename_i p s1 h1
    split at h
    · cases h
    rename_i u2 s2 h2
    split at h
    · cases h
    rename_i u3 s3 h3
    split at h
    · cases h
    rename_i st4 s4 h4
    split at h
    · cases h
    rename_i u5 s5 h5
    split at h
    · cases h
    rename_i x s6 h6
    obtain ⟨ps2, st2⟩ := x
    simp only [pure, Rd.pure] at h
    injection h with h
    injection h with h h7
    injection h with h _
    subst h h7
    have e4 : s4 = s3 := by
      unfold Rd.lift at h4
      split at h4
      · injection h4 with h4; injection h4 with _ h4; exact h4.symm
      · cases h4
    have e5 : s5 = s4 := by
      unfold Rd.require at h5
      split at h5
      · injection h5 with h5; injection h5 with _ h5; exact h5.symm
      · cases h5
    subst e4 e5
    obtain ⟨a, b⟩ := loadPointsU_count ho h6
    refine ⟨by simp [a], fun N hN => ?_⟩
    simp only [loadPoints, bind, Rd.bind, hp, h1, h2, h3]
    rw [show Rd.require (decide (0 ≤ N - 1)) Fail.panic s5 = .ok ((), s5) by
      unfold Rd.require; rw [if_pos (by simp; omega)]]
    simp only
    rw [b (N - 1) (by omega)]
    simp only [pure, Rd.pure]
    rw [show N - 1 - (n : Int) = N - ((n + 1 : Nat) : Int) by omega]

theorem loadLayersU_count {checks : Bool} {ty : Ty T} {d : Descr} {dm : Option DataMap} {o : ReloadOptions}
    (ho : o.datamap = false) : ∀ {n l : Nat} {still : Int} {s s' : Two} {ls : List (List (PointRec T))},
      loadLayersU checks ty d dm o n l still s = .ok (ls, s') →
      ∀ N : Int, ls.flatten.length ≤ N → loadLayers ty d dm o n l N s = .ok (ls, s')
  | 0, l, still, s, s', ls, h => fun N _ => h
  | n + 1, l, still, s, s', ls, h => by
    intro N hN
    simp only [loadLayersU, bind, Rd.bind] at h
    split at h
    · cases h
    rename_i u1 s1 h1
    split at h
    · cases h
    rename_i u2 s2 h2
    split at h
    · cases h
    rename_i u3 s3 h3
    split at h
    · cases h
    rename_i x s4 h4
    obtain ⟨ps, st⟩ := x
    simp only at h
    split at h
    · cases h
    rename_i ls2 s5 h5
    simp only [pure, Rd.pure] at h
    injection h with h
    injection h with h h6
    subst h h6
    obtain ⟨a, b⟩ := loadPointsU_count ho h4
    rw [List.flatten_cons, List.length_append] at hN
    simp only [loadLayers, bind, Rd.bind, h1, h2, h3]
    rw [b N (by omega)]
    simp only
    rw [loadLayersU_count ho h5 (N - (u3 : Nat)) (by omega)]
    rfl

theorem loadIndexationU_count {checks : Bool} {P : Policy T} {ty : Ty T} {d : Descr} {dm : Option DataMap} {o : ReloadOptions}
    {s s' : Two} {idx : Idx T} {m : List Bool} (ho : o.datamap = false)
    (h : loadIndexationU checks P ty d dm o s = .ok ((idx, m), s')) {k : UInt64}
    (hk : idx.nbPoint ≤ k.toNat) (hk' : k.toNat < 2 ^ 63) :
    loadIndexation P ty { d with nbPoint := k } dm o s = .ok ((idx, m), s') := by
  have hd : ∀ {n l : Nat} {N : Int}, loadLayers ty { d with nbPoint := k } dm o n l N = loadLayers ty d dm o n l N := by
    have hpp : ∀ {l n r : Nat} {N : Int}, loadPoints ty { d with nbPoint := k } dm o l n r N = loadPoints ty d dm o l n r N := by
      intro l n
      induction n with
      | zero => intros; rfl
      | succ n ih =>
        intro r N
        simp only [loadPoints, ih]
        rfl
    intro n
    induction n with
    | zero => intros; rfl
    | succ n ih =>
      intro l N
      simp only [loadLayers, ih, hpp]
  have hi : asI64 k.toNat = (k.toNat : Int) := by unfold asI64; rw [if_pos hk']
  simp only [loadIndexationU, bind, Rd.bind] at h
  split at h
  · cases h
  rename_i u1 s1 h1
  split at h
  · cases h
  rename_i u2 s2 h2
  split at h
  · cases h
  rename_i u3 s3 h3
  split at h
  · cases h
  rename_i recs s4 h4
  have hn : recs.flatten.length = idx.nbPoint := by
    split at h
    · cases h
    split at h
    · cases h
    split at h
    · cases h
    split at h
    · cases h
    split at h
    · cases h
    simp only [pure, Rd.pure] at h
    injection h with h
    injection h with h _
    injection h with h _
    rw [← h]
    show recs.flatten.length = (recs.map fun l => l.map (·.pt)).flatten.length
    rw [← List.map_flatten, List.length_map]
  have h5 := loadLayersU_count ho h4 (k.toNat : Int) (by omega)
  simp only [loadIndexation, bind, Rd.bind, hd, hi, h1, h2, h3, h5]
  exact h

end Verif
