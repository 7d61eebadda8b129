import Verif.Settings
import Verif.Props.Level
import Verif.Props.Mmap

set_option autoImplicit false

/-!
# C104: settings
-/

namespace Verif
variable {T : Type}

/-- the value given by the last call that gives one -/
def lastOf {α β : Type} (f : α → Option β) : List α → Option β
  | [] => none
  | a :: as => (lastOf f as).or (f a)

/-- value of a call of `set_extend_candidates` -/
def Setting.extend? : Setting → Option Bool
  | .extend b => some b
  | _ => none

/-- value of a call of `set_keeping_pruned` -/
def Setting.keep? : Setting → Option Bool
  | .keepPruned b => some b
  | _ => none

/-- value of a call of `modify_level_scale` -/
def Setting.scale? : Setting → Option F64
  | .scale f => some f
  | _ => none

theorem getD_or {β : Type} (a b : Option β) (c : β) : (a.or b).getD c = a.getD (b.getD c) := by
  cases a <;> rfl

/-- **C104** After any sequence of calls that change settings, the points, links, entry point, numbers of
connections and layers, `ef_construction`, distance and mapping are those from before; each flag has the
value it was last given, or its old value; and the scale was multiplied in turn by each factor asked for,
brought between 0.2 and 1, so that it did not grow. -/
theorem C104_settings (ss : List Setting) (h : Hnsw T) :
    (ss.foldl Setting.apply h).idx = h.idx ∧
    (ss.foldl Setting.apply h).cfg.maxNb = h.cfg.maxNb ∧
    (ss.foldl Setting.apply h).cfg.efC = h.cfg.efC ∧
    (ss.foldl Setting.apply h).cfg.maxLayer = h.cfg.maxLayer ∧
    (ss.foldl Setting.apply h).cfg.eval = h.cfg.eval ∧
    (ss.foldl Setting.apply h).distName = h.distName ∧
    (ss.foldl Setting.apply h).mapped = h.mapped ∧
    (ss.foldl Setting.apply h).gen.maxlevel = h.gen.maxlevel ∧
    (ss.foldl Setting.apply h).cfg.extend = (lastOf Setting.extend? ss).getD h.cfg.extend ∧
    (ss.foldl Setting.apply h).cfg.keepPruned = (lastOf Setting.keep? ss).getD h.cfg.keepPruned ∧
    ∃ ks : List F64, ks.length = (ss.filterMap Setting.scale?).length ∧
      (∀ (i : Nat) k f, ks[i]? = some k → (ss.filterMap Setting.scale?)[i]? = some f →
        F64.fifth.le k = true ∧ k.le F64.one = true ∧
        (F64.fifth.le f = true → f.le F64.one = true → k = f) ∧
        (f.lt F64.fifth = true → k = F64.fifth) ∧ (F64.one.lt f = true → k = F64.one)) ∧
      (ss.foldl Setting.apply h).gen.scale = ks.foldl F64.mul h.gen.scale := by
  induction ss generalizing h with
  | nil => exact ⟨rfl, rfl, rfl, rfl, rfl, rfl, rfl, rfl, rfl, rfl, [], rfl, by simp, rfl⟩
  | cons s ss ih =>
    obtain ⟨h1, h2, h3, h4, h5, h6, h7, h8, h9, h10, ks, h11, h12, h13⟩ := ih (Setting.apply h s)
    simp only [List.foldl_cons, lastOf, getD_or]
    cases s with
    | extend b =>
      exact ⟨h1, h2, h3, h4, h5, h6, h7, h8, h9, h10, ks, h11, h12, h13⟩
    | keepPruned b =>
      exact ⟨h1, h2, h3, h4, h5, h6, h7, h8, h9, h10, ks, h11, h12, h13⟩
    | searching b =>
      exact ⟨h1, h2, h3, h4, h5, h6, h7, h8, h9, h10, ks, h11, h12, h13⟩
    | scale f =>
      obtain ⟨k, e1, e2, e3, e4, -, e5, e6, -⟩ := C28_level_scale h.gen f
      have eg : (Setting.apply h (.scale f)).gen = ⟨F64.mul h.gen.scale k, h.gen.maxlevel⟩ := e1
      rw [eg] at h8 h13
      refine ⟨h1, h2, h3, h4, h5, h6, h7, h8, h9, h10, k :: ks, ?_, ?_, h13⟩
      · simp [Setting.scale?, h11]
      · intro i k' f' hk hf
        cases i with
        | zero =>
          simp [Setting.scale?] at hk hf
          subst hk hf
          exact ⟨e2, e3, e4, e5, e6⟩
        | succ i =>
          simp only [List.getElem?_cons_succ] at hk
          simp [Setting.scale?] at hf
          exact h12 i k' f' hk hf

/-- **C104** Settings may be changed at any time: what is proved of the lives of an index (`HReach`) holds
after them. -/
theorem C104_any_time {P : Policy T} {ty : Ty T} {defScale : Nat → F64} {ml : Nat} {h : Hnsw T} {c : CSt T}
    (hr : HReach P ty defScale ml h c) (ss : List Setting) :
    HReach P ty defScale ml (ss.foldl Setting.apply h) c := by
  induction ss generalizing h with
  | nil => exact hr
  | cons s ss ih =>
    refine ih ?_
    cases s with
    | extend b => exact HReach.flags b h.cfg.keepPruned hr
    | keepPruned b => exact HReach.flags h.cfg.extend b hr
    | searching b => exact hr
    | scale f => exact HReach.scale f hr

/-- Both flags, twice, and two factors. -/
example : lastOf Setting.extend? [.extend true, .keepPruned true, .scale F64.fifth, .extend false, .scale F64.one] =
    some false ∧ lastOf Setting.keep? [.extend true, .keepPruned true, .scale F64.fifth, .extend false] = some true ∧
    ([.extend true, .scale F64.fifth, .scale F64.one] : List Setting).filterMap Setting.scale? =
      [F64.fifth, F64.one] := by decide

/-- what a call says of the use of a map -/
def OptCall.map? : OptCall → Option Bool
  | .mmap b => some b
  | .threshold t => if 0 < t then some true else none

/-- a positive threshold -/
def OptCall.threshold? : OptCall → Option Nat
  | .mmap _ => none
  | .threshold t => if 0 < t then some t else none

/-- **C104** (options of a reload; partial: positive thresholds) After any sequence of calls from
`ReloadOptions::new(b)`, `use_mmap()` gives the threshold last asked for among the positive ones, 0 if
there is none, and a map is used if the last call of `set_mmap`, or with a positive threshold of
`set_mmap_threshold`, asked for it. -/
theorem C104_options_partial (cs : List OptCall) (b : Bool) :
    (cs.foldl OptCall.apply (ReloadOptions.new b)).useMmap =
      ((lastOf OptCall.map? cs).getD b, (lastOf OptCall.threshold? cs).getD 0) := by
  have gen : ∀ (cs : List OptCall) (o : ReloadOptions), (cs.foldl OptCall.apply o).useMmap =
      ((lastOf OptCall.map? cs).getD o.datamap, (lastOf OptCall.threshold? cs).getD o.threshold) := by
    intro cs
    induction cs with
    | nil => intro o; rfl
    | cons c cs ih =>
      intro o
      simp only [List.foldl_cons, lastOf, getD_or]
      rw [ih]
      cases c with
      | mmap v => rfl
      | threshold t =>
        by_cases ht : 0 < t
        · simp [OptCall.apply, ReloadOptions.setThreshold, OptCall.map?, OptCall.threshold?, ht]
        · simp [OptCall.apply, ReloadOptions.setThreshold, OptCall.map?, OptCall.threshold?, ht]
  exact gen cs (ReloadOptions.new b)

/-- **C104 is false** for a threshold of 0 ("the maximum number of data that will be reloaded in memory"): the
call is ignored, so that no point is mapped, or an earlier threshold stays. -/
theorem C104_threshold_refuted :
    (([.threshold 0] : List OptCall).foldl OptCall.apply .default).useMmap = (false, 0) ∧
    (([.threshold 7, .threshold 0] : List OptCall).foldl OptCall.apply .default).useMmap = (true, 7) ∧
    ∀ still : Int, pointUseMmap (([.threshold 0] : List OptCall).foldl OptCall.apply .default) still = false := by
  refine ⟨by decide, by decide, fun still => rfl⟩

/-- **C28**, as seen by `get_level_scale`: after calls of `modify_level_scale` with the numbers `fs` it returns the former scale
multiplied successively by one factor for each, between 0.2 and 1, the number itself if it is in this range and 0.2 for NaN.  Nothing
else of the index changes. -/
theorem C28_observed {T : Type} (fs : List F64) (h : Hnsw T) :
    ∃ ks : List F64, ks.length = fs.length ∧
      (∀ (i : Nat) (f k : F64), fs[i]? = some f → ks[i]? = some k → F64.fifth.le k = true ∧ k.le F64.one = true ∧
        (F64.fifth.le f = true → f.le F64.one = true → k = f) ∧ (f.isNaN = true → k = F64.fifth)) ∧
      (fs.foldl Hnsw.modifyScale h).getLevelScale = ks.foldl F64.mul h.getLevelScale ∧
      (fs.foldl Hnsw.modifyScale h).idx = h.idx ∧ (fs.foldl Hnsw.modifyScale h).cfg = h.cfg ∧
      (fs.foldl Hnsw.modifyScale h).distName = h.distName := by
  induction fs generalizing h with
  | nil => exact ⟨[], rfl, by simp, rfl, rfl, rfl, rfl⟩
  | cons f fs ih =>
    obtain ⟨k, hk, h1, h2, h3, h4, -, -, -⟩ := C28_level_scale h.gen f
    obtain ⟨ks, i1, i2, i3, i4, i5, i6⟩ := ih (h.modifyScale f)
    refine ⟨k :: ks, by simp [i1], ?_, ?_, i4, i5, i6⟩
    · intro i f' k' hf' hk'
      cases i with
      | zero =>
        simp only [List.getElem?_cons_zero, Option.some.injEq] at hf' hk'
        subst hf' hk'
        exact ⟨h1, h2, h3, h4⟩
      | succ i => exact i2 i f' k' (by simpa using hf') (by simpa using hk')
    · rw [List.foldl_cons, i3, List.foldl_cons]
      show ks.foldl F64.mul (h.gen.modifyLevelScale f).scale = _
      rw [hk]
      rfl

/-- the scale of an index of four points after a call with 0.5 and one with NaN -/
example : (([⟨false, Fin.ofNat _ 0x3fe0000000000000⟩, F64.nan] : List F64).foldl Hnsw.modifyScale io4).getLevelScale =
    F64.mul (F64.mul io4.getLevelScale ⟨false, Fin.ofNat _ 0x3fe0000000000000⟩) F64.fifth ∧
    (([⟨false, Fin.ofNat _ 0x3fe0000000000000⟩, F64.nan] : List F64).foldl Hnsw.modifyScale io4).getLevelScale ≠
      io4.getLevelScale := by decide +kernel

end Verif
