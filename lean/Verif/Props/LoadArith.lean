import Verif.LoadArith
import Verif.Props.MapArith
import Verif.Props.Layout
import Verif.HeaderLemmas

set_option autoImplicit false

/-!
# C141: a reload in builds with and without overflow checks
-/

namespace Verif
variable {T : Type} {P : Policy T} {ty : Ty T} {defScale : Nat → F64} {dist : Dist T}

/-- the number of points announced by the graph file is not `2^63` -/
def CountFits (fs : Dir) (base : String) : Prop :=
  ∀ g d g', fs (graphName base) = some g → loadDescr g = .ok (d, g') → d.nbPoint.toNat ≠ 2 ^ 63

/-- **C141** (where it holds) `load_hnsw` gives the same result, and leaves the same `HnswIo`, in builds with and without overflow
checks, for any files whose announced number of points is not `2^63` (no condition with checks) and, with a memory map, whose dimension
makes a record of less than `2^64` bytes; this is the result of `loadHnsw`, of which the other theorems speak.  Missing: the other
files, for which it is false (`C141_refuted`). -/
theorem C141_same_partial (checks : Bool) (io : HnswIo) (fs : Dir)
    (hn : checks = true ∨ CountFits fs io.base)
    (hov : io.opts.datamap = true → ∀ b, fs (dataName io.base) = some b → 20 + ofLE ((b.drop 4).take 8) * ty.size < 2 ^ 64) :
    io.loadHnswU checks P ty defScale dist fs = io.loadHnsw P ty defScale dist fs := by
  unfold HnswIo.loadHnswU HnswIo.loadHnsw
  rw [mapDataU_eq hov]
  cases hi : io.init fs with
  | error e => rfl
  | ok x =>
    obtain ⟨d, s⟩ := x
    obtain ⟨g, g', h1, h2⟩ := init_descr hi
    simp only [loadIndexationU_eq (P := P) (ty := ty) (hn.imp_right fun h => h g d g' h1 h2)]
    rfl

/-- **C141** (where it holds) The same for `load_hnsw_with_dist`, which makes no map. -/
theorem C141_with_dist_partial (checks : Bool) (io : HnswIo) (fs : Dir)
    (hn : checks = true ∨ CountFits fs io.base) :
    io.loadHnswWithDistU checks P ty defScale dist fs = io.loadHnswWithDist P ty defScale dist fs := by
  unfold HnswIo.loadHnswWithDistU HnswIo.loadHnswWithDist
  cases hi : io.init fs with
  | error e => rfl
  | ok x =>
    obtain ⟨d, s⟩ := x
    obtain ⟨g, g', h1, h2⟩ := init_descr hi
    simp only [loadIndexationU_eq (P := P) (ty := ty) (hn.imp_right fun h => h g d g' h1 h2)]
    rfl

/-- **C141** (where it holds) Whatever the dimension, an index that is returned is the one that `loadHnsw` returns. -/
theorem C141_ok_partial (checks : Bool) (io io' : HnswIo) (fs : Dir) (x : Loaded T)
    (hn : checks = true ∨ CountFits fs io.base)
    (hb : ∀ b, fs (dataName io.base) = some b → b.length + 20 < 2 ^ 64)
    (h : io.loadHnswU checks P ty defScale dist fs = (io', .ok x)) :
    io.loadHnsw P ty defScale dist fs = (io', .ok x) := by
  unfold HnswIo.loadHnswU at h
  unfold HnswIo.loadHnsw
  cases hi : io.init fs with
  | error e => rw [hi] at h; cases h
  | ok y =>
    obtain ⟨d, s⟩ := y
    obtain ⟨g, g', h1, h2⟩ := init_descr hi
    simp only [hi, loadIndexationU_eq (P := P) (ty := ty) (hn.imp_right fun h => h g d g' h1 h2)] at h ⊢
    cases hd : loadDataHeader d s with
    | error e => simp only [hd] at h; cases h
    | ok y =>
      obtain ⟨u, s⟩ := y
      simp only [hd] at h ⊢
      cases hc : checkDist ty dist.name d with
      | error e => simp only [hc] at h; cases h
      | ok y =>
        simp only [hc] at h ⊢
        cases hm : io.mapDataU checks ty fs with
        | error e => simp only [hm] at h; cases h
        | ok io2 =>
          simp only [hm] at h
          rw [mapDataU_ok hb hm]
          exact h

/-- **C141** What a build without checks returns for `2^63` announced points: without memory map, an index returned for any announced
number is the one that `loadIndexation` reads from the same bytes for each announced number from the number of its points to
`2^63 - 1`.  (The second line of `C141_refuted` is such a reload.) -/
theorem C141_count (checks : Bool) (d : Descr) (dm : Option DataMap) (o : ReloadOptions) (s s' : Two) (idx : Idx T) (m : List Bool)
    (ho : o.datamap = false) (h : loadIndexationU checks P ty d dm o s = .ok ((idx, m), s')) (k : UInt64)
    (hk : idx.nbPoint ≤ k.toNat) (hk' : k.toNat < 2 ^ 63) :
    loadIndexation P ty { d with nbPoint := k } dm o s = .ok ((idx, m), s') :=
  loadIndexationU_count ho h hk hk'

theorem count_lt {ty : Ty T} {h : Hnsw T} (hs : Sizes ty h) (h16 : h.idx.layers.length = 16) :
    h.idx.points.length ≤ 16 * 2 ^ 31 := by
  have : ∀ ls : List (List (Ref T)), (∀ l ∈ ls, l.length < 2 ^ 31) → ls.flatten.length ≤ ls.length * 2 ^ 31 := by
    intro ls
    induction ls with
    | nil => intro _; simp
    | cons l ls ih =>
      intro hl
      have h1 := hl l (List.mem_cons_self ..)
      have h2 := ih fun x hx => hl x (List.mem_cons_of_mem _ hx)
      rw [List.flatten_cons, List.length_append, List.length_cons]
      omega
  have h1 := this h.idx.layers hs.ranks
  rw [h16] at h1
  exact h1

/-- **C141** For the files that the library writes no condition is left but that a record of the data file has less than `2^64` bytes:
whatever the options, type, distance and build, the result of a reload is that of `loadHnsw`. -/
theorem C141_dump {T' : Type} {P' : Policy T'} (L : P'.Lawful) {ty' : Ty T'} (hT : ty'.Lawful) (hnd : ty'.noData = false)
    {scale' : Nat → F64} {ml : Nat} {h : Hnsw T'} {c : CSt T'} (hr : HReach P' ty' scale' ml h c) (hs : Sizes ty' h)
    {fs fs' : Dir} {base name : String} {draws : List Nat} (hfd : fileDump ty' h fs base draws = some (fs', .ok name))
    (hov : 20 + getDataDimension h.idx * ty.size < 2 ^ 64) (checks : Bool) (io : HnswIo) (hio : io.base = name) :
    io.loadHnswU checks P ty defScale dist fs' = io.loadHnsw P ty defScale dist fs' ∧
    io.loadHnswWithDistU checks P ty defScale dist fs' = io.loadHnswWithDist P ty defScale dist fs' := by
  obtain ⟨e, he, h16, -, hd⟩ := C77_layout L hT hnd hr hs hfd
  have hk := hr.ok L hT hnd
  obtain ⟨-, hres, -, hf⟩ := fileDump_ok hfd
  have hdd := hk.dumped L hs hres
  have hdim : getDataDimension h.idx = e.data.length := by unfold getDataDimension; rw [he]
  subst hio
  have hc : CountFits fs' io.base := by
    intro g d g' h1 h2
    obtain ⟨g2, g2', h3, h4⟩ := init_descr (FilesAt.init hdd he hf)
    rw [h1] at h3
    injection h3 with h3
    subst h3
    rw [h2] at h4
    injection h4 with h4
    injection h4 with h4 _
    subst h4
    have := count_lt hs h16
    have hcount : h.idx.nbPoint = h.idx.points.length := hdd.idx.count
    show (UInt64.ofNat (getNbPoint h.idx)).toNat ≠ 2 ^ 63
    rw [UInt64.toNat_ofNat', show getNbPoint h.idx = h.idx.nbPoint from rfl]
    omega
  refine ⟨C141_same_partial checks io fs' (.inr hc) fun _ b hb => ?_, C141_with_dist_partial checks io fs' (.inr hc)⟩
  have hb' := hd.symm.trans hb
  injection hb' with hb'
  subst hb'
  have h8 : ((([0x00, 0x00, 0x7f, 0xa6] : Bytes) ++ le 8 e.data.length ++
      h.idx.points.flatMap fun p => dataRecord (p.origin, p.data.flatMap ty'.enc)).drop 4).take 8 = le 8 e.data.length := by
    rw [List.append_assoc]
    show List.take 8 (le 8 e.data.length ++ _) = _
    rw [List.take_left' (by simp [le])]
  rw [h8, ← leBytes_le 8, ofLE_leBytes (by have := hdd.dim_lt; omega), ← hdim]
  exact hov

/-- the dump of `io4` with another number of points in the header -/
def withCount (k : Nat) : Dir := fun n =>
  match fileDump u8Ty io4 (fun _ => none) "a" [] with
  | some (fs, _) => if n = "a.hnsw.graph" then (fs n).map fun g => g.take 23 ++ le 8 k ++ g.drop 31 else fs n
  | none => none

/-- number of points of a reloaded index and how many are mapped, or the failure -/
def pointsU (checks : Bool) (o : ReloadOptions) (fs : Dir) : Except Fail (Nat × Nat) :=
  (((HnswIo.new "a" o).loadHnswU checks (listPolicy UInt8) u8Ty exScale u8Dist fs).2).map fun x =>
    (x.hnsw.idx.nbPoint, x.mapped.count true)

/-- is it this? -/
def givesU (r e : Except Fail (Nat × Nat)) : Bool :=
  match r, e with
  | .ok n, .ok k => decide (n = k)
  | .error a, .error b => decide (a = b)
  | _, _ => false

/-- `C141_dump` for the dump of the index `io4` -/
example (fs' : Dir) (hfd : fileDump u8Ty io4 (fun _ => none) "a" [] = some (fs', .ok "a")) (checks : Bool) (o : ReloadOptions) :
    (HnswIo.new "a" o).loadHnswU checks (listPolicy UInt8) u8Ty exScale u8Dist fs' =
      (HnswIo.new "a" o).loadHnsw (listPolicy UInt8) u8Ty exScale u8Dist fs' := by
  obtain ⟨c, hr⟩ := io4_reach
  exact (C141_dump listPolicy_lawful u8Ty_lawful rfl hr io4_sizes hfd (by decide +kernel) checks (HnswIo.new "a" o) rfl).1

example : (fileDump u8Ty io4 (fun _ => none) "a" []).map (fun x => x.2.toOption) = some (some "a") := by decide +kernel

/-- The hypotheses are met: with 4 points announced, or more, both builds return the 4 points, in memory or mapped; with 3 or `2^63 + 1`
both panic. -/
example :
    (∀ c, givesU (pointsU c .default (withCount 4)) (.ok (4, 0)) = true) ∧
    (∀ c, givesU (pointsU c ⟨true, 2⟩ (withCount 4)) (.ok (4, 2)) = true) ∧
    (∀ c, givesU (pointsU c .default (withCount (2 ^ 63 - 1))) (.ok (4, 0)) = true) ∧
    (∀ c, givesU (pointsU c .default (withCount 3)) (.error .panic) = true) ∧
    (∀ c, givesU (pointsU c .default (withCount (2 ^ 63 + 1))) (.error .panic) = true) := by
  decide +kernel

/-- **C141** is false for `2^63` announced points: a build with checks panics, one without returns the index; with a memory map the
first point is in memory and the other three are mapped.  With `2^64 - 1` for the dimension and a memory map, the build without checks
reads beyond a record and the one with checks panics. -/
theorem C141_refuted :
    givesU (pointsU true .default (withCount (2 ^ 63))) (.error .panic) = true ∧
    givesU (pointsU false .default (withCount (2 ^ 63))) (.ok (4, 0)) = true ∧
    givesU (pointsU false ⟨true, 2⟩ (withCount (2 ^ 63))) (.ok (4, 3)) = true ∧
    givesU (pointsU true ⟨true, 2⟩ (withDim (2 ^ 64 - 1))) (.error .panic) = true ∧
    givesU (pointsU false ⟨true, 2⟩ (withDim (2 ^ 64 - 1))) (.error .ub) = true := by
  decide +kernel

end Verif
