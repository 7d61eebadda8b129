import Verif.MapArith
import Verif.Props.AnyBytes

set_option autoImplicit false

/-!
# C140: arithmetic of the map
-/

namespace Verif
variable {T : Type} {ty : Ty T}

/-- **C140** (where it holds) When the size of a record, computed with the dimension written in the data file, fits in `usize`,
`DataMap::from_hnswdump` gives in a build with overflow checks, and in one without, what exact arithmetic gives, for any files.
Missing: dimensions for which it does not fit, for which the claim is false (`C140_refuted`). -/
theorem C140_same_partial (checks : Bool) (fs : Dir) (base : String)
    (hov : ∀ b, fs (dataName base) = some b → 20 + ofLE ((b.drop 4).take 8) * ty.size < 2 ^ 64) :
    DataMap.fromDumpU checks ty fs base = DataMap.fromDump ty fs base :=
  fromDumpU_small checks ty fs base hov

/-- **C140** With overflow checks the only other outcome is a panic, whatever the dimension. -/
theorem C140_checked (fs : Dir) (base : String) (hb : ∀ b, fs (dataName base) = some b → b.length + 20 < 2 ^ 64) :
    DataMap.fromDumpU true ty fs base = DataMap.fromDump ty fs base ∨
      DataMap.fromDumpU true ty fs base = .error .panic := by
  cases hd : fs (dataName base) with
  | none => exact .inl (fromDumpU_small _ _ _ _ fun b h => by rw [hd] at h; cases h)
  | some b =>
    by_cases hov : 20 + ofLE ((b.drop 4).take 8) * ty.size < 2 ^ 64
    · refine .inl (fromDumpU_small _ _ _ _ fun b' h => ?_)
      rw [hd] at h
      injection h with h
      subst h
      exact hov
    · rcases fromDumpU_large true ty fs base hd (by omega) (hb b hd) with h | ⟨-, h | ⟨h, -⟩⟩
      · exact .inl h
      · exact .inr h
      · cases h

/-- **C140** A map that is made is, in both builds, the map of exact arithmetic: a wrapped size never makes a wrong map. -/
theorem C140_map (checks : Bool) (fs : Dir) (base : String) (m : DataMap)
    (hb : ∀ b, fs (dataName base) = some b → b.length + 20 < 2 ^ 64)
    (h : DataMap.fromDumpU checks ty fs base = .ok m) : DataMap.fromDump ty fs base = .ok m := by
  cases hd : fs (dataName base) with
  | none => rw [← fromDumpU_small checks ty fs base fun b h => by rw [hd] at h; cases h]; exact h
  | some b =>
    by_cases hov : 20 + ofLE ((b.drop 4).take 8) * ty.size < 2 ^ 64
    · rw [← fromDumpU_small checks ty fs base fun b' h => ?_]
      · exact h
      rw [hd] at h
      injection h with h
      subst h
      exact hov
    · rcases fromDumpU_large checks ty fs base hd (by omega) (hb b hd) with h' | ⟨-, h' | ⟨-, e, -, h'⟩⟩
      · rw [← h']; exact h
      · rw [h'] at h; cases h
      · rw [h'] at h; cases h

/-- **C140** So what C76 says of a map made from any files holds in both builds, without its condition on the dimension. -/
theorem C140_any (checks : Bool) (fs : Dir) (base : String) (m : DataMap)
    (hb : ∀ b, fs (dataName base) = some b → b.length + 20 < 2 ^ 64)
    (h : DataMap.fromDumpU checks ty fs base = .ok m) :
    ∃ (g b : Bytes) (d : Descr) (g' : Bytes) (rs : List (DataId × Bytes)) (tail : Bytes),
      fs (graphName base) = some g ∧ fs (dataName base) = some b ∧ loadDescr g = .ok (d, g') ∧
      3 ≤ d.version ∧ d.tName = ty.name ∧ m.tName = ty.name ∧ m.distName = d.distName ∧
      m.dim = d.dim.toNat ∧
      b = [0x00, 0x00, 0x7f, 0xa6] ++ le 8 m.dim ++ rs.flatMap dataRecord ++ tail ∧
      tail.length < 20 + m.dim * ty.size ∧
      m.ids.Nodup ∧ m.ids.Sublist (rs.map (·.1)) ∧ (∀ id, id ∈ m.ids ↔ id ∈ rs.map (·.1)) ∧
      m.nbData = m.ids.length ∧
      ∀ id, (id ∉ rs.map (·.1) → m.getData ty id = .ok none) ∧
        (id ∈ rs.map (·.1) → ∃ r1 w r2 v, rs = r1 ++ (id, w) :: r2 ∧ id ∉ r2.map (·.1) ∧
          m.getData ty id = .ok (some v) ∧ Decodes ty m.dim w v) :=
  map_any_bytes fs base m (C140_map checks fs base m hb h)

/-- the dump of `io4` with the dimension replaced in the headers of both files -/
def withDim (dim : Nat) : Dir := fun n =>
  match fileDump u8Ty io4 (fun _ => none) "a" [] with
  | some (fs, _) =>
    if n = "a.hnsw.graph" then (fs n).map fun g => g.take 31 ++ le 8 dim ++ g.drop 39
    else if n = "a.hnsw.data" then (fs n).map fun g => g.take 4 ++ le 8 dim ++ g.drop 12
    else fs n
  | none => none

/-- number of ids of a map, or the failure -/
def mapSize (r : Except Fail DataMap) : Except Fail Nat := r.map (·.nbData)

/-- is it this? -/
def sizeIs (r : Except Fail DataMap) (e : Except Fail Nat) : Bool :=
  match mapSize r, e with
  | .ok n, .ok k => n == k
  | .error a, .error b => decide (a = b)
  | _, _ => false

/-- The hypotheses are met: the dump itself, of dimension 2, gives a map of 4 vectors in both builds; with the dimension 1 it gives
a map of 4 vectors too. -/
example :
    (∀ c, sizeIs (DataMap.fromDumpU c u8Ty (withDim 2) "a") (.ok 4) = true) ∧
    (∀ c, sizeIs (DataMap.fromDumpU c u8Ty (withDim 1) "a") (.ok 4) = true) ∧
    (withDim 2 "a.hnsw.data").map (fun b => (b.length, 20 + ofLE ((b.drop 4).take 8) * u8Ty.size)) = some (100, 22) := by
  decide +kernel

/-- **C140** is false for other dimensions.  With the dimension `2^64 - 1` in the headers of a dump of bytes the size of a record is 19
without checks: the first record is read far beyond its end.  With checks it is a panic.  Exact arithmetic gives an empty map.  With
the dimension `2^64 - 20` the size is 0 and the division panics in both builds. -/
theorem C140_refuted :
    sizeIs (DataMap.fromDumpU false u8Ty (withDim (2 ^ 64 - 1)) "a") (.error .ub) = true ∧
    sizeIs (DataMap.fromDumpU true u8Ty (withDim (2 ^ 64 - 1)) "a") (.error .panic) = true ∧
    sizeIs (DataMap.fromDump u8Ty (withDim (2 ^ 64 - 1)) "a") (.ok 0) = true ∧
    (∀ c, sizeIs (DataMap.fromDumpU c u8Ty (withDim (2 ^ 64 - 20)) "a") (.error .panic) = true) ∧
    sizeIs (DataMap.fromDump u8Ty (withDim (2 ^ 64 - 20)) "a") (.ok 0) = true := by
  decide +kernel

end Verif
