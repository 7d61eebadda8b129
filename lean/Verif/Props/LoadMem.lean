import Verif.LoadMem
import Verif.Props.Bounds

set_option autoImplicit false

/-!
# C138: memory asked by a reload
-/

namespace Verif
variable {T : Type}

/-- **C138.** A reload that succeeds asks for no block larger than the data file or twice the graph file: if blocks of these
sizes can be had, the requests change nothing. Holds for any bytes in the files, with or without memory map. -/
theorem C138_fits_partial (P : Policy T) (ty : Ty T) (defScale : Nat → F64) (dist : Dist T) (io : HnswIo) (fs : Dir) (room : Nat)
    (x : Loaded T) (h : (io.loadHnsw P ty defScale dist fs).2 = .ok x)
    (hg : ∀ g, fs (io.base ++ ".hnsw.graph") = some g → 2 * g.length ≤ room ∧ 2 * g.length < 2 ^ 63)
    (hb : ∀ b, fs (io.base ++ ".hnsw.data") = some b → b.length ≤ room ∧ b.length < 2 ^ 63) :
    io.loadHnswMem room P ty defScale dist fs = .ok x := by
  have hb1 : ∀ b, fs (dataName io.base) = some b → Room1 room 1 b := fun b h => by
    have := hb b h
    exact ⟨by omega, by omega⟩
  unfold HnswIo.loadHnsw at h
  unfold HnswIo.loadHnswMem
  cases hi : io.init fs with
  | error e => simp only [hi] at h; cases h
  | ok r =>
    obtain ⟨d, s⟩ := r
    simp only [hi] at h ⊢
    cases hh : loadDataHeader d s with
    | error e => simp only [hh] at h; cases h
    | ok r =>
      obtain ⟨u, s1⟩ := r
      simp only [hh] at h ⊢
      cases hc : checkDist ty dist.name d with
      | error e => simp only [hc] at h; cases h
      | ok _ =>
        simp only [hc] at h ⊢
        cases hm : io.mapData ty fs with
        | error e => simp only [hm] at h; cases h
        | ok io' =>
          simp only [hm] at h
          rw [mapDataMem_up ty hb1 hm]
          simp only
          cases hl : loadIndexation P ty d io'.datamap io'.opts s1 with
          | error e => simp only [hl] at h; cases h
          | ok r =>
            obtain ⟨⟨idx, m⟩, s2⟩ := r
            simp only [hl] at h
            have hk : Room2 room s1 := room_after hg hb hi hh
            rw [(fit_indexation P ty d io'.datamap io'.opts).up hk hl]
            exact h

/-- **C138.** Whatever the memory, a reload gives nothing else than what the files hold. -/
theorem C138_only (P : Policy T) (ty : Ty T) (defScale : Nat → F64) (dist : Dist T) (io : HnswIo) (fs : Dir) (room : Nat)
    (x : Loaded T) (h : io.loadHnswMem room P ty defScale dist fs = .ok x) :
    (io.loadHnsw P ty defScale dist fs).2 = .ok x := by
  unfold HnswIo.loadHnswMem at h
  unfold HnswIo.loadHnsw
  cases hi : io.init fs with
  | error e => simp only [hi] at h; cases h
  | ok r =>
    obtain ⟨d, s⟩ := r
    simp only [hi] at h ⊢
    cases hh : loadDataHeader d s with
    | error e => simp only [hh] at h; cases h
    | ok r =>
      obtain ⟨u, s1⟩ := r
      simp only [hh] at h ⊢
      cases hc : checkDist ty dist.name d with
      | error e => simp only [hc] at h; cases h
      | ok _ =>
        simp only [hc] at h ⊢
        cases hm : io.mapDataMem room ty fs with
        | error e => simp only [hm] at h; cases h
        | ok io' =>
          simp only [hm] at h
          rw [mapDataMem_down ty hm]
          simp only
          cases hl : loadIndexationMem room P ty d io'.datamap io'.opts s1 with
          | error e => simp only [hl] at h; cases h
          | ok r =>
            obtain ⟨⟨idx, m⟩, s2⟩ := r
            simp only [hl] at h
            rw [(fit_indexation P ty d io'.datamap io'.opts).down hl]
            exact h

/-- how a reload with requests fails -/
def failsAt (room : Nat) (fs : Dir) : Option Fail :=
  match (HnswIo.new "a" .default).loadHnswMem room (listPolicy UInt8) u8Ty exScale u8Dist fs with
  | .ok _ => none
  | .error e => some e

/-- **C138.** An `Err` given by a reload is one that the files cause, whatever the memory, and requests that fail cause no read
out of bounds. -/
theorem C138_err (P : Policy T) (ty : Ty T) (defScale : Nat → F64) (dist : Dist T) (io : HnswIo) (fs : Dir) (room : Nat)
    (e : Fail) (he : e = .err ∨ e = .ub) (h : io.loadHnswMem room P ty defScale dist fs = .error e) :
    (io.loadHnsw P ty defScale dist fs).2 = .error e := by
  unfold HnswIo.loadHnswMem at h
  unfold HnswIo.loadHnsw
  cases hi : io.init fs with
  | error y => simp only [hi] at h ⊢; exact h
  | ok r =>
    obtain ⟨d, s⟩ := r
    simp only [hi] at h ⊢
    cases hh : loadDataHeader d s with
    | error y => simp only [hh] at h ⊢; exact h
    | ok r =>
      obtain ⟨u, s1⟩ := r
      simp only [hh] at h ⊢
      cases hc : checkDist ty dist.name d with
      | error y => simp only [hc] at h ⊢; exact h
      | ok _ =>
        simp only [hc] at h ⊢
        cases hm : io.mapDataMem room ty fs with
        | error y =>
          simp only [hm] at h
          injection h with h
          rw [h] at hm
          rw [mapDataMem_same ty he hm]
        | ok io' =>
          simp only [hm] at h
          rw [mapDataMem_down ty hm]
          simp only
          cases hl : loadIndexationMem room P ty d io'.datamap io'.opts s1 with
          | error y =>
            simp only [hl] at h
            injection h with h
            rw [h] at hl
            rw [(fit_indexation P ty d io'.datamap io'.opts).same hl he]
          | ok r =>
            obtain ⟨⟨idx, m⟩, s2⟩ := r
            simp only [hl] at h
            cases h

/-- the hypothesis is met: one byte of the magic number of a layer -/
example : failsAt (2 ^ 50) (damaged 92 16) = some .err := by decide +kernel

/-- **C138** (`load_hnsw_with_dist`) The same for both. -/
theorem C138_with_dist_partial (P : Policy T) (ty : Ty T) (defScale : Nat → F64) (dist : Dist T) (io : HnswIo) (fs : Dir)
    (room : Nat) (x : Loaded T) :
    (io.loadHnswWithDistMem room P ty defScale dist fs = .ok x → io.loadHnswWithDist P ty defScale dist fs = .ok x) ∧
    ((∀ g, fs (io.base ++ ".hnsw.graph") = some g → 2 * g.length ≤ room ∧ 2 * g.length < 2 ^ 63) →
      (∀ b, fs (io.base ++ ".hnsw.data") = some b → b.length ≤ room ∧ b.length < 2 ^ 63) →
      io.loadHnswWithDist P ty defScale dist fs = .ok x → io.loadHnswWithDistMem room P ty defScale dist fs = .ok x) := by
  unfold HnswIo.loadHnswWithDist HnswIo.loadHnswWithDistMem
  cases hi : io.init fs with
  | error e => exact ⟨fun h => (nomatch h), fun _ _ h => (nomatch h)⟩
  | ok r =>
    obtain ⟨d, s⟩ := r
    simp only
    cases hh : loadDataHeader d s with
    | error e => exact ⟨fun h => (nomatch h), fun _ _ h => (nomatch h)⟩
    | ok r =>
      obtain ⟨u, s1⟩ := r
      simp only
      split
      · exact ⟨fun h => (nomatch h), fun _ _ h => (nomatch h)⟩
      refine ⟨fun h => ?_, fun hg hb h => ?_⟩
      · cases hl : loadIndexationMem room P ty d io.datamap io.opts s1 with
        | error e => simp only [hl] at h; cases h
        | ok r =>
          obtain ⟨⟨idx, m⟩, s2⟩ := r
          simp only [hl] at h
          rw [(fit_indexation P ty d io.datamap io.opts).down hl]
          exact h
      · cases hl : loadIndexation P ty d io.datamap io.opts s1 with
        | error e => simp only [hl] at h; cases h
        | ok r =>
          obtain ⟨⟨idx, m⟩, s2⟩ := r
          simp only [hl] at h
          rw [(fit_indexation P ty d io.datamap io.opts).up (room_after hg hb hi hh) hl]
          exact h

/-- how a reload fails, with and without the requests -/
def failsMem (room : Nat) (fs : Dir) : Option Fail × Option Fail :=
  (failsAt room fs,
   match ((HnswIo.new "a" .default).loadHnsw (listPolicy UInt8) u8Ty exScale u8Dist fs).2 with
    | .ok _ => none
    | .error e => some e)

/-- The hypotheses are met: the undamaged files (byte 102 of the graph file is 0) have 1165 and 100 bytes and are reloaded with
blocks of 2330 bytes, and so is a dump with a damaged neighbour (byte 137). Blocks of 71 bytes do not suffice: a list of three
neighbours takes 72. -/
example :
    failsMem 2330 (damaged 102 0) = (none, none) ∧ failsMem 2330 (damaged 137 0) = (none, none) ∧
      (damaged 102 0 "a.hnsw.graph").map List.length = some 1165 ∧
      (damaged 102 0 "a.hnsw.data").map List.length = some 100 ∧
      failsMem 71 (damaged 102 0) = (some .exit, none) := by
  decide +kernel

/-- **C138, why partial.** The claim that the memory asked by a reload is bounded by the size of the files fails for damaged
files. In a graph file of 1165 bytes one byte of the number of points of a layer (101 or 102) makes `load_hnsw` ask for more than
`2^50` bytes, which aborts the process, or for more than `isize::MAX` bytes, which panics whatever the memory; without the
requests the wrong number is found while reading and both give `Err`. One byte of the length of a list (126) or of a vector (31
of the data file) does the same. -/
theorem C138_refuted :
    failsMem (2 ^ 50) (damaged 101 16) = (some .exit, some .err) ∧
      failsMem (2 ^ 64) (damaged 102 16) = (some .panic, some .err) ∧
      failsMem (2 ^ 50) (damaged 126 16) = (some .exit, some .panic) ∧
      failsMem (2 ^ 64) (damagedData 31 200) = (some .panic, some .exit) ∧
      (damaged 101 16 "a.hnsw.graph").map List.length = some 1165 := by
  decide +kernel

end Verif
