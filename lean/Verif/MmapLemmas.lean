import Verif.HeaderLemmas

set_option autoImplicit false

/-!
# Which points are mapped, names of types
-/

namespace Verif
variable {T : Type}

theorem loadPoint_mapped {ty : Ty T} {d : Descr} {dm : Option DataMap} {mm : Bool} {s s' : Two}
    {p : PointRec T} (h : loadPoint ty d dm mm s = .ok (p, s')) : p.mapped = mm := by
  unfold loadPoint at h
  simp only [Bind.bind, Rd.bind] at h
  split at h
  · cases h
  · cases mm with
    | true =>
      simp only [if_true, Rd.bind] at h
      split at h
      · cases h
      · split at h
        · cases h
        · injection h with h
          rw [Prod.mk.injEq] at h
          rw [← h.1]
    | false =>
      simp only [Bool.false_eq_true, if_false, Rd.bind] at h
      split at h
      · cases h
      · injection h with h
        rw [Prod.mk.injEq] at h
        rw [← h.1]

/-- the flags of `n` points, `still` being left -/
def flagsFrom (o : ReloadOptions) (still : Int) (n : Nat) : List Bool :=
  (List.range n).map fun i => pointUseMmap o (still - (i : Nat))

theorem flagsFrom_succ (o : ReloadOptions) (still : Int) (n : Nat) :
    flagsFrom o still (n + 1) = pointUseMmap o still :: flagsFrom o (still - 1) n := by
  unfold flagsFrom
  rw [List.range_succ_eq_map, List.map_cons, List.map_map]
  congr 1
  · simp
  · refine List.map_congr_left fun i _ => ?_
    simp only [Function.comp_apply]
    congr 1
    omega

theorem flagsFrom_append (o : ReloadOptions) (still : Int) (n m : Nat) :
    flagsFrom o still (n + m) = flagsFrom o still n ++ flagsFrom o (still - n) m := by
  induction n generalizing still with
  | zero => simp [flagsFrom]
  | succ n ih =>
    rw [show n + 1 + m = (n + m) + 1 by omega, flagsFrom_succ, flagsFrom_succ, ih, List.cons_append]
    congr 3
    omega

theorem loadPoints_flags {ty : Ty T} {d : Descr} {dm : Option DataMap} {o : ReloadOptions} {l : Nat}
    {n r : Nat} {still : Int} {s : Two} {ps : List (PointRec T)} {still' : Int} {s' : Two}
    (h : loadPoints ty d dm o l n r still s = .ok ((ps, still'), s')) :
    ps.length = n ∧ still' = still - n ∧ ps.map (·.mapped) = flagsFrom o still n ∧
      (0 ≤ still → 0 ≤ still') := by
  induction n generalizing r still s ps still' s' with
  | zero =>
    unfold loadPoints at h
    injection h with h
    simp only [Prod.mk.injEq] at h
    rw [← h.1.1, ← h.1.2]
    simp [flagsFrom]
  | succ n ih =>
    unfold loadPoints at h
    simp only [Bind.bind, Rd.bind, Rd.require] at h
    split at h
    · cases h
    · rename_i p s1 hp
      split at h
      · cases h
      · split at h
        · cases h
        · rename_i q2
          split at h
          · cases h
          · rename_i x3 hreq
            split at h
            · cases h
            · rename_i y s4 hy
              injection h with h
              simp only [Prod.mk.injEq] at h
              have hge : 0 ≤ still - 1 := by
                split at hreq
                · simp_all
                · cases hreq
              obtain ⟨h1, h2, h3, h4⟩ := ih hy
              rw [← h.1.1, ← h.1.2]
              refine ⟨by simp [h1], ?_, ?_, fun _ => h4 hge⟩
              · rw [h2]; simp only [Int.natCast_add]; omega
              · rw [List.map_cons, h3, flagsFrom_succ, loadPoint_mapped hp]

theorem loadLayers_flags {ty : Ty T} {d : Descr} {dm : Option DataMap} {o : ReloadOptions}
    {n l : Nat} {still : Int} {s : Two} {rs : List (List (PointRec T))} {s' : Two}
    (h : loadLayers ty d dm o n l still s = .ok (rs, s')) (h0 : 0 ≤ still) :
    rs.flatten.map (·.mapped) = flagsFrom o still rs.flatten.length ∧
      (rs.flatten.length : Int) ≤ still := by
  induction n generalizing l still s rs s' with
  | zero =>
    unfold loadLayers at h
    injection h with h
    simp only [Prod.mk.injEq] at h
    rw [← h.1]
    simp [flagsFrom, h0]
  | succ n ih =>
    unfold loadLayers at h
    simp only [Bind.bind, Rd.bind, Rd.require] at h
    split at h
    · cases h
    · split at h
      · cases h
      · split at h
        · cases h
        · split at h
          · cases h
          · rename_i y s4 hy
            split at h
            · cases h
            · rename_i ls s5 hls
              injection h with h
              simp only [Prod.mk.injEq] at h
              obtain ⟨h1, h2, h3, h4⟩ := loadPoints_flags hy
              obtain ⟨h5, h6⟩ := ih hls (h4 h0)
              rw [← h.1]
              simp only [List.flatten_cons, List.map_append, List.length_append]
              rw [h3, h5, h1, flagsFrom_append, h2]
              refine ⟨rfl, ?_⟩
              rw [h2] at h6
              simp only [Int.natCast_add]
              omega

theorem loadIndexation_flags {P : Policy T} {ty : Ty T} {d : Descr} {dm : Option DataMap}
    {o : ReloadOptions} {s s' : Two} {idx : Idx T} {m : List Bool}
    (h : loadIndexation P ty d dm o s = .ok ((idx, m), s')) (h0 : 0 ≤ asI64 d.nbPoint.toNat) :
    m = flagsFrom o (asI64 d.nbPoint.toNat) idx.points.length ∧
      (idx.points.length : Int) ≤ asI64 d.nbPoint.toNat := by
  unfold loadIndexation at h
  simp only [Bind.bind, Rd.bind, Rd.require] at h
  split at h
  · cases h
  · split at h
    · cases h
    · split at h
      · cases h
      · split at h
        · cases h
        · rename_i recs s1 hrecs
          split at h
          · cases h
          · split at h
            · cases h
            · split at h
              · cases h
              · split at h
                · cases h
                · split at h
                  · cases h
                  · injection h with h
                    simp only [Prod.mk.injEq] at h
                    obtain ⟨h1, h2⟩ := loadLayers_flags hrecs h0
                    have hp : idx.points.length = recs.flatten.length := by
                      rw [← h.1.1]
                      simp only [Idx.points, mkIdx]
                      rw [← List.map_flatten, List.length_map]
                    rw [← h.1.2, hp]
                    exact ⟨h1, h2⟩

/-- the flags with a threshold: all mapped but the last ones -/
theorem flagsFrom_threshold {t n : Nat} (ht : t < 2 ^ 63) :
    flagsFrom ⟨true, t⟩ n n = List.replicate (n - min t n) true ++ List.replicate (min t n) false := by
  have has : asI64 t = t := by unfold asI64; rw [if_pos ht]
  have hall : ∀ (k : Nat) (s : Int), s ≤ t → flagsFrom ⟨true, t⟩ s k = List.replicate k false := by
    intro k
    induction k with
    | zero => intro s _; rfl
    | succ k ih =>
      intro s hs
      rw [flagsFrom_succ, ih _ (by omega), List.replicate_succ]
      congr 1
      simp [pointUseMmap, has, hs]
  induction n with
  | zero => simp [flagsFrom]
  | succ n ih =>
    by_cases hle : n + 1 ≤ t
    · rw [hall _ _ (by omega), Nat.min_eq_right hle]
      simp
    · rw [flagsFrom_succ]
      have e1 : (((n + 1 : Nat) : Int) - 1) = (n : Nat) := by omega
      rw [e1, ih, Nat.min_eq_left (by omega), Nat.min_eq_left (by omega),
        show n + 1 - t = (n - t) + 1 by omega, List.replicate_succ, List.cons_append]
      congr 1
      simp only [pointUseMmap, has, Bool.true_and, Bool.not_eq_eq_eq_not, Bool.not_true, decide_eq_false_iff_not]
      omega

theorem load_flags {P : Policy T} {ty : Ty T} {defScale : Nat → F64} {dist : Dist T}
    {io io' : HnswIo} {fs : Dir} {x : Loaded T}
    (hx : io.loadHnsw P ty defScale dist fs = (io', .ok x)) {g : Bytes} {d : Descr} {rest : Bytes}
    (hg : fs (graphName io.base) = some g) (hd : loadDescr g = .ok (d, rest))
    (hn : d.nbPoint.toNat < 2 ^ 63) :
    x.mapped = flagsFrom io.opts d.nbPoint.toNat x.hnsw.idx.points.length ∧
      x.hnsw.idx.points.length ≤ d.nbPoint.toNat := by
  have has : asI64 d.nbPoint.toNat = d.nbPoint.toNat := by unfold asI64; rw [if_pos hn]
  unfold HnswIo.loadHnsw at hx
  split at hx
  · cases hx
  · rename_i d' s hi
    obtain ⟨g', rest', hg', hd'⟩ := init_descr hi
    rw [hg] at hg'
    obtain rfl := Option.some.inj hg'
    rw [hd] at hd'
    injection hd' with hd'
    rw [Prod.mk.injEq] at hd'
    obtain ⟨rfl, -⟩ := hd'
    split at hx
    · cases hx
    · split at hx
      · cases hx
      · split at hx
        · cases hx
        · rename_i io1 hm
          split at hx
          · cases hx
          · rename_i idx m s' hl
            rw [Prod.mk.injEq] at hx
            injection hx.2 with hx
            have ho : io1.opts = io.opts := by
              unfold HnswIo.mapData at hm
              split at hm
              · split at hm
                · injection hm with hm; subst hm; rfl
                · injection hm with hm; subst hm; rfl
                · cases hm
              · injection hm with hm; subst hm; rfl
            obtain ⟨h1, h2⟩ := loadIndexation_flags hl (by rw [has]; omega)
            rw [has] at h1 h2
            rw [← hx, ← ho]
            exact ⟨h1, by simpa [mkHnsw] using h2⟩

/-! ## Names without separator -/

theorem splitSep_simple {cs : List Char} (h : ¬ [':', ':'] <:+: cs) : splitSep cs = [cs] := by
  induction cs using splitSep.induct with
  | case1 cs ih => exact absurd ⟨[], cs, rfl⟩ h
  | case2 c cs hne hnil ih => exact absurd hnil (splitSep_ne_nil _)
  | case3 c cs hne q qs hq ih =>
    have hcs := ih (fun hi => h (hi.trans ⟨[c], [], by simp⟩))
    rw [hcs] at hq
    injection hq with h1 h2
    rw [splitSep, hcs]
    · exact hne
  | case4 => rfl

theorem rsplitTerm_simple {s : String} (h0 : s ≠ "") (h : ¬ [':', ':'] <:+: s.toList) :
    rsplitTerm s = [s.toList] := by
  have hr : ¬ [':', ':'] <:+: s.toList.reverse := fun hi =>
    h ((List.reverse_infix (l₁ := [':', ':']) (l₂ := s.toList)).1 hi)
  unfold rsplitTerm
  rw [splitSep_simple hr]
  simp only [List.map_cons, List.map_nil, List.reverse_reverse]
  split
  · rename_i r hx
    injection hx with hx1 hx2
    exact absurd (String.toList_inj.mp (hx1.trans (by rfl : ([] : List Char) = "".toList))) h0
  · rfl

end Verif
