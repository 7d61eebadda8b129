import Verif.ApiLemmas

set_option autoImplicit false

/-!
# What an `Ok` of `load_hnsw` tells
-/

namespace Verif
variable {T T' : Type}

theorem init_descr {io : HnswIo} {fs : Dir} {d : Descr} {s : Two} (h : io.init fs = .ok (d, s)) :
    ∃ g rest, fs (graphName io.base) = some g ∧ loadDescr g = .ok (d, rest) := by
  unfold HnswIo.init at h
  split at h
  · rename_i g b hg hb
    split at h
    · rename_i d' g' hd
      injection h with h
      rw [Prod.mk.injEq] at h
      rw [← h.1]
      exact ⟨g, g', hg, hd⟩
    · cases h
    · cases h
  · cases h

theorem load_ok_split {P : Policy T} {ty : Ty T} {defScale : Nat → F64} {dist : Dist T}
    {io io' : HnswIo} {fs : Dir} {x : Loaded T}
    (hx : io.loadHnsw P ty defScale dist fs = (io', .ok x)) :
    ∃ d s idx m b, io.init fs = .ok (d, s) ∧ checkDist ty dist.name d = .ok () ∧
      (ty.noData = true ∨ ty.name = d.tName) ∧ x = ⟨mkHnsw defScale dist d idx b, m⟩ ∧ b = true := by
  unfold HnswIo.loadHnsw at hx
  split at hx
  · cases hx
  · rename_i d s hi
    split at hx
    · cases hx
    · split at hx
      · cases hx
      · rename_i u hc
        split at hx
        · cases hx
        · split at hx
          · cases hx
          · rename_i idx m s' hl
            rw [Prod.mk.injEq] at hx
            injection hx.2 with hx
            refine ⟨d, s, idx, m, true, hi, hc, ?_, hx.symm, rfl⟩
            unfold loadIndexation at hl
            by_cases hb : (ty.noData || ty.name == d.tName) = true
            · simpa using hb
            · simp only [Bind.bind, Rd.bind, Rd.require, hb] at hl
              cases hl

theorem load_ok_descr {P : Policy T} {ty : Ty T} {defScale : Nat → F64} {dist : Dist T}
    {io io' : HnswIo} {fs : Dir} {x : Loaded T}
    (hx : io.loadHnsw P ty defScale dist fs = (io', .ok x)) :
    ∃ g d rest, fs (graphName io.base) = some g ∧ loadDescr g = .ok (d, rest) ∧
      (ty.noData = true ∨ ty.name = d.tName) ∧ checkDist ty dist.name d = .ok () := by
  obtain ⟨d, s, idx, m, b, h1, h2, h3, -⟩ := load_ok_split hx
  obtain ⟨g, rest, h4, h5⟩ := init_descr h1
  exact ⟨g, d, rest, h4, h5, h3, h2⟩

theorem load_ok_mk {ty : Ty T} {h : Hnsw T} {P : Policy T'} {ty' : Ty T'} (hd : HDumpable ty h)
    {fs : Dir} {io io' : HnswIo} {tg td : Bytes} (hf : FilesAt ty h fs io.base tg td)
    {defScale : Nat → F64} {dist : Dist T'} {x : Loaded T'}
    (hx : io.loadHnsw P ty' defScale dist fs = (io', .ok x)) :
    ∃ d idx b, d = h.rdescr ty ∧ x.hnsw = mkHnsw defScale dist d idx b := by
  obtain ⟨d, s, idx, m, b, h1, -, -, h3, -⟩ := load_ok_split hx
  obtain ⟨e, he⟩ := Option.ne_none_iff_exists'.mp hd.idx.entry
  rw [hf.init hd he] at h1
  injection h1 with h1
  rw [Prod.mk.injEq] at h1
  exact ⟨d, idx, b, h1.1.symm, by rw [h3]⟩

theorem F64.one_mul {a : F64} (ha : a.isNaN = false) : F64.mul F64.one a = a := by
  have h1 : F64.one.isNaN = false := by decide
  have h2 : F64.one.isInf = false := by decide
  have hle := F64.mag_le_inf ha
  have hcut : F64.cut a.mag.val = a.mag.val := by unfold F64.cut; rw [if_pos hle]
  have hext : ∀ b : F64, b.sign = a.sign → b.mag.val = a.mag.val → b = a := by
    intro b hs hm
    cases a; cases b
    simp only at hs hm
    subst hs
    congr
    exact Fin.ext hm
  by_cases hi : a.isInf = true
  · have hm : a.mag.val = F64.infMag := by simpa [F64.isInf] using hi
    have e : F64.mul F64.one a = F64.ofMag (F64.one.sign != a.sign) F64.infMag := by
      have h3 : F64.one.units ≠ 0 := by unfold F64.units; rw [F64.units_one]; have := F64.U_pos; omega
      have h4 : a.units ≠ 0 := by
        have := F64.unitsM_lt (show 0 < a.mag.val by rw [hm]; decide)
        unfold F64.units; omega
      unfold F64.mul
      rw [ha, h1, hi, if_neg (by simp), if_pos (by simp), if_neg (by simp [h3, h4])]
    rw [e]
    refine hext _ ?_ ?_
    · rw [F64.sign_ofMag]; simp [F64.one]
    · rw [F64.mag_ofMag, hm]; unfold F64.cut; simp
  · rw [F64.mul_finite h1 ha h2 (by simpa using hi)]
    refine hext _ ?_ ?_
    · rw [F64.sign_ofMag]; simp [F64.one]
    · rw [F64.mag_ofMag, F64.units_one, Nat.mul_comm, F64.roundMag_exact, hcut]

/-! ## Last segment of a name -/

theorem splitSep_head {cs : List Char} {p : List Char} {ps : List (List Char)}
    (h : splitSep cs = p :: ps) :
    (cs = p ∨ ∃ r, cs = p ++ ':' :: ':' :: r) ∧ ¬ [':', ':'] <:+: p := by
  induction cs using splitSep.induct generalizing p ps with
  | case1 cs ih =>
    rw [splitSep] at h
    injection h with h1 h2
    subst h1
    exact ⟨.inr ⟨cs, rfl⟩, by simp⟩
  | case2 c cs hne hnil ih =>
    exact absurd hnil (splitSep_ne_nil _)
  | case3 c cs hne q qs hq ih =>
    rw [splitSep, hq] at h
    · injection h with h1 h2
      subst h1
      obtain ⟨h3, h4⟩ := ih hq
      refine ⟨?_, ?_⟩
      · rcases h3 with h3 | ⟨r, h3⟩
        · exact .inl (by rw [h3])
        · exact .inr ⟨r, by rw [h3]; rfl⟩
      · intro hi
        rw [List.infix_cons_iff] at hi
        rcases hi with hi | hi
        · obtain ⟨t, ht⟩ := hi
          simp only [List.cons_append, List.nil_append, List.cons.injEq] at ht
          obtain ⟨rfl, hq'⟩ := ht
          rcases h3 with h3 | ⟨r, h3⟩
          · exact hne t rfl (by rw [h3, ← hq'])
          · exact hne (t ++ ':' :: ':' :: r) rfl (by rw [h3, ← hq']; rfl)
        · exact h4 hi
    · exact hne
  | case4 =>
    rw [splitSep] at h
    injection h with h1 h2
    subst h1
    exact ⟨.inl rfl, by simp⟩

theorem rsplit_last_aux {s : String} {l : List Char} (h : (rsplitTerm s).head? = some l)
    (hs : ¬ [':', ':'] <:+ s.toList) :
    (s.toList = l ∨ ∃ p, s.toList = p ++ [':', ':'] ++ l) ∧ ¬ [':', ':'] <:+: l := by
  obtain ⟨p, ps, hp⟩ := List.exists_cons_of_ne_nil (splitSep_ne_nil s.toList.reverse)
  obtain ⟨h1, h2⟩ := splitSep_head hp
  have hrev : ∀ x : List Char, [':', ':'] <:+: x.reverse ↔ [':', ':'] <:+: x := by
    intro x
    exact List.reverse_infix (l₁ := [':', ':']) (l₂ := x)
  have hl : l = p.reverse := by
    unfold rsplitTerm at h
    rw [hp, List.map_cons] at h
    split at h
    · rename_i r hr
      injection hr with hr1 hr2
      have hp0 : p = [] := by simpa using hr1
      subst hp0
      rcases h1 with h1 | ⟨r', h1⟩
      · -- the empty name
        rw [h1] at hp
        simp only [splitSep] at hp
        injection hp with _ hp
        subst hp
        rw [← hr2] at h
        cases h
      · exfalso
        apply hs
        have : s.toList = (s.toList.reverse).reverse := by simp
        rw [this, h1]
        exact ⟨r'.reverse, by simp⟩
    · simpa using h.symm
  subst hl
  refine ⟨?_, fun hi => h2 ((hrev p).1 hi)⟩
  have hrr : s.toList = (s.toList.reverse).reverse := by simp
  rcases h1 with h1 | ⟨r, h1⟩
  · left; rw [hrr, h1]
  · right
    refine ⟨r.reverse, ?_⟩
    rw [hrr, h1]
    simp

end Verif
