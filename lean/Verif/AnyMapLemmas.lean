import Verif.AnyLemmas

set_option autoImplicit false

/-!
# A memory map made from any file
-/

namespace Verif
variable {T : Type}

theorem sliceAt_ok {b x : Bytes} {a n : Nat} (h : sliceAt b a n = .ok x) :
    x.length = n ∧ b.drop a = x ++ b.drop (a + n) ∧ a + n ≤ b.length := by
  unfold sliceAt at h
  split at h
  · rename_i hle
    injection h with h
    subst h
    refine ⟨by simp; omega, ?_, hle⟩
    rw [← List.drop_drop, List.take_append_drop]
  · cases h

theorem imGet_insert (m : List (DataId × Nat)) (k k' : DataId) (v : Nat) :
    imGet (imInsert m k v) k' = if k' = k then some v else imGet m k' := by
  unfold imInsert
  split
  · rename_i ha
    induction m with
    | nil => simp at ha
    | cons e m ih =>
      by_cases he : e.1 = k
      · by_cases hk : k' = k
        · subst hk; simp [imGet, he]
        · have hk2 : ¬ k = k' := fun h => hk h.symm
          have h1 : ∀ m : List (DataId × Nat),
              List.find? (fun e => e.1 == k') (m.map fun e => if (e.1 == k) = true then (k, v) else e) =
              List.find? (fun e => e.1 == k') m := by
            intro m
            induction m with
            | nil => rfl
            | cons f m ih2 =>
              by_cases hf : f.1 = k
              · simp only [List.map_cons, hf, beq_self_eq_true, if_true]
                rw [List.find?_cons_of_neg (by simpa using hk2),
                  List.find?_cons_of_neg (by simpa [hf] using hk2), ih2]
              · simp only [List.map_cons, beq_iff_eq, hf, if_false]
                simp only [beq_iff_eq] at ih2
                by_cases hfk : f.1 = k'
                · rw [List.find?_cons_of_pos (by simpa using hfk),
                    List.find?_cons_of_pos (by simpa using hfk)]
                · rw [List.find?_cons_of_neg (by simpa using hfk),
                    List.find?_cons_of_neg (by simpa using hfk), ih2]
          unfold imGet
          rw [h1, if_neg hk]
      · have ha' : (m.any fun e => e.1 == k) = true := by
          simpa [he] using ha
        have ih' := ih ha'
        have hb : (e.1 == k) = false := by simpa using he
        rw [List.map_cons, hb]
        simp only [Bool.false_eq_true, if_false]
        unfold imGet at ih' ⊢
        by_cases hek : e.1 = k'
        · have : ¬ k' = k := fun h => he (hek.trans h)
          rw [List.find?_cons_of_pos (by simpa using hek),
            List.find?_cons_of_pos (by simpa using hek), if_neg this]
        · rw [List.find?_cons_of_neg (by simpa using hek),
            List.find?_cons_of_neg (by simpa using hek)]
          exact ih'
  · rename_i ha
    have ha' : ∀ e ∈ m, ¬ e.1 = k := by
      intro e he hk
      apply ha
      rw [List.any_eq_true]
      exact ⟨e, he, by simpa using hk⟩
    unfold imGet
    rw [List.find?_append]
    by_cases hk : k' = k
    · subst hk
      have : List.find? (fun e => e.1 == k') m = none := by
        rw [List.find?_eq_none]
        intro e he
        simpa using ha' e he
      rw [this]; simp
    · have hk2 : ¬ k = k' := fun h => hk h.symm
      rw [if_neg hk, List.find?_cons_of_neg (by simpa using hk2)]
      simp

theorem imInsert_keys (m : List (DataId × Nat)) (k : DataId) (v : Nat) :
    (imInsert m k v).map (·.1) =
      if k ∈ m.map (·.1) then m.map (·.1) else m.map (·.1) ++ [k] := by
  unfold imInsert
  have : (m.any fun e => e.1 == k) = true ↔ k ∈ m.map (·.1) := by
    simp only [List.any_eq_true, List.mem_map, beq_iff_eq]
  split
  · rename_i h
    rw [if_pos (this.1 h), List.map_map]
    apply List.map_congr_left
    intro e _
    simp only [Function.comp_apply, beq_iff_eq]
    split
    · rename_i h; exact h.symm
    · rfl
  · rename_i h
    rw [if_neg (fun h' => h (this.2 h'))]
    simp

theorem imGet_isSome {m : List (DataId × Nat)} {k : DataId} :
    imGet m k = none ↔ k ∉ m.map (·.1) := by
  constructor
  · intro h hk
    unfold imGet at h
    rw [Option.map_eq_none_iff, List.find?_eq_none] at h
    obtain ⟨e, he, rfl⟩ := List.mem_map.1 hk
    exact h e he (by simp)
  · exact imGet_none

/-- What a successful reading of `n` records from address `a` says. -/
theorem mapRecords_ok {size dim : Nat} {b : Bytes} :
    ∀ {n a : Nat} {m m' : List (DataId × Nat)}, mapRecords size dim b n a m = .ok m' →
    ∃ rs : List (DataId × Bytes), rs.length = n ∧ b.drop a = recordsOf rs ++ b.drop (a + (recordsOf rs).length) ∧
      (a ≤ b.length → a + (recordsOf rs).length ≤ b.length) ∧
      (∀ r ∈ rs, dim * size ≤ r.2.length) ∧
      ((m.map (·.1)).Nodup → (m'.map (·.1)).Nodup) ∧
      (∀ l : List DataId, (m.map (·.1)).Sublist l → (m'.map (·.1)).Sublist (l ++ rs.map (·.1))) ∧
      (∀ k, k ∉ rs.map (·.1) → imGet m' k = imGet m k) ∧
      (∀ k, k ∈ rs.map (·.1) → ∃ r1 v r2, rs = r1 ++ (k, v) :: r2 ∧ k ∉ r2.map (·.1) ∧
        imGet m' k = some (a + (recordsOf r1).length + 12)) := by
  intro n
  induction n with
  | zero =>
    intro a m m' h
    unfold mapRecords at h
    injection h with h
    subst h
    exact ⟨[], rfl, by simp [recordsOf], by simp [recordsOf], by simp, id,
      fun l hl => by simpa using hl, fun _ _ => rfl, by simp⟩
  | succ n ih =>
    intro a m m' h
    unfold mapRecords at h
    cases h1 : sliceAt b a 4 with
    | error e => rw [h1] at h; cases h
    | ok magic =>
    rw [h1] at h
    simp only [bind, Except.bind] at h
    split at h
    · cases h
    rename_i hmag
    cases h2 : sliceAt b (a + 4) 8 with
    | error e => rw [h2] at h; cases h
    | ok id =>
    rw [h2] at h
    simp only at h
    cases h3 : sliceAt b (a + 12) 8 with
    | error e => rw [h3] at h; cases h
    | ok len =>
    rw [h3] at h
    simp only at h
    cases h4 : sliceAt b (a + 20) (ofLE len) with
    | error e => rw [h4] at h; cases h
    | ok v =>
    rw [h4] at h
    simp only at h
    split at h
    · cases h
    rename_i hlen
    obtain ⟨l1, d1, -⟩ := sliceAt_ok h1
    obtain ⟨l2, d2, -⟩ := sliceAt_ok h2
    obtain ⟨l3, d3, -⟩ := sliceAt_ok h3
    obtain ⟨l4, d4, b4⟩ := sliceAt_ok h4
    obtain ⟨rs, hrl, hrd, hrb, hrs, hnd, hsub, hout, hin⟩ := ih h
    have hmag' : ofLE magic = magicDataP := Classical.byContradiction hmag
    have e1 : magic = leBytes 4 magicDataP := by rw [← hmag', ← l1, leBytes_ofLE]
    have hid : ofLE id < 2 ^ 64 := by have := ofLE_lt id; rw [l2] at this; exact this
    have e2 : id = leBytes 8 (UInt64.ofNat (ofLE id)).toNat := by
      rw [UInt64.toNat_ofNat', Nat.mod_eq_of_lt hid, ← l2, leBytes_ofLE]
    have e3 : len = leBytes 8 v.length := by rw [l4, ← l3, leBytes_ofLE]
    have hrec : b.drop a = recordBytes (UInt64.ofNat (ofLE id)) v ++ b.drop (a + 20 + ofLE len) := by
      unfold recordBytes
      rw [← e1, ← e2, ← e3, d1, d2, d3, d4]
      simp only [List.append_assoc]
    have hrl2 : (recordBytes (UInt64.ofNat (ofLE id)) v).length = 20 + ofLE len := by
      simp [recordBytes, l4]; omega
    have hcons : recordsOf ((UInt64.ofNat (ofLE id), v) :: rs) =
        recordBytes (UInt64.ofNat (ofLE id)) v ++ recordsOf rs := by simp [recordsOf]
    refine ⟨(UInt64.ofNat (ofLE id), v) :: rs, by simp [hrl], ?_, ?_, ?_, ?_, ?_, ?_, ?_⟩
    · rw [hrec, hrd, hcons]
      simp only [List.append_assoc, List.length_append, hrl2]
      congr 3
      omega
    · intro _
      rw [hcons, List.length_append, hrl2]
      have := hrb b4
      omega
    · intro r hr
      rcases List.mem_cons.1 hr with rfl | hr
      · show dim * size ≤ v.length
        rw [l4]; omega
      · exact hrs r hr
    · intro hm
      apply hnd
      rw [imInsert_keys]
      split
      · exact hm
      · rename_i hk
        rw [List.nodup_append]
        refine ⟨hm, by simp, ?_⟩
        intro x hx y hy
        simp only [List.mem_singleton] at hy
        subst hy
        exact fun hxy => hk (hxy ▸ hx)
    · intro l hl
      have := hsub (l ++ [UInt64.ofNat (ofLE id)]) (by
        rw [imInsert_keys]
        split
        · exact hl.trans (List.sublist_append_left _ _)
        · exact List.Sublist.append hl (List.Sublist.refl _))
      simpa using this
    · intro k hk
      simp only [List.map_cons, List.mem_cons, not_or] at hk
      rw [hout k hk.2, imGet_insert, if_neg hk.1]
    · intro k hk
      by_cases hk2 : k ∈ rs.map (·.1)
      · obtain ⟨r1, v', r2, rfl, hr2, hg⟩ := hin k hk2
        refine ⟨(UInt64.ofNat (ofLE id), v) :: r1, v', r2, by simp, hr2, ?_⟩
        rw [hg]
        have : recordsOf ((UInt64.ofNat (ofLE id), v) :: r1) =
          recordBytes (UInt64.ofNat (ofLE id)) v ++ recordsOf r1 := by simp [recordsOf]
        rw [this, List.length_append, hrl2]
        congr 1
        omega
      · simp only [List.map_cons, List.mem_cons] at hk
        rcases hk with rfl | hk
        · refine ⟨[], v, rs, rfl, hk2, ?_⟩
          rw [hout _ hk2, imGet_insert, if_pos rfl]
          simp [recordsOf]
        · exact absurd hk hk2

theorem recordsOf_length {rs : List (DataId × Bytes)} {k : Nat} (h : ∀ r ∈ rs, k ≤ r.2.length) :
    rs.length * (20 + k) ≤ (recordsOf rs).length := by
  induction rs with
  | nil => simp
  | cons r rs ih =>
    have h1 := ih fun r hr => h r (List.mem_cons_of_mem _ hr)
    have h2 := h r (List.mem_cons_self ..)
    have : recordsOf (r :: rs) = recordBytes r.1 r.2 ++ recordsOf rs := by simp [recordsOf]
    rw [this, List.length_append, List.length_cons, Nat.succ_mul]
    have : (recordBytes r.1 r.2).length = 20 + r.2.length := by simp [recordBytes]; omega
    omega

/-- What a successful `DataMap::from_hnswdump` says of the files. -/
theorem fromDump_ok {ty : Ty T} {fs : Dir} {base : String} {m : DataMap}
    (h : DataMap.fromDump ty fs base = .ok m) :
    ∃ g d g' b rs, fs (graphName base) = some g ∧ loadDescr g = .ok (d, g') ∧
      fs (dataName base) = some b ∧ 3 ≤ d.version ∧ d.tName = ty.name ∧
      m.bytes = b ∧ m.tName = d.tName ∧ m.dim = d.dim.toNat ∧ m.distName = d.distName ∧
      12 ≤ b.length ∧
      b = leBytes 4 magicDataP ++ leBytes 8 d.dim.toNat ++ b.drop 12 ∧
      rs.length = (b.length - 12) / (20 + d.dim.toNat * ty.size) ∧
      mapRecords ty.size d.dim.toNat b rs.length 12 [] = .ok m.hmap ∧
      b.drop 12 = recordsOf rs ++ b.drop (12 + (recordsOf rs).length) ∧
      12 + (recordsOf rs).length ≤ b.length ∧
      (∀ r ∈ rs, d.dim.toNat * ty.size ≤ r.2.length) ∧
      m.ids.Nodup ∧ m.ids.Sublist (rs.map (·.1)) ∧
      (∀ k, k ∉ rs.map (·.1) → imGet m.hmap k = none) ∧
      (∀ k, k ∈ rs.map (·.1) → ∃ r1 v r2, rs = r1 ++ (k, v) :: r2 ∧ k ∉ r2.map (·.1) ∧
        imGet m.hmap k = some (12 + (recordsOf r1).length + 12)) := by
  unfold DataMap.fromDump at h
  split at h
  · cases h
  rename_i g hg
  split at h
  · cases h
  · cases h
  rename_i d g' hd
  split at h
  · cases h
  rename_i hv
  split at h
  · cases h
  rename_i hn
  split at h
  · cases h
  rename_i b hb
  cases h1 : sliceAt b 0 4 with
  | error e => rw [h1] at h; cases h
  | ok magic =>
  rw [h1] at h
  simp only [bind, Except.bind] at h
  split at h
  · cases h
  rename_i hmag
  cases h2 : sliceAt b 4 8 with
  | error e => rw [h2] at h; cases h
  | ok dim =>
  rw [h2] at h
  simp only at h
  split at h
  · cases h
  rename_i hdim
  have hdim' : ofLE dim = d.dim.toNat := Classical.byContradiction hdim
  have hmag' : ofLE magic = magicDataP := Classical.byContradiction hmag
  rw [hdim'] at h
  cases h3 : mapRecords ty.size d.dim.toNat b ((b.length - 12) / (20 + d.dim.toNat * ty.size)) 12 [] with
  | error e => rw [h3] at h; cases h
  | ok hm =>
  rw [h3] at h
  simp only at h
  injection h with h
  subst h
  obtain ⟨l1, d1, -⟩ := sliceAt_ok h1
  obtain ⟨l2, d2, b2⟩ := sliceAt_ok h2
  obtain ⟨rs, hrl, hrd, hrb, hrs, hnd, hsub, hout, hin⟩ := mapRecords_ok h3
  refine ⟨g, d, g', b, rs, hg, hd, hb, by omega, ?_, rfl, rfl, rfl, rfl, by omega, ?_, hrl, ?_, hrd,
    hrb (by omega), hrs, hnd (by simp), ?_, ?_, hin⟩
  · exact (Classical.byContradiction hn : ty.name = d.tName).symm
  · have e1 : magic = leBytes 4 magicDataP := by rw [← hmag', ← l1, leBytes_ofLE]
    have e2 : dim = leBytes 8 d.dim.toNat := by rw [← hdim', ← l2, leBytes_ofLE]
    rw [← e1, ← e2]
    rw [List.drop_zero] at d1
    rw [Nat.zero_add] at d1
    rw [List.append_assoc]
    have : b.drop 12 = b.drop (4 + 8) := rfl
    rw [this, ← d2, ← d1]
  · rw [hrl]; exact h3
  · exact hsub [] (by simp)
  · intro k hk
    rw [hout k hk]
    rfl

end Verif
