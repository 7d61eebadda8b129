import Verif.ExecLemmas
import Verif.Access
import Verif.TableLemmas

set_option autoImplicit false

/-!
# Lemmas on the iterators and on drop
-/

namespace Verif
variable {T : Type}

theorem getLayerNbPoint_eq (s : Idx T) (l : Nat) : getLayerNbPoint s l = (s.layer l).length := by
  unfold getLayerNbPoint Idx.layer
  split
  · rename_i h; rw [List.getElem?_eq_getElem h]; rfl
  · rename_i h; rw [List.getElem?_eq_none (by omega)]; rfl

/-- what remains to be enumerated at layer `l`, slot `r` -/
def remaining (s : Idx T) (l r : Nat) : List (Ref T) :=
  (s.layer l).drop r ++ (s.layers.drop (l + 1)).flatten

theorem skipEmpty_spec (s : Idx T) : ∀ (n l : Nat), l + n ≤ s.layers.length →
    ∃ l', skipEmpty s n l = .ok l' ∧ l ≤ l' ∧ l' ≤ l + n ∧
      (s.layers.drop l).flatten = (s.layers.drop l').flatten ∧
      (l' < l + n → s.layer l' ≠ []) := by
  intro n
  induction n with
  | zero => intro l _; exact ⟨l, rfl, Nat.le_refl _, Nat.le_refl _, rfl, fun h => by omega⟩
  | succ n ih =>
    intro l hl
    have hlt : l < s.layers.length := by omega
    simp only [skipEmpty, List.getElem?_eq_getElem hlt]
    cases hx : s.layers[l] with
    | nil =>
      obtain ⟨l', h1, h2, h3, h4, h5⟩ := ih (l + 1) (by omega)
      refine ⟨l', h1, by omega, by omega, ?_, fun h => h5 (by omega)⟩
      rw [← h4, List.drop_eq_getElem_cons hlt, hx]
      rfl
    | cons a as =>
      refine ⟨l, rfl, Nat.le_refl _, by omega, rfl, fun _ => ?_⟩
      unfold Idx.layer
      rw [List.getElem?_eq_getElem hlt, hx]
      simp

/-- one call of `next` before the end -/
theorem iterNext_spec {s : Idx T} {m : Nat} (ht : TableOK m s) (h : TopEntry s) {pos : IterPos}
    {l r : Nat} (hp : pos.getD (0, 0) = (l, r)) (hl : l < s.layers.length) :
    (∀ p ps, remaining s l r = p :: ps → ∃ l' r', iterNext s pos = .ok (some p, some (l', r')) ∧
      l' < s.layers.length ∧ remaining s l' r' = ps) ∧
    (remaining s l r = [] → ∃ pos', iterNext s pos = .ok (none, pos')) := by
  obtain ⟨e, he, hes, htop⟩ := h
  have hel : e.pid.layer < s.layers.length := by rw [ht.len]; exact ht.layer_lt hes
  have hlay : s.layers[l]? = some (s.layer l) := by
    unfold Idx.layer; rw [List.getElem?_eq_getElem hl]; rfl
  have hnext : ∀ o, (s.layer l)[r]? = o → iterNext s pos = (match o with
      | some p => .ok (some p, some (l, r + 1))
      | none => match skipEmpty s (e.pid.layer + 1 - (l + 1)) (l + 1) with
        | .error x => .error x
        | .ok l' =>
          if l' ≤ e.pid.layer then
            match s.layers[l']? with
            | none => .error .index
            | some layer' =>
              match layer'[0]? with
              | none => .error .index
              | some p => .ok (some p, some (l', 1))
          else .ok (none, some (l', 0))) := by
    intro o ho
    unfold iterNext
    rw [hp]
    simp only [hlay, ho, he]
    cases o <;> rfl
  cases hr : (s.layer l)[r]? with
  | some p0 =>
    have hlt := (List.getElem?_eq_some_iff.1 hr).1
    have hrem : remaining s l r = p0 :: remaining s l (r + 1) := by
      unfold remaining
      rw [List.drop_eq_getElem_cons hlt, (List.getElem?_eq_some_iff.1 hr).2]
      rfl
    constructor
    · intro p ps hps
      rw [hrem] at hps
      cases hps
      exact ⟨l, r + 1, by rw [hnext _ hr], hl, rfl⟩
    · intro h0; rw [hrem] at h0; cases h0
  | none =>
    have hge : (s.layer l).length ≤ r := by simpa using hr
    have hrem : remaining s l r = (s.layers.drop (l + 1)).flatten := by
      unfold remaining; rw [List.drop_eq_nil_of_le hge]; rfl
    have habove : ∀ k, e.pid.layer < k → (s.layers.drop k).flatten = [] := by
      intro k hk
      rw [List.flatten_eq_nil_iff]
      intro v hv
      obtain ⟨i, hi⟩ := List.getElem?_of_mem hv
      rw [List.getElem?_drop] at hi
      apply List.eq_nil_iff_forall_not_mem.2
      intro x hx
      have hxs : Stored s x := List.mem_flatten.2 ⟨v, List.mem_of_getElem? hi, hx⟩
      have h1 := htop x hxs
      obtain ⟨j, hj⟩ := List.getElem?_of_mem hx
      have h2 := ht.ids (k + i) j x (by unfold Idx.layer; rw [hi]; exact hj)
      rw [h2] at h1
      simp at h1
      omega
    by_cases hle : l + 1 ≤ e.pid.layer + 1
    · obtain ⟨l', h1, h2, h3, h4, h5⟩ := skipEmpty_spec s (e.pid.layer + 1 - (l + 1)) (l + 1)
        (by omega)
      by_cases hl' : l' ≤ e.pid.layer
      · have hne := h5 (by omega)
        have hlt' : l' < s.layers.length := by omega
        have hly : s.layers[l']? = some (s.layer l') := by
          unfold Idx.layer; rw [List.getElem?_eq_getElem hlt']; rfl
        cases hv : s.layer l' with
        | nil => exact absurd hv hne
        | cons a as =>
          have hrem' : remaining s l r = a :: remaining s l' 1 := by
            rw [hrem, h4, List.drop_eq_getElem_cons hlt']
            have : s.layers[l'] = a :: as := by
              rw [List.getElem?_eq_getElem hlt', hv] at hly
              exact Option.some.inj hly
            rw [this]
            unfold remaining
            rw [hv]
            rfl
          constructor
          · intro p ps hps
            rw [hrem'] at hps
            cases hps
            refine ⟨l', 1, ?_, hlt', rfl⟩
            rw [hnext _ hr]
            simp only [h1, if_pos hl', hly, hv]
            rfl
          · intro h0; rw [hrem'] at h0; cases h0
      · have hempty : remaining s l r = [] := by
          rw [hrem, h4]; exact habove l' (by omega)
        constructor
        · intro p ps hps; rw [hempty] at hps; cases hps
        · intro _
          refine ⟨some (l', 0), ?_⟩
          rw [hnext _ hr]
          simp only [h1, if_neg hl']
    · have h0 : e.pid.layer + 1 - (l + 1) = 0 := by omega
      have hempty : remaining s l r = [] := by rw [hrem]; exact habove _ (by omega)
      constructor
      · intro p ps hps; rw [hempty] at hps; cases hps
      · intro _
        refine ⟨some (l + 1, 0), ?_⟩
        rw [hnext _ hr, h0]
        simp only [skipEmpty]
        rw [if_neg (by omega)]

theorem iterCalls_spec {s : Idx T} {m : Nat} (ht : TableOK m s) (h : TopEntry s) :
    ∀ (ps : List (Ref T)) (pos : IterPos) (l r : Nat), pos.getD (0, 0) = (l, r) →
      l < s.layers.length → remaining s l r = ps →
      iterCalls s (ps.length + 1) pos = .ok (ps.map some ++ [none]) := by
  intro ps
  induction ps with
  | nil =>
    intro pos l r hp hl hr
    obtain ⟨pos', h1⟩ := (iterNext_spec ht h hp hl).2 hr
    simp [iterCalls, h1]
  | cons p ps ih =>
    intro pos l r hp hl hr
    obtain ⟨l', r', h1, h2, h3⟩ := (iterNext_spec ht h hp hl).1 p ps hr
    have := ih (some (l', r')) l' r' rfl h2 h3
    rw [List.length_cons, iterCalls, h1]
    simp only [this]
    rfl

/-- the layers above the entry point are empty -/
theorem layers_above {s : Idx T} {m : Nat} (ht : TableOK m s) {e : Ref T}
    (htop : ∀ p, Stored s p → p.pid.layer ≤ e.pid.layer) {l : Nat} (hl : e.pid.layer < l) :
    s.layer l = [] := by
  apply List.eq_nil_iff_forall_not_mem.2
  intro x hx
  have h1 := htop x ((mem_layer_iff ht).1 hx).1
  rw [((mem_layer_iff ht).1 hx).2] at h1
  omega

/-- the calls past the layer of the entry point: one `None` per layer left, then a panic -/
theorem iterCalls_past {s : Idx T} {m : Nat} (ht : TableOK m s) {e : Ref T} (he : s.entry = some e)
    (htop : ∀ p, Stored s p → p.pid.layer ≤ e.pid.layer) : ∀ (k l : Nat), e.pid.layer < l → l ≤ m →
      iterCalls s k (some (l, 0)) =
        if k ≤ m - l then .ok (List.replicate k none) else .error .index := by
  intro k
  induction k with
  | zero => intro l _ _; simp [iterCalls]
  | succ k ih =>
    intro l hl hm
    by_cases hlm : l < m
    · have hlay : s.layers[l]? = some [] := by
        rw [List.getElem?_eq_getElem (by rw [ht.len]; exact hlm)]
        have := layers_above ht htop hl
        unfold Idx.layer at this
        rw [List.getElem?_eq_getElem (by rw [ht.len]; exact hlm)] at this
        exact congrArg some this
      have h0 : e.pid.layer + 1 - (l + 1) = 0 := by omega
      have h1 : iterNext s (some (l, 0)) = .ok (none, some (l + 1, 0)) := by
        simp only [iterNext, Option.getD_some, hlay, List.getElem?_nil, he, h0, skipEmpty]
        rw [if_neg (by omega)]
      rw [iterCalls, h1]
      simp only [ih (l + 1) (by omega) (by omega)]
      by_cases hk : k ≤ m - (l + 1)
      · rw [if_pos hk, if_pos (by omega)]; rfl
      · rw [if_neg hk, if_neg (by omega)]
    · have hlay : s.layers[l]? = none := List.getElem?_eq_none (by rw [ht.len]; omega)
      rw [iterCalls]
      simp only [iterNext, Option.getD_some, hlay]
      rw [if_neg (by omega)]

/-- all the calls of `next`, before and after the end -/
theorem iterCalls_all {s : Idx T} {m : Nat} (ht : TableOK m s) {e : Ref T} (he : s.entry = some e)
    (hes : Stored s e) (htop : ∀ p, Stored s p → p.pid.layer ≤ e.pid.layer) (k : Nat) :
    ∀ (ps : List (Ref T)) (pos : IterPos) (l r : Nat), pos.getD (0, 0) = (l, r) →
      l ≤ e.pid.layer → remaining s l r = ps →
      iterCalls s (ps.length + k) pos =
        if k ≤ m - e.pid.layer then .ok (ps.map some ++ List.replicate k none) else .error .index := by
  have hel : e.pid.layer < m := ht.layer_lt hes
  intro ps
  induction ps with
  | nil =>
    intro pos l r hp hl hr
    cases k with
    | zero => simp [iterCalls]
    | succ k =>
      have hlt : l < s.layers.length := by rw [ht.len]; omega
      have hlay : s.layers[l]? = some (s.layer l) := by
        unfold Idx.layer; rw [List.getElem?_eq_getElem hlt]; rfl
      have hr' := hr
      unfold remaining at hr'
      rw [List.append_eq_nil_iff] at hr'
      have hget : (s.layer l)[r]? = none := by simpa using hr'.1
      obtain ⟨l', h1, h2, h3, h4, h5⟩ := skipEmpty_spec s (e.pid.layer + 1 - (l + 1)) (l + 1)
        (by rw [ht.len]; omega)
      have hl' : l' = e.pid.layer + 1 := by
        apply Classical.byContradiction
        intro hn
        have hlt' : l' < s.layers.length := by rw [ht.len]; omega
        apply h5 (by omega)
        have h6 : s.layers[l'] ∈ s.layers.drop (l + 1) := by
          rw [List.mem_iff_getElem?]
          refine ⟨l' - (l + 1), ?_⟩
          rw [List.getElem?_drop, ← List.getElem?_eq_getElem hlt']
          congr 1; omega
        have := List.flatten_eq_nil_iff.1 hr'.2 _ h6
        unfold Idx.layer
        rw [List.getElem?_eq_getElem hlt', this]
        rfl
      subst hl'
      have h6 : iterNext s pos = .ok (none, some (e.pid.layer + 1, 0)) := by
        unfold iterNext
        rw [hp]
        simp only [hlay, hget, he, h1]
        rw [if_neg (by omega)]
      rw [List.length_nil, Nat.zero_add, iterCalls, h6]
      simp only [iterCalls_past ht he htop k (e.pid.layer + 1) (by omega) (by omega)]
      by_cases hk : k ≤ m - (e.pid.layer + 1)
      · rw [if_pos hk, if_pos (by omega)]; rfl
      · rw [if_neg hk, if_neg (by omega)]
  | cons p ps ih =>
    intro pos l r hp hl hr
    obtain ⟨l', r', h1, h2, h3⟩ := (iterNext_spec ht ⟨e, he, hes, htop⟩ hp (by rw [ht.len]; omega)).1 p ps hr
    have hle : l' ≤ e.pid.layer := by
      apply Classical.byContradiction
      intro hn
      have h4 := layers_above ht htop (l := l') (by omega)
      unfold iterNext at h1
      rw [hp] at h1
      simp only [he] at h1
      split at h1
      · cases h1
      · split at h1
        · simp only [Except.ok.injEq, Prod.mk.injEq, Option.some.injEq] at h1; omega
        · split at h1
          · cases h1
          · split at h1
            · split at h1
              · cases h1
              · split at h1
                · cases h1
                · simp only [Except.ok.injEq, Prod.mk.injEq, Option.some.injEq] at h1; omega
            · simp at h1
    have := ih (some (l', r')) l' r' rfl hle h3
    rw [List.length_cons, Nat.add_right_comm, iterCalls, h1]
    simp only [this]
    by_cases hk : k ≤ m - e.pid.layer
    · rw [if_pos hk, if_pos hk]; rfl
    · rw [if_neg hk, if_neg hk]

theorem iterCalls_prefix {s : Idx T} : ∀ (n k : Nat) (pos : IterPos) (os : List (Option (Ref T))),
    iterCalls s (n + k) pos = .ok os → iterCalls s n pos = .ok (os.take n) := by
  intro n
  induction n with
  | zero => intro k pos os _; rfl
  | succ n ih =>
    intro k pos os h
    rw [Nat.add_right_comm, iterCalls] at h
    rw [iterCalls]
    cases hx : iterNext s pos with
    | error x => rw [hx] at h; cases h
    | ok y =>
      obtain ⟨o, pos'⟩ := y
      rw [hx] at h
      simp only at h ⊢
      cases hy : iterCalls s (n + k) pos' with
      | error x => rw [hy] at h; cases h
      | ok os' =>
        rw [hy] at h
        cases h
        rw [ih k pos' os' hy]
        rfl

theorem layerIterCalls_spec {s : Idx T} {l : Nat} (hl : l < s.layers.length) :
    ∀ (n slot : Nat), slot ≤ (s.layer l).length → ∃ os, layerIterCalls s l n slot = .ok os ∧
      os = (List.range n).map (fun i => (s.layer l)[slot + i]?) := by
  intro n
  have hly : s.layers[l]? = some (s.layer l) := by
    unfold Idx.layer; rw [List.getElem?_eq_getElem hl]; rfl
  induction n with
  | zero => intro slot _; exact ⟨[], rfl, rfl⟩
  | succ n ih =>
    intro slot hs
    by_cases hlt : slot < (s.layer l).length
    · obtain ⟨os, h1, h2⟩ := ih (slot + 1) (by omega)
      refine ⟨some (s.layer l)[slot] :: os, ?_, ?_⟩
      · simp only [layerIterCalls, layerIterNext, hly, List.getElem?_eq_getElem hlt, h1]
      · rw [List.range_succ_eq_map, List.map_cons, List.map_map, h2]
        congr 1
        · simp [List.getElem?_eq_getElem hlt]
        · apply List.map_congr_left
          intro i _
          simp only [Function.comp]
          congr 1
          omega
    · obtain ⟨os, h1, h2⟩ := ih slot hs
      refine ⟨none :: os, ?_, ?_⟩
      · have : (s.layer l)[slot]? = none := by simp; omega
        simp only [layerIterCalls, layerIterNext, hly, this, h1]
      · rw [List.range_succ_eq_map, List.map_cons, List.map_map, h2]
        congr 1
        · simp; omega
        · apply List.map_congr_left
          intro i _
          simp only [Function.comp]
          rw [List.getElem?_eq_none (by omega), List.getElem?_eq_none (by omega)]

/-! ## Drop -/

theorem foldl_clear (v : List (Ref T)) : ∀ (nb : PointId → Nat → List (PWO T)) (q : PointId) (l : Nat),
    (v.foldl (fun nb p => clearNb p.pid nb) nb) q l = if q ∈ v.map (·.pid) then [] else nb q l := by
  induction v with
  | nil => intro nb q l; simp
  | cons p v ih =>
    intro nb q l
    rw [List.foldl_cons, ih]
    simp only [List.map_cons, List.mem_cons, clearNb]
    by_cases h1 : q ∈ v.map (·.pid)
    · simp [h1]
    · by_cases h2 : q = p.pid
      · simp [h2]
      · simp [h1, h2]

/-- effect of the loop of drop on a list of distinct layers -/
theorem dropLayers_spec : ∀ (ls : List Nat) (s : Idx T), (∀ l ∈ ls, l < s.layers.length) →
    ls.Nodup →
    ∃ s', dropLayers s ls = .ok s' ∧
      (∀ q l, (∃ l' ∈ ls, q ∈ (s.layer l').map (·.pid)) → s'.nb q l = []) ∧
      (∀ q l, s'.nb q l = [] ∨ s'.nb q l = s.nb q l) ∧
      (∀ l, s'.layer l = if l ∈ ls then [] else s.layer l) := by
  intro ls
  induction ls with
  | nil => intro s _ _; exact ⟨s, rfl, by simp, by simp, by simp⟩
  | cons l0 ls ih =>
    intro s hl hnd
    have hl0 := hl l0 (by simp)
    rw [List.nodup_cons] at hnd
    have hly : s.layers[l0]? = some (s.layer l0) := by
      unfold Idx.layer; rw [List.getElem?_eq_getElem hl0]; rfl
    obtain ⟨s', h1, h2, h2', h3⟩ := ih { s with
        nb := (s.layer l0).foldl (fun nb p => clearNb p.pid nb) s.nb
        layers := s.layers.set l0 [] } (by
          intro l hl'
          simp only [List.length_set]
          exact hl l (List.mem_cons_of_mem _ hl')) hnd.2
    have hlayer : ∀ l, (s.layers.set l0 [])[l]?.getD [] = if l = l0 then [] else s.layer l := by
      intro l
      by_cases h : l = l0
      · subst h; simp [List.getElem?_set_self hl0]
      · rw [List.getElem?_set_ne (fun h' => h h'.symm), if_neg h]; rfl
    refine ⟨s', ?_, ?_, ?_, ?_⟩
    · simp only [dropLayers, hly, h1]
    · rintro q l ⟨l', hm, hq⟩
      rcases List.mem_cons.1 hm with rfl | hm'
      · rcases h2' q l with h | h
        · exact h
        · rw [h]; simp only [foldl_clear, if_pos hq]
      · apply h2
        refine ⟨l', hm', ?_⟩
        show q ∈ ((s.layers.set l0 [])[l']?.getD []).map (·.pid)
        have hne : l' ≠ l0 := by rintro rfl; exact hnd.1 hm'
        rw [hlayer, if_neg hne]
        exact hq
    · intro q l
      rcases h2' q l with h | h
      · exact Or.inl h
      · rw [h]
        simp only [foldl_clear]
        split
        · exact Or.inl rfl
        · exact Or.inr rfl
    · intro l
      rw [h3]
      simp only [Idx.layer, List.mem_cons] at hlayer ⊢
      rw [hlayer]
      by_cases h : l ∈ ls
      · simp [h]
      · by_cases h' : l = l0
        · simp [h']
        · simp [h, h']

/-- effect of drop -/
theorem dropIdx_spec {cfg : Cfg T} {s : Idx T} (hok : IdxOK cfg s)
    (hm : 0 < cfg.maxLayer) :
    ∃ s', dropIdx s = .ok s' ∧ (∀ q l, s'.nb q l = [] ∨ s'.nb q l = s.nb q l) ∧
      (∀ o e, Stored s o → s.entry = some e → o.pid.layer ≤ e.pid.layer → ∀ l, s'.nb o.pid l = []) ∧
      (∀ o, Stored s' o → Stored s o ∧ ∀ e, s.entry = some e → e.pid.layer < o.pid.layer) := by
  have hlt : getMaxLevelObserved s < s.layers.length := by
    rw [hok.tab.len]
    unfold getMaxLevelObserved
    cases he : s.entry with
    | none => exact hm
    | some e => exact hok.tab.layer_lt (hok.entry e he)
  obtain ⟨s1, hs1, hl1, hn1⟩ : ∃ s1 : Idx T, dropIdx s =
      dropLayers s1 (List.range (getMaxLevelObserved s + 1)) ∧ s1.layers = s.layers ∧
      ∀ q l, s1.nb q l = [] ∨ s1.nb q l = s.nb q l := by
    refine ⟨_, rfl, ?_, ?_⟩
    · cases s.entry <;> rfl
    · intro q l
      cases s.entry with
      | none => exact Or.inr rfl
      | some e =>
        show clearNb e.pid s.nb q l = [] ∨ clearNb e.pid s.nb q l = s.nb q l
        unfold clearNb
        split
        · exact Or.inl rfl
        · exact Or.inr rfl
  have hlay1 : ∀ l, s1.layer l = s.layer l := fun l => by unfold Idx.layer; rw [hl1]
  obtain ⟨s', h1, h2, h3, h4⟩ := dropLayers_spec (List.range (getMaxLevelObserved s + 1)) s1 (by
      intro l hl
      have := List.mem_range.1 hl
      rw [hl1]
      omega) List.nodup_range
  refine ⟨s', hs1 ▸ h1, ?_, ?_, ?_⟩
  · intro q l
    rcases h3 q l with h | h
    · exact Or.inl h
    · rw [h]; exact hn1 q l
  · intro o e ho he hle l
    apply h2
    refine ⟨o.pid.layer, ?_, ?_⟩
    · rw [List.mem_range]
      simp only [getMaxLevelObserved, he]
      omega
    · rw [hlay1]
      exact List.mem_map.2 ⟨o, (mem_layer_iff hok.tab).2 ⟨ho, rfl⟩, rfl⟩
  · intro o ho
    obtain ⟨l, hl⟩ := stored_iff.1 ho
    rw [h4] at hl
    split at hl
    · cases hl
    · rename_i hn
      rw [hlay1] at hl
      obtain ⟨ho', hl'⟩ := (mem_layer_iff hok.tab).1 hl
      refine ⟨ho', ?_⟩
      intro e he
      rw [List.mem_range] at hn
      simp only [getMaxLevelObserved, he] at hn
      omega

end Verif
