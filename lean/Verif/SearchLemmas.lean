import Verif.Search
import Verif.Heap

set_option autoImplicit false

/-! # Invariants of the search loop, part A: no assumption on the distance function -/

namespace Verif
variable {T : Type} {P : Policy T} {eval : List T → List T → F32} {q : List T} {ef : Nat}
  {filt : Option (DataId → Bool)}

theorem trim_cases (L : P.Lawful) (r : P.H) :
    (trim P ef r = r ∧ P.len r ≤ ef) ∨ (∃ x, P.pop r = some (x, trim P ef r) ∧ ef < P.len r) := by
  unfold trim
  by_cases h : ef < P.len r
  · right
    obtain ⟨x, r', hp⟩ := L.pop_isSome (Policy.len_pos_iff.1 (by omega : 0 < P.len r))
    exact ⟨x, by simp [h, hp], h⟩
  · left
    simp [h]; omega

theorem trim_sub (L : P.Lawful) (r : P.H) {y : PWO T} (hy : y ∈ P.items (trim P ef r)) :
    y ∈ P.items r := by
  rcases trim_cases (ef := ef) L r with ⟨h, -⟩ | ⟨x, h, -⟩
  · rwa [h] at hy
  · exact (L.mem_pop h).2 (Or.inr hy)

theorem trim_nodup (L : P.Lawful) (r : P.H) (hn : ((P.items r).map (·.pt.pid)).Nodup) :
    ((P.items (trim P ef r)).map (·.pt.pid)).Nodup := by
  rcases trim_cases (ef := ef) L r with ⟨h, -⟩ | ⟨x, h, -⟩
  · rwa [h]
  · exact (L.nodup_pop h hn).1

theorem pushC_err {h : P.H} {e : PWO T} {x : Panic} (hx : P.pushC h e = .error x) : x = .nan := by
  unfold Policy.pushC at hx
  split at hx
  · exact (Except.error.inj hx).symm
  · cases hx

theorem pushRet_err {r : P.H} {e : PWO T} {x : Panic} (hx : pushRet P filt r e = .error x) :
    x = .nan := by
  unfold pushRet at hx
  split at hx
  · exact pushC_err hx
  · split at hx
    · exact pushC_err hx
    · cases hx

theorem scanE_err {e : Ref T} {st : SL P} {x : Panic}
    (hx : scanE P eval q ef filt e st = .error x) : x = .nan := by
  unfold scanE at hx
  split at hx
  · cases hx
  · split at hx
    · cases hx
    · simp only at hx
      split at hx
      · split at hx
        · rename_i hy
          cases hx
          exact pushC_err hy
        · split at hx
          · rename_i hy
            cases hx
            exact pushRet_err hy
          · cases hx
      · cases hx

theorem scanList_err {es : List (PWO T)} {st : SL P} {x : Panic}
    (hx : scanList P eval q ef filt es st = .error x) : x = .nan := by
  induction es generalizing st with
  | nil => simp [scanList] at hx
  | cons e es ih =>
    simp only [scanList] at hx
    split at hx
    · rename_i hy
      cases hx
      exact scanE_err hy
    · cases hx
    · exact ih hx

/-- What insertion in the returned heap may do. -/
theorem pushRet_cases {r r' : P.H} {e : PWO T} (h : pushRet P filt r e = .ok r') :
    (r' = r ∧ ∃ φ, filt = some φ ∧ φ e.pt.origin = false) ∨
    ((filt = none ∨ ∃ φ, filt = some φ ∧ φ e.pt.origin = true) ∧ r' = P.push r e ∧
      (∀ φ, filt = some φ → P.len r = 1 → ∀ x, P.peek r = some x → φ x.pt.origin = true)) ∨
    (r' = P.push P.empty e ∧ P.len r = 1 ∧
      ∃ φ x, filt = some φ ∧ φ e.pt.origin = true ∧ P.peek r = some x ∧ φ x.pt.origin = false) := by
  unfold pushRet at h
  cases hf : filt with
  | none =>
    rw [hf] at h
    have := Policy.pushC_ok h
    right; left
    exact ⟨Or.inl rfl, this, by simp⟩
  | some φ =>
    rw [hf] at h
    simp only at h
    by_cases hφ : φ e.pt.origin = true
    · simp only [hφ, if_true] at h
      by_cases hl : P.len r = 1
      · simp only [hl, if_true] at h
        cases hp : P.peek r with
        | none =>
          rw [hp] at h
          have := Policy.pushC_ok h
          right; left
          exact ⟨Or.inr ⟨φ, rfl, hφ⟩, this, by simp⟩
        | some x =>
          rw [hp] at h
          simp only at h
          by_cases hx : φ x.pt.origin = true
          · simp only [hx, if_true] at h
            have := Policy.pushC_ok h
            right; left
            refine ⟨Or.inr ⟨φ, rfl, hφ⟩, this, ?_⟩
            intro φ' h1 _ x' h2
            cases h1; cases h2; exact hx
          · simp only [hx] at h
            have := Policy.pushC_ok h
            right; right
            exact ⟨by simpa using this, hl, φ, x, rfl, hφ, rfl, by simpa using hx⟩
      · simp only [hl] at h
        have := Policy.pushC_ok h
        right; left
        exact ⟨Or.inr ⟨φ, rfl, hφ⟩, this, fun _ _ h' => absurd h' hl⟩
    · simp only [hφ] at h
      cases h
      left
      exact ⟨rfl, φ, rfl, by simpa using hφ⟩

theorem pushRet_mem (L : P.Lawful) {r r' : P.H} {e : PWO T} (h : pushRet P filt r e = .ok r')
    {y : PWO T} (hy : y ∈ P.items r') : y = e ∨ y ∈ P.items r := by
  rcases pushRet_cases h with ⟨h1, -⟩ | ⟨-, h1, -⟩ | ⟨h1, -, -⟩
  · subst h1; exact Or.inr hy
  · subst h1; exact L.mem_push.1 hy
  · subst h1
    rw [L.items_push_empty] at hy
    exact Or.inl (by simpa using hy)

theorem pushRet_nodup (L : P.Lawful) {r r' : P.H} {e : PWO T} (h : pushRet P filt r e = .ok r')
    (hn : ((P.items r).map (·.pt.pid)).Nodup) (he : e.pt.pid ∉ (P.items r).map (·.pt.pid)) :
    ((P.items r').map (·.pt.pid)).Nodup := by
  rcases pushRet_cases h with ⟨h1, -⟩ | ⟨-, h1, -⟩ | ⟨h1, -, -⟩
  · subst h1; exact hn
  · subst h1; exact L.nodup_push hn he
  · subst h1
    rw [L.items_push_empty]
    simp

/-- Invariant of the search loop that needs nothing about the distance function.
`K` is any property of the points that the graph transmits along its links. -/
structure InvA (P : Policy T) (eval : List T → List T → F32) (q : List T) (ef : Nat)
    (K : Ref T → Prop) (st : SL P) : Prop where
  visK : ∀ v ∈ st.vis, K v
  visNd : (st.vis.map (·.pid)).Nodup
  retIn : ∀ x ∈ P.items st.ret, x.pt ∈ st.vis ∧ x.dist = eval q x.pt.data
  candIn : ∀ x ∈ P.items st.cand, x.pt ∈ st.vis ∧ x.dist = (eval q x.pt.data).neg
  retNd : ((P.items st.ret).map (·.pt.pid)).Nodup
  candNd : ((P.items st.cand).map (·.pt.pid)).Nodup
  candB : (∀ v ∈ st.vis, (eval q v.data).isNaN = false) → P.Built st.cand
  retB : (∀ v ∈ st.vis, (eval q v.data).isNaN = false) → P.Built st.ret
  retCE : ∀ x ∈ P.items st.ret,
    (∃ y ∈ P.items st.cand, y.pt = x.pt) ∨ (eval q x.pt.data).Legal
  retLen : P.len st.ret ≤ max ef 1
  meas : P.len st.cand ≤ st.vis.length

theorem invA_init (L : P.Lawful) {K : Ref T → Prop} {ep : Ref T} (hK : K ep) :
    InvA P eval q ef K (slInit P eval q ep) := by
  constructor <;> simp [slInit, L.items_push_empty, hK, Policy.len]
  · exact fun h => .push L.built_empty h
  · exact fun h => .push L.built_empty h
  · exact Nat.le_max_right ef 1

theorem scanE_invA (L : P.Lawful) {K : Ref T → Prop} {st : SL P} (hI : InvA P eval q ef K st)
    {e : Ref T} (hK : K e) {o : Scan P} (h : scanE P eval q ef filt e st = .ok o) :
    match o with
    | .go st' => InvA P eval q ef K st' ∧ e.pid ∈ st'.vis.map (·.pid) ∧
        (∀ v ∈ st.vis, v ∈ st'.vis) ∧ st.vis.length + P.len st'.cand ≤ st'.vis.length + P.len st.cand
    | .stop r => P.items r = [] := by
  unfold scanE at h
  split at h
  · rename_i hv
    cases h
    exact ⟨hI, hv, fun _ h => h, Nat.le_refl _⟩
  · rename_i hv
    split at h
    · rename_i hp
      cases h
      exact L.peek_none.1 hp
    · rename_i f hp
      have hpk := L.peek_some hp
      simp only at h
      split at h
      · rename_i hcond
        split at h
        · cases h
        · rename_i cand' hc
          split at h
          · cases h
          · rename_i ret' hr
            cases h
            have hc1 := Policy.pushC_ok hc
            subst hc1
            have hnv : ∀ x : PWO T, x.pt ∈ st.vis → x.pt.pid ≠ e.pid := by
              intro x hx heq
              exact hv (heq ▸ List.mem_map_of_mem hx)
            have hnret : (⟨e, eval q e.data⟩ : PWO T).pt.pid ∉
                (P.items st.ret).map (·.pt.pid) := by
              intro hm
              obtain ⟨x, hx, hx'⟩ := List.mem_map.1 hm
              exact hnv x (hI.retIn x hx).1 hx'
            have hncand : (⟨e, (eval q e.data).neg⟩ : PWO T).pt.pid ∉
                (P.items st.cand).map (·.pt.pid) := by
              intro hm
              obtain ⟨x, hx, hx'⟩ := List.mem_map.1 hm
              exact hnv x (hI.candIn x hx).1 hx'
            have hmem : ∀ y ∈ P.items (trim P ef ret'),
                y = ⟨e, eval q e.data⟩ ∨ y ∈ P.items st.ret :=
              fun y hy => pushRet_mem L hr (trim_sub L _ hy)
            refine ⟨?_, by simp, fun v hv => List.mem_cons_of_mem _ hv, ?_⟩
            · constructor
              · intro v hv'
                rcases List.mem_cons.1 hv' with rfl | hv'
                · exact hK
                · exact hI.visK v hv'
              · simp only [List.map_cons, List.nodup_cons]
                exact ⟨hv, hI.visNd⟩
              · intro x hx
                rcases hmem x hx with rfl | hx
                · simp
                · exact ⟨List.mem_cons_of_mem _ (hI.retIn x hx).1, (hI.retIn x hx).2⟩
              · intro x hx
                rcases L.mem_push.1 hx with rfl | hx
                · simp
                · exact ⟨List.mem_cons_of_mem _ (hI.candIn x hx).1, (hI.candIn x hx).2⟩
              · exact trim_nodup L _ (pushRet_nodup L hr hI.retNd hnret)
              · exact L.nodup_push hI.candNd hncand
              · intro hN
                exact .push (hI.candB fun v hv => hN v (List.mem_cons_of_mem _ hv)) (hN e (by simp))
              · intro hN
                have h1 := hI.retB fun v hv => hN v (List.mem_cons_of_mem _ hv)
                have h2 : P.Built ret' := by
                  rcases pushRet_cases hr with ⟨h2, -⟩ | ⟨-, h2, -⟩ | ⟨h2, -, -⟩
                  · rw [h2]; exact h1
                  · rw [h2]; exact .push h1 (hN e (by simp))
                  · rw [h2]; exact .push L.built_empty (hN e (by simp))
                rcases trim_cases (ef := ef) L ret' with ⟨h3, -⟩ | ⟨x, h3, -⟩
                · show P.Built (trim P ef ret')
                  rw [h3]; exact h2
                · exact .pop h2 h3
              · intro x hx
                rcases hmem x hx with rfl | hx
                · exact Or.inl ⟨_, L.mem_push.2 (Or.inl rfl), rfl⟩
                · rcases hI.retCE x hx with ⟨y, hy, hy'⟩ | hl
                  · exact Or.inl ⟨y, L.mem_push.2 (Or.inr hy), hy'⟩
                  · exact Or.inr hl
              · simp only
                have h1 := hI.retLen
                have hlen : P.len ret' ≤ P.len st.ret + 1 := by
                  rcases pushRet_cases hr with ⟨h1, -⟩ | ⟨-, h1, -⟩ | ⟨h1, -, -⟩
                  · subst h1; omega
                  · subst h1; rw [L.len_push]; omega
                  · subst h1; rw [L.len_push, L.len_empty]; omega
                rcases trim_cases (ef := ef) L ret' with ⟨h2, h3⟩ | ⟨x, h2, h3⟩
                · rw [h2]; omega
                · have := L.len_pop h2
                  omega
              · simp only [List.length_cons, L.len_push]
                have := hI.meas
                omega
            · simp only [List.length_cons, L.len_push]
              omega
      · cases h
        refine ⟨?_, by simp, fun v hv => List.mem_cons_of_mem _ hv, ?_⟩
        · constructor
          · intro v hv'
            rcases List.mem_cons.1 hv' with rfl | hv'
            · exact hK
            · exact hI.visK v hv'
          · simp only [List.map_cons, List.nodup_cons]
            exact ⟨hv, hI.visNd⟩
          · intro x hx
            exact ⟨List.mem_cons_of_mem _ (hI.retIn x hx).1, (hI.retIn x hx).2⟩
          · intro x hx
            exact ⟨List.mem_cons_of_mem _ (hI.candIn x hx).1, (hI.candIn x hx).2⟩
          · exact hI.retNd
          · exact hI.candNd
          · exact fun hN => hI.candB fun v hv => hN v (List.mem_cons_of_mem _ hv)
          · exact fun hN => hI.retB fun v hv => hN v (List.mem_cons_of_mem _ hv)
          · exact hI.retCE
          · exact hI.retLen
          · simp only [List.length_cons]
            have := hI.meas
            omega
        · simp only [List.length_cons]; omega

theorem scanList_invA (L : P.Lawful) {K : Ref T → Prop} {es : List (PWO T)} :
    ∀ {st : SL P}, InvA P eval q ef K st → (∀ e ∈ es, K e.pt) →
    ∀ {o : Scan P}, scanList P eval q ef filt es st = .ok o →
    match o with
    | .go st' => InvA P eval q ef K st' ∧ (∀ e ∈ es, e.pt.pid ∈ st'.vis.map (·.pid)) ∧
        (∀ v ∈ st.vis, v ∈ st'.vis) ∧ st.vis.length + P.len st'.cand ≤ st'.vis.length + P.len st.cand
    | .stop r => P.items r = [] := by
  induction es with
  | nil =>
    intro st hI _ o h
    simp only [scanList] at h
    cases h
    exact ⟨hI, by simp, fun _ h => h, Nat.le_refl _⟩
  | cons e es ih =>
    intro st hI hK o h
    simp only [scanList] at h
    split at h
    · cases h
    · rename_i r hs
      cases h
      exact scanE_invA L hI (hK e (by simp)) hs
    · rename_i st' hs
      have h1 := scanE_invA L hI (hK e (by simp)) hs
      simp only at h1
      have h2 := ih h1.1 (fun e' he' => hK e' (List.mem_cons_of_mem _ he')) h
      cases o with
      | stop r => exact h2
      | go st'' =>
        simp only at h2 ⊢
        refine ⟨h2.1, ?_, fun v hv => h2.2.2.1 v (h1.2.2.1 v hv), by omega⟩
        intro e' he'
        rcases List.mem_cons.1 he' with rfl | he'
        · obtain ⟨v, hv, hv'⟩ := List.mem_map.1 h1.2.1
          exact List.mem_map.2 ⟨v, h2.2.2.1 v hv, hv'⟩
        · exact h2.2.1 e' he'

/-- What is known about the result of a search: its content is made of distinct points with their
exact distance to the query. Without NaN, the distances are legal and the heap is in order. -/
structure ResA (P : Policy T) (eval : List T → List T → F32) (q : List T) (ef : Nat)
    (K : Ref T → Prop) (r : P.H) : Prop where
  inK : ∀ x ∈ P.items r, K x.pt
  dist : ∀ x ∈ P.items r, x.dist = eval q x.pt.data
  legal : (∀ v, K v → (eval q v.data).isNaN = false) → ∀ x ∈ P.items r, x.dist.Legal
  built : (∀ v, K v → (eval q v.data).isNaN = false) → P.Built r
  nd : ((P.items r).map (·.pt.pid)).Nodup
  len : P.len r ≤ max ef 1

theorem resA_empty {K : Ref T → Prop} {r : P.H} (h : P.items r = []) : ResA P eval q ef K r := by
  refine ⟨by simp [h], by simp [h], by simp [h], fun _ => .nil h, by simp [h], by simp [h, Policy.len]⟩

theorem legal_of_neg_le {x : F32} (h : x.neg.le F32.zero = true) : x.Legal := by
  rw [F32.le_iff] at h
  simp at h
  exact ⟨h.1, by omega⟩

theorem head_invA (L : P.Lawful) {K : Ref T → Prop} {st : SL P} (hI : InvA P eval q ef K st) :
    match head P ef filt st with
    | .done r => ResA P eval q ef K r
    | .panic _ => True
    | .expand c st' => InvA P eval q ef K st' ∧ c ∈ st.vis ∧ st'.vis = st.vis ∧
        P.len st.cand = P.len st'.cand + 1 ∧ P.items st'.ret ≠ [] := by
  unfold head
  cases hp : P.pop st.cand with
  | none =>
    have hc : P.items st.cand = [] := (L.pop_none _).1 hp
    simp only
    refine ⟨fun x hx => hI.visK _ (hI.retIn x hx).1, fun x hx => (hI.retIn x hx).2, ?_,
      fun hN => hI.retB fun v hv => hN v (hI.visK v hv), hI.retNd, hI.retLen⟩
    intro _ x hx
    rw [(hI.retIn x hx).2]
    rcases hI.retCE x hx with ⟨y, hy, -⟩ | h
    · simp [hc] at hy
    · exact h
  | some z =>
    obtain ⟨c, cand'⟩ := z
    simp only
    cases hf : P.peek st.ret with
    | none => simp
    | some f =>
      simp only
      by_cases h1 : F32.zero.le f.dist = false
      · simp [h1]
      · by_cases h2 : c.dist.le F32.zero = false
        · simp [h1, h2]
        · have hcm : c ∈ P.items st.cand := (L.mem_pop hp).2 (Or.inl rfl)
          have hcd := (hI.candIn c hcm).2
          have hcl : (eval q c.pt.data).Legal := by
            apply legal_of_neg_le
            rw [← hcd]; simpa using h2
          rw [if_neg h1, if_neg h2]
          by_cases hfr : (f.dist.lt c.dist.neg &&
              (filt.isNone || decide (ef ≤ P.len st.ret))) = true
          · -- fast return
            rw [if_pos hfr]
            simp only
            refine ⟨fun x hx => hI.visK _ (hI.retIn x hx).1, fun x hx => (hI.retIn x hx).2, ?_,
              fun hN => hI.retB fun v hv => hN v (hI.visK v hv), hI.retNd, hI.retLen⟩
            intro hN x hx
            rw [(hI.retIn x hx).2]
            rcases hI.retCE x hx with ⟨y, hy, hyx⟩ | h
            · rw [← hyx]
              by_cases hyc : y = c
              · rw [hyc]; exact hcl
              · have hyc' : y ∈ P.items cand' := by
                  rcases (L.mem_pop hp).1 hy with h | h
                  · exact absurd h hyc
                  · exact h
                have hB := hI.candB fun v hv => hN v (hI.visK v hv)
                have hnan := L.built_noNaN hB y hy
                have hkey := L.pop_max _ hB _ _ hp y hy
                rw [(hI.candIn y hy).2] at hnan hkey
                rw [hcd] at hkey
                simp at hnan hkey
                refine ⟨hnan, ?_⟩
                have := hcl.2
                omega
            · exact h
          · rw [if_neg hfr]
            simp only
            refine ⟨?_, (hI.candIn c hcm).1, trivial, L.len_pop hp, ?_⟩
            · have hsub : ∀ y ∈ P.items cand', y ∈ P.items st.cand :=
                fun y hy => (L.mem_pop hp).2 (Or.inr hy)
              refine ⟨hI.visK, hI.visNd, hI.retIn, fun x hx => hI.candIn x (hsub x hx), hI.retNd,
                (L.nodup_pop hp hI.candNd).1, fun hN => .pop (hI.candB hN) hp, hI.retB, ?_, hI.retLen, ?_⟩
              · intro x hx
                rcases hI.retCE x hx with ⟨y, hy, hyx⟩ | h
                · rcases (L.mem_pop hp).1 hy with h | h
                  · right; rw [← hyx, h]; exact hcl
                  · exact Or.inl ⟨y, h, hyx⟩
                · exact Or.inr h
              · have := hI.meas
                rw [L.len_pop hp] at this
                simp only; omega
            · intro h
              rw [L.peek_none.2 h] at hf
              cases hf

theorem slLoop_resA (L : P.Lawful) {K : Ref T → Prop} {nbf : PointId → List (PWO T)}
    (hg : ∀ c, K c → ∀ e ∈ nbf c.pid, K e.pt) :
    ∀ (n : Nat) {st : SL P}, InvA P eval q ef K st → ∀ {r},
      slLoop P eval q ef filt nbf n st = .ok r → ResA P eval q ef K r := by
  intro n
  induction n with
  | zero => intro st _ r h; simp [slLoop] at h
  | succ n ih =>
    intro st hI r h
    simp only [slLoop] at h
    have hh := head_invA (filt := filt) L hI
    split at h
    · rename_i r' he
      rw [he] at hh
      cases h
      exact hh
    · cases h
    · rename_i c st' he
      rw [he] at hh
      simp only at hh
      have hs : ∀ e ∈ nbf c.pid, K e.pt := hg c (hI.visK c hh.2.1)
      split at h
      · cases h
      · rename_i r' hsc
        cases h
        exact resA_empty (scanList_invA L hh.1 hs hsc)
      · rename_i st'' hsc
        exact ih (scanList_invA L hh.1 hs hsc).1 h

/-- The iteration budget of `searchLayer` is never the reason of an error: with fewer than `n`
points reachable, `n + 2` iterations suffice. -/
theorem slLoop_no_fuel (L : P.Lawful) {K : Ref T → Prop} {nbf : PointId → List (PWO T)}
    (hg : ∀ c, K c → ∀ e ∈ nbf c.pid, K e.pt) (N : Nat)
    (hN : ∀ l : List (Ref T), (∀ v ∈ l, K v) → (l.map (·.pid)).Nodup → l.length ≤ N) :
    ∀ (n : Nat) {st : SL P}, InvA P eval q ef K st → N + P.len st.cand + 1 ≤ n + st.vis.length →
      slLoop P eval q ef filt nbf n st ≠ .error .fuel := by
  intro n
  induction n with
  | zero =>
    intro st hI hn
    have := hN st.vis hI.visK hI.visNd
    omega
  | succ n ih =>
    intro st hI hn
    simp only [slLoop]
    have hh := head_invA (filt := filt) L hI
    split
    · simp
    · rename_i e he
      have : e ≠ .fuel := by
        unfold head at he
        split at he
        · cases he
        · split at he
          · cases he; simp
          · repeat' split at he
            all_goals first | (cases he; done) | (cases he; simp)
      simpa using this
    · rename_i c st' he
      rw [he] at hh
      simp only at hh
      have hs : ∀ e ∈ nbf c.pid, K e.pt := hg c (hI.visK c hh.2.1)
      split
      · rename_i x hx
        have : x ≠ .fuel := by rw [scanList_err hx]; simp
        simpa using this
      · simp
      · rename_i st'' hsc
        have h3 := scanList_invA L hh.1 hs hsc
        simp only at h3
        apply ih h3.1
        have h4 := hh.2.2.1
        rw [← h4] at hn
        have h5 := hh.2.2.2.1
        have h6 := h3.2.2.2
        omega

/-! ## Unfiltered searches with `ef ≤ 1`: no NaN enters the heaps, but for the entry point -/

/-- Invariant at the head of the loop, `ef ≤ 1`, no filter. -/
structure InvO (P : Policy T) (st : SL P) : Prop where
  one : P.len st.ret ≤ 1
  cand : P.Built st.cand ∨ P.len st.cand = 1

theorem invO_init (L : P.Lawful) {ep : Ref T} : InvO P (slInit P eval q ep) := by
  constructor <;> simp [slInit, L.items_push_empty, Policy.len]

theorem head_invO (L : P.Lawful) {K : Ref T → Prop} {st : SL P} (hI : InvA P eval q ef K st) (hO : InvO P st) :
    match head P ef none st with
    | .done r => ∀ x ∈ P.items r, x.dist.Legal
    | .panic _ => True
    | .expand _ st' => P.len st'.ret ≤ 1 ∧ P.Built st'.cand := by
  unfold head
  cases hp : P.pop st.cand with
  | none =>
    have hc : P.items st.cand = [] := (L.pop_none _).1 hp
    simp only
    intro x hx
    rw [(hI.retIn x hx).2]
    rcases hI.retCE x hx with ⟨y, hy, -⟩ | h
    · simp [hc] at hy
    · exact h
  | some z =>
    obtain ⟨c, cand'⟩ := z
    simp only
    cases hf : P.peek st.ret with
    | none => simp
    | some f =>
      simp only
      by_cases h1 : F32.zero.le f.dist = false
      · simp [h1]
      · by_cases h2 : c.dist.le F32.zero = false
        · simp [h1, h2]
        · rw [if_neg h1, if_neg h2]
          by_cases hfr : (f.dist.lt c.dist.neg && ((none : Option (DataId → Bool)).isNone ||
              decide (ef ≤ P.len st.ret))) = true
          · rw [if_pos hfr]
            simp only
            intro x hx
            have h3 : P.items st.ret = [x] := by
              have := hO.one
              unfold Policy.len at this
              match h : P.items st.ret with
              | [] => rw [h] at hx; cases hx
              | [y] => rw [h] at hx; rw [List.mem_singleton.1 hx]
              | _ :: _ :: _ => rw [h] at this; simp at this
            have h4 := (L.peek_some hf).1
            rw [h3, List.mem_singleton] at h4
            subst h4
            exact F32.legal_iff_le.2 (by simpa using h1)
          · rw [if_neg hfr]
            simp only
            refine ⟨hO.one, ?_⟩
            rcases hO.cand with h | h
            · exact .pop h hp
            · refine .nil ?_
              have := L.len_pop hp
              have : P.len cand' = 0 := by omega
              exact List.length_eq_zero_iff.1 this

theorem scanE_invO (L : P.Lawful) {st : SL P} (hef : ef ≤ 1) (h1 : P.len st.ret ≤ 1) (hB : P.Built st.cand)
    {e : Ref T} {st' : SL P} (h : scanE P eval q ef none e st = .ok (.go st')) :
    P.len st'.ret ≤ 1 ∧ P.Built st'.cand := by
  unfold scanE at h
  split at h
  · cases h; exact ⟨h1, hB⟩
  · split at h
    · cases h
    · rename_i f hf
      simp only at h
      split at h
      · rename_i hc
        split at h
        · cases h
        · rename_i cand' hc'
          split at h
          · cases h
          · rename_i ret' hr
            cases h
            have hc1 := Policy.pushC_ok hc'
            subst hc1
            have hr1 := Policy.pushC_ok (show P.pushC st.ret ⟨e, eval q e.data⟩ = .ok ret' from hr)
            subst hr1
            have hpos : 0 < P.len st.ret := Policy.len_pos_iff.2 (List.ne_nil_of_mem (L.peek_some hf).1)
            have hlt : (eval q e.data).lt f.dist = true := by
              simp only [Bool.or_eq_true, decide_eq_true_eq] at hc
              rcases hc with hc | hc
              · exact hc
              · omega
            refine ⟨?_, .push hB (by simpa using (F32.lt_iff.1 hlt).1)⟩
            simp only
            have h2 : P.len (P.push st.ret ⟨e, eval q e.data⟩) = P.len st.ret + 1 := L.len_push
            rcases trim_cases (ef := ef) L (P.push st.ret ⟨e, eval q e.data⟩) with ⟨-, h3⟩ | ⟨x, h3, -⟩
            · omega
            · have := L.len_pop h3
              omega
      · cases h; exact ⟨h1, hB⟩

theorem scanList_invO (L : P.Lawful) (hef : ef ≤ 1) {es : List (PWO T)} : ∀ {st : SL P}, P.len st.ret ≤ 1 →
    P.Built st.cand → ∀ {st' : SL P}, scanList P eval q ef none es st = .ok (.go st') →
    P.len st'.ret ≤ 1 ∧ P.Built st'.cand := by
  induction es with
  | nil =>
    intro st h1 hB st' h
    simp only [scanList] at h
    cases h
    exact ⟨h1, hB⟩
  | cons e es ih =>
    intro st h1 hB st' h
    simp only [scanList] at h
    split at h
    · cases h
    · cases h
    · rename_i st1 hs
      obtain ⟨h2, h3⟩ := scanE_invO L hef h1 hB hs
      exact ih h2 h3 h

/-! ## The result of an unfiltered search is not empty, whatever the distances -/

theorem scanE_ne (L : P.Lawful) (hef : 1 ≤ ef) {e : Ref T} {st : SL P} (hne : P.items st.ret ≠ [])
    {o : Scan P} (h : scanE P eval q ef none e st = .ok o) :
    ∃ st', o = .go st' ∧ P.items st'.ret ≠ [] := by
  unfold scanE at h
  split at h
  · cases h; exact ⟨_, rfl, hne⟩
  · obtain ⟨f, hf⟩ := L.peek_isSome hne
    simp only [hf] at h
    split at h
    · split at h
      · cases h
      · split at h
        · cases h
        · rename_i ret' hp
          cases h
          refine ⟨_, rfl, ?_⟩
          have := Policy.pushC_ok hp
          have hlen : P.len ret' = P.len st.ret + 1 := by rw [this]; exact L.len_push
          apply Policy.len_pos_iff.1
          simp only
          rcases trim_cases (ef := ef) L ret' with ⟨h1, -⟩ | ⟨x, h1, h2⟩
          · rw [h1]; omega
          · have := L.len_pop h1; omega
    · cases h; exact ⟨_, rfl, hne⟩

theorem scanList_ne (L : P.Lawful) (hef : 1 ≤ ef) {es : List (PWO T)} :
    ∀ {st : SL P}, P.items st.ret ≠ [] → ∀ {o : Scan P}, scanList P eval q ef none es st = .ok o →
    ∃ st', o = .go st' ∧ P.items st'.ret ≠ [] := by
  induction es with
  | nil => intro st hne o h; cases h; exact ⟨_, rfl, hne⟩
  | cons e es ih =>
    intro st hne o h
    simp only [scanList] at h
    cases he : scanE P eval q ef none e.pt st with
    | error x => rw [he] at h; cases h
    | ok o' =>
      obtain ⟨st', rfl, h1⟩ := scanE_ne L hef hne he
      rw [he] at h
      exact ih h1 h

theorem slLoop_ne (L : P.Lawful) (hef : 1 ≤ ef) {nbf : PointId → List (PWO T)} :
    ∀ (n : Nat) {st : SL P}, P.items st.ret ≠ [] → ∀ {r},
      slLoop P eval q ef none nbf n st = .ok r → P.items r ≠ [] := by
  intro n
  induction n with
  | zero => intro st _ r h; cases h
  | succ n ih =>
    intro st hne r h
    simp only [slLoop] at h
    have hret : (∀ r', head P ef none st = .done r' → r' = st.ret) ∧
        ∀ c st', head P ef none st = .expand c st' → st'.ret = st.ret := by
      unfold head
      split
      · exact ⟨fun _ h => (Head.done.inj h).symm, fun _ _ h => (nomatch h)⟩
      · split
        · exact ⟨fun _ h => (nomatch h), fun _ _ h => (nomatch h)⟩
        · split
          · exact ⟨fun _ h => (nomatch h), fun _ _ h => (nomatch h)⟩
          · split
            · exact ⟨fun _ h => (nomatch h), fun _ _ h => (nomatch h)⟩
            · split
              · exact ⟨fun _ h => (Head.done.inj h).symm, fun _ _ h => (nomatch h)⟩
              · exact ⟨fun _ h => (nomatch h), fun _ _ h => by (cases h; rfl)⟩
    cases hh : head P ef none st with
    | done r' => rw [hh] at h; cases h; rw [hret.1 _ hh]; exact hne
    | panic e => rw [hh] at h; cases h
    | expand c st' =>
      rw [hh] at h
      simp only at h
      have hne' : P.items st'.ret ≠ [] := by rw [hret.2 _ _ hh]; exact hne
      cases hs : scanList P eval q ef none (nbf c.pid) st' with
      | error x => rw [hs] at h; cases h
      | ok o =>
        obtain ⟨st'', rfl, h1⟩ := scanList_ne L hef hne' hs
        rw [hs] at h
        exact ih h1 h

end Verif
