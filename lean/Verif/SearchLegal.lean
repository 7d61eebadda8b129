import Verif.SearchLemmas
import Verif.Spec

set_option autoImplicit false

/-! # Invariants of the search loop, part B: legal distances -/

namespace Verif
variable {T : Type} {P : Policy T} {eval : List T → List T → F32} {q : List T} {ef : Nat}

/-- everything known to the search is legal -/
theorem InvA.ret_nan {K : Ref T → Prop} {st : SL P} (hI : InvA P eval q ef K st)
    (hL : ∀ v, K v → (eval q v.data).Legal) {x : PWO T} (hx : x ∈ P.items st.ret) :
    x.dist.Legal := by
  rw [(hI.retIn x hx).2]; exact hL _ (hI.visK _ (hI.retIn x hx).1)

theorem InvA.cand_nan {K : Ref T → Prop} {st : SL P} (hI : InvA P eval q ef K st)
    (hL : ∀ v, K v → (eval q v.data).Legal) {x : PWO T} (hx : x ∈ P.items st.cand) :
    x.dist.isNaN = false := by
  rw [(hI.candIn x hx).2]
  exact (hL _ (hI.visK _ (hI.candIn x hx).1)).1

theorem InvA.cand_built {K : Ref T → Prop} {st : SL P} (hI : InvA P eval q ef K st)
    (hL : ∀ v, K v → (eval q v.data).Legal) : P.Built st.cand :=
  hI.candB fun v hv => (hL v (hI.visK v hv)).1

theorem InvA.ret_built {K : Ref T → Prop} {st : SL P} (hI : InvA P eval q ef K st)
    (hL : ∀ v, K v → (eval q v.data).Legal) : P.Built st.ret :=
  hI.retB fun v hv => (hL v (hI.visK v hv)).1

theorem InvA.cand_key {K : Ref T → Prop} {st : SL P} (hI : InvA P eval q ef K st)
    (hL : ∀ v, K v → (eval q v.data).Legal) {x : PWO T} (hx : x ∈ P.items st.cand) :
    x.dist.key ≤ 0 := by
  rw [(hI.candIn x hx).2]
  have := (hL _ (hI.visK _ (hI.candIn x hx).1)).2
  simp; omega

theorem lt_key {a b : F32} (ha : a.Legal) (hb : b.Legal) : a.lt b = decide (a.key < b.key) := by
  simp [F32.lt, ha.1, hb.1]

/-- everything known to the search is comparable -/
theorem InvA.ret_num {K : Ref T → Prop} {st : SL P} (hI : InvA P eval q ef K st)
    (hL : ∀ v, K v → (eval q v.data).isNaN = false) {x : PWO T} (hx : x ∈ P.items st.ret) :
    x.dist.isNaN = false := by
  rw [(hI.retIn x hx).2]; exact hL _ (hI.visK _ (hI.retIn x hx).1)

theorem InvA.cand_builtN {K : Ref T → Prop} {st : SL P} (hI : InvA P eval q ef K st)
    (hL : ∀ v, K v → (eval q v.data).isNaN = false) : P.Built st.cand :=
  hI.candB fun v hv => hL v (hI.visK v hv)

theorem InvA.ret_builtN {K : Ref T → Prop} {st : SL P} (hI : InvA P eval q ef K st)
    (hL : ∀ v, K v → (eval q v.data).isNaN = false) : P.Built st.ret :=
  hI.retB fun v hv => hL v (hI.visK v hv)

theorem lt_keyN {a b : F32} (ha : a.isNaN = false) (hb : b.isNaN = false) :
    a.lt b = decide (a.key < b.key) := by
  simp [F32.lt, ha, hb]

/-- without NaN the loop head panics, as long as something is returned, only when it meets a negative
distance. -/
theorem head_num (L : P.Lawful) {filt : Option (DataId → Bool)} {K : Ref T → Prop} {st : SL P}
    (hI : InvA P eval q ef K st) (hL : ∀ v, K v → (eval q v.data).isNaN = false)
    (hne : P.items st.ret ≠ []) :
    (head P ef filt st = .panic .assertion ∧ ∃ v, K v ∧ ¬ (eval q v.data).Legal) ∨
    (P.items st.cand = [] ∧ head P ef filt st = .done st.ret) ∨
    (∃ c cand' f, P.pop st.cand = some (c, cand') ∧ P.peek st.ret = some f ∧
      ((head P ef filt st = .done st.ret ∧ f.dist.key < (eval q c.pt.data).key ∧
          (filt = none ∨ ef ≤ P.len st.ret)) ∨
       (head P ef filt st = .expand c.pt ⟨cand', st.ret, st.vis⟩ ))) := by
  cases hp : P.pop st.cand with
  | none =>
    right; left
    refine ⟨(L.pop_none _).1 hp, ?_⟩
    simp [head, hp]
  | some z =>
    obtain ⟨c, cand'⟩ := z
    obtain ⟨f, hf⟩ := L.peek_isSome hne
    have hcm : c ∈ P.items st.cand := (L.mem_pop hp).2 (Or.inl rfl)
    have hfm := (L.peek_some hf).1
    have hfl := hI.ret_num hL hfm
    have hcK : K c.pt := hI.visK _ (hI.candIn c hcm).1
    have hcl := hL _ hcK
    have hcn : c.dist.neg = eval q c.pt.data := by rw [(hI.candIn c hcm).2]; simp
    by_cases h1 : F32.zero.le f.dist = false
    · left
      refine ⟨by unfold head; rw [hp]; simp only [hf, if_pos h1], f.pt,
        hI.visK _ (hI.retIn f hfm).1, ?_⟩
      rw [← (hI.retIn f hfm).2, F32.legal_iff_le, h1]
      simp
    by_cases h2 : c.dist.le F32.zero = false
    · left
      refine ⟨by unfold head; rw [hp]; simp only [hf, if_neg h1, if_pos h2], c.pt, hcK, ?_⟩
      intro hleg
      have : c.dist.le F32.zero = true := by
        rw [F32.le_iff]
        refine ⟨?_, rfl, ?_⟩
        · rw [(hI.candIn c hcm).2]; simpa using hcl
        · rw [(hI.candIn c hcm).2]
          have := hleg.2
          simp; omega
      rw [this] at h2
      cases h2
    right; right
    refine ⟨c, cand', f, rfl, hf, ?_⟩
    unfold head
    rw [hp]
    simp only [hf, if_neg h1, if_neg h2, hcn, lt_keyN hfl hcl]
    by_cases hc : (decide (f.dist.key < (eval q c.pt.data).key) &&
        (filt.isNone || decide (ef ≤ P.len st.ret))) = true
    · left
      rw [if_pos hc]
      simp at hc
      exact ⟨rfl, hc.1, hc.2⟩
    · right
      rw [if_neg hc]

/-- with legal distances the loop head never panics as long as something is returned. -/
theorem head_legal (L : P.Lawful) {filt : Option (DataId → Bool)} {K : Ref T → Prop} {st : SL P}
    (hI : InvA P eval q ef K st) (hL : ∀ v, K v → (eval q v.data).Legal)
    (hne : P.items st.ret ≠ []) :
    (P.items st.cand = [] ∧ head P ef filt st = .done st.ret) ∨
    (∃ c cand' f, P.pop st.cand = some (c, cand') ∧ P.peek st.ret = some f ∧
      ((head P ef filt st = .done st.ret ∧ f.dist.key < (eval q c.pt.data).key ∧
          (filt = none ∨ ef ≤ P.len st.ret)) ∨
       (head P ef filt st = .expand c.pt ⟨cand', st.ret, st.vis⟩ ))) := by
  rcases head_num (filt := filt) L hI (fun v hv => (hL v hv).1) hne with ⟨-, v, hv, hn⟩ | h
  · exact absurd (hL v hv) hn
  · exact h

/-- Extra invariant, search without filter.  `exp` is the (ghost) list of expanded points. -/
structure InvN (P : Policy T) (eval : List T → List T → F32) (q : List T) (ef : Nat)
    (exp : List (Ref T)) (st : SL P) : Prop where
  ne : P.items st.ret ≠ []
  ce : ∀ x ∈ P.items st.ret, (∃ y ∈ P.items st.cand, y.pt = x.pt) ∨ x.pt ∈ exp
  far : ∀ v ∈ st.vis, (∃ x ∈ P.items st.ret, x.pt = v) ∨
    (ef ≤ P.len st.ret ∧ ∀ r ∈ P.items st.ret, r.dist.key ≤ (eval q v.data).key)

theorem scanE_invN (L : P.Lawful) {K : Ref T → Prop} {st : SL P} {exp : List (Ref T)}
    (hI : InvA P eval q ef K st) (hN : InvN P eval q ef exp st)
    (hL : ∀ v, K v → (eval q v.data).isNaN = false) {e : Ref T} (hK : K e) :
    ∃ st', scanE P eval q ef none e st = .ok (.go st') ∧ InvN P eval q ef exp st' := by
  unfold scanE
  split
  · exact ⟨st, rfl, hN⟩
  · obtain ⟨f, hf⟩ := L.peek_isSome hN.ne
    have hfm := L.peek_some hf
    have hfl := hI.ret_num hL hfm.1
    have hel := hL e hK
    simp only [hf, lt_keyN hel hfl]
    by_cases hc : (decide ((eval q e.data).key < f.dist.key) || decide (P.len st.ret < ef)) = true
    · rw [if_pos hc]
      have hp1 : P.pushC st.cand ⟨e, (eval q e.data).neg⟩ = .ok (P.push st.cand ⟨e, (eval q e.data).neg⟩) :=
        L.pushC_built (by simpa using hel) (hI.cand_builtN hL)
      have hp2 : pushRet P none st.ret ⟨e, eval q e.data⟩ = .ok (P.push st.ret ⟨e, eval q e.data⟩) :=
        L.pushC_built hel (hI.ret_builtN hL)
      simp only [hp1, hp2]
      refine ⟨_, rfl, ?_⟩
      simp at hc
      generalize hr' : P.push st.ret ⟨e, eval q e.data⟩ = r'
      have hmem : ∀ y, y ∈ P.items r' ↔ y = ⟨e, eval q e.data⟩ ∨ y ∈ P.items st.ret := by
        intro y; rw [← hr']; exact L.mem_push
      have hlen : P.len r' = P.len st.ret + 1 := by rw [← hr']; exact L.len_push
      have hpos : 0 < P.len st.ret := Policy.len_pos_iff.2 hN.ne
      have hce : ∀ x ∈ P.items (trim P ef r'),
          (∃ y ∈ P.items (P.push st.cand ⟨e, (eval q e.data).neg⟩), y.pt = x.pt) ∨ x.pt ∈ exp := by
        intro x hx
        rcases (hmem x).1 (trim_sub L _ hx) with rfl | hx
        · exact Or.inl ⟨_, L.mem_push.2 (Or.inl rfl), rfl⟩
        · rcases hN.ce x hx with ⟨y, hy, hy'⟩ | h
          · exact Or.inl ⟨y, L.mem_push.2 (Or.inr hy), hy'⟩
          · exact Or.inr h
      have hmem' : ∀ v ∈ e :: st.vis, (∃ x ∈ P.items r', x.pt = v) ∨
          (ef ≤ P.len st.ret ∧ ∀ r ∈ P.items r', r.dist.key ≤ (eval q v.data).key) := by
        intro v hv
        rcases List.mem_cons.1 hv with rfl | hv
        · exact Or.inl ⟨_, (hmem _).2 (Or.inl rfl), rfl⟩
        · rcases hN.far v hv with ⟨x, hx, hx'⟩ | ⟨h1, h2⟩
          · exact Or.inl ⟨x, (hmem _).2 (Or.inr hx), hx'⟩
          · refine Or.inr ⟨h1, fun r hr => ?_⟩
            rcases (hmem r).1 hr with rfl | hr
            · have := h2 f hfm.1
              simp only
              omega
            · exact h2 r hr
      rcases trim_cases (ef := ef) L r' with ⟨h1, h2⟩ | ⟨x, h1, h2⟩
      · rw [h1] at hce ⊢
        refine ⟨?_, hce, ?_⟩
        · apply Policy.len_pos_iff.1
          simp only; omega
        · intro v hv
          rcases hmem' v hv with h | ⟨h, -⟩
          · exact Or.inl h
          · omega
      · have hl2 := L.len_pop h1
        refine ⟨?_, hce, ?_⟩
        · apply Policy.len_pos_iff.1
          simp only; omega
        · intro v hv
          simp only
          have hsub : ∀ r ∈ P.items (trim P ef r'), r ∈ P.items r' :=
            fun r hr => (L.mem_pop h1).2 (Or.inr hr)
          rcases hmem' v hv with ⟨y, hy, hyv⟩ | ⟨h3, h4⟩
          · rcases (L.mem_pop h1).1 hy with rfl | hy2
            · right
              refine ⟨by omega, fun r hr => ?_⟩
              have h5 := L.pop_max _ (hr' ▸ .push (hI.ret_builtN hL) hel) _ _ h1 r (hsub r hr)
              have h6 : y.dist = eval q y.pt.data := by
                rcases (hmem y).1 hy with rfl | hy
                · rfl
                · exact (hI.retIn y hy).2
              rw [h6, hyv] at h5
              exact h5
            · exact Or.inl ⟨y, hy2, hyv⟩
          · exact Or.inr ⟨by omega, fun r hr => h4 r (hsub r hr)⟩
    · rw [if_neg hc]
      refine ⟨_, rfl, hN.ne, hN.ce, ?_⟩
      simp at hc
      intro v hv
      rcases List.mem_cons.1 hv with rfl | hv
      · refine Or.inr ⟨hc.2, fun r hr => ?_⟩
        have := hfm.2 (hI.ret_builtN hL) r hr
        omega
      · exact hN.far v hv

theorem scanList_invN (L : P.Lawful) {K : Ref T → Prop} {exp : List (Ref T)}
    (hL : ∀ v, K v → (eval q v.data).isNaN = false) {es : List (PWO T)} :
    ∀ {st : SL P}, InvA P eval q ef K st → InvN P eval q ef exp st → (∀ e ∈ es, K e.pt) →
    ∃ st', scanList P eval q ef none es st = .ok (.go st') ∧ InvN P eval q ef exp st' := by
  induction es with
  | nil => intro st _ hN _; exact ⟨st, rfl, hN⟩
  | cons e es ih =>
    intro st hI hN hK
    obtain ⟨st', h1, h2⟩ := scanE_invN L hI hN hL (hK e (by simp))
    have h3 := scanE_invA L hI (hK e (by simp)) h1
    simp only at h3
    obtain ⟨st'', h4, h5⟩ := ih h3.1 h2 (fun e' he' => hK e' (List.mem_cons_of_mem _ he'))
    exact ⟨st'', by simp [scanList, h1, h4], h5⟩

/-- Result of an unfiltered search from `ep` with legal distances. -/
structure ResN (P : Policy T) (eval : List T → List T → F32) (q : List T) (ef : Nat)
    (nbf : PointId → List (PWO T)) (ep : Ref T) (r : P.H) : Prop where
  ne : P.items r ≠ []
  localOpt : ∀ x ∈ P.items r, ∀ e ∈ nbf x.pt.pid,
    (∃ y ∈ P.items r, y.pt = e.pt) ∨ ∀ y ∈ P.items r, y.dist.key ≤ (eval q e.pt.data).key
  best : ∃ x ∈ P.items r, x.dist.key ≤ (eval q ep.data).key
  full : P.len r < ef → ∀ v, Reaches nbf ep v → ∃ x ∈ P.items r, x.pt = v

theorem slLoop_numN (L : P.Lawful) {K : Ref T → Prop} {nbf : PointId → List (PWO T)} {ep : Ref T}
    (hg : ∀ c, K c → ∀ e ∈ nbf c.pid, K e.pt)
    (hU : ∀ v w, K v → K w → v.pid = w.pid → v = w)
    (hL : ∀ v, K v → (eval q v.data).isNaN = false) :
    ∀ (n : Nat) {st : SL P} {exp : List (Ref T)}, InvA P eval q ef K st →
      InvN P eval q ef exp st → ep ∈ st.vis → (∀ c ∈ exp, c ∈ st.vis) →
      (∀ c ∈ exp, ∀ e ∈ nbf c.pid, e.pt.pid ∈ st.vis.map (·.pid)) →
      slLoop P eval q ef none nbf n st = .error .fuel ∨
      (slLoop P eval q ef none nbf n st = .error .assertion ∧ ∃ v, K v ∧ ¬ (eval q v.data).Legal) ∨
      ∃ r, slLoop P eval q ef none nbf n st = .ok r ∧ ResN P eval q ef nbf ep r := by
  intro n
  induction n with
  | zero => intro st _ _ _ _ _ _; left; rfl
  | succ n ih =>
    intro st exp hI hN hep hev hcl
    have hfin : (∀ x ∈ P.items st.ret, x.pt ∈ exp) → ResN P eval q ef nbf ep st.ret := by
      intro hexp
      have hvis : ∀ c ∈ exp, ∀ e ∈ nbf c.pid, e.pt ∈ st.vis := by
        intro c hc e he
        obtain ⟨v, hv, hv'⟩ := List.mem_map.1 (hcl c hc e he)
        rw [← hU v e.pt (hI.visK v hv) (hg c (hI.visK c (hev c hc)) e he) hv']
        exact hv
      refine ⟨hN.ne, ?_, ?_, ?_⟩
      · intro x hx e he
        rcases hN.far _ (hvis _ (hexp x hx) e he) with h | ⟨-, h⟩
        · exact Or.inl h
        · exact Or.inr h
      · rcases hN.far ep hep with ⟨x, hx, hx'⟩ | ⟨-, h⟩
        · exact ⟨x, hx, by rw [(hI.retIn x hx).2, hx']; exact Int.le_refl _⟩
        · obtain ⟨x, hx⟩ := List.exists_mem_of_ne_nil _ hN.ne
          exact ⟨x, hx, h x hx⟩
      · intro hlt v hv
        have hall : ∀ v ∈ st.vis, ∃ x ∈ P.items st.ret, x.pt = v := by
          intro v hv
          rcases hN.far v hv with h | ⟨h, -⟩
          · exact h
          · omega
        apply hall
        induction hv with
        | refl => exact hep
        | step _ he ihv =>
          obtain ⟨x, hx, hx'⟩ := hall _ ihv
          exact hvis _ (hx' ▸ hexp x hx) _ he
    simp only [slLoop]
    rcases head_num (filt := none) L hI hL hN.ne with ⟨h1, h2⟩ | ⟨h1, h2⟩ | ⟨c, cand', f, h1, h2, h3⟩
    · rw [h1]
      exact Or.inr (Or.inl ⟨rfl, h2⟩)
    · rw [h2]
      right; right
      refine ⟨_, rfl, hfin ?_⟩
      intro x hx
      rcases hN.ce x hx with ⟨y, hy, -⟩ | h
      · simp [h1] at hy
      · exact h
    · have hcm : c ∈ P.items st.cand := (L.mem_pop h1).2 (Or.inl rfl)
      rcases h3 with ⟨h3, h4, -⟩ | h3
      · rw [h3]
        right; right
        refine ⟨_, rfl, hfin ?_⟩
        intro x hx
        rcases hN.ce x hx with ⟨y, hy, hyx⟩ | h
        · exfalso
          have h5 := L.pop_max _ (hI.cand_builtN hL) _ _ h1 y hy
          have h6 := (L.peek_some h2).2 (hI.ret_builtN hL) x hx
          rw [(hI.candIn y hy).2, (hI.candIn c hcm).2, hyx] at h5
          rw [(hI.retIn x hx).2] at h6
          simp at h5
          omega
        · exact h
      · have hA := head_invA (filt := none) L hI
        rw [h3] at hA ⊢
        simp only at hA ⊢
        have hcK : K c.pt := hI.visK _ hA.2.1
        have hN' : InvN P eval q ef (c.pt :: exp) (⟨cand', st.ret, st.vis⟩ : SL P) := by
          refine ⟨hN.ne, ?_, hN.far⟩
          intro x hx
          rcases hN.ce x hx with ⟨y, hy, hyx⟩ | h
          · rcases (L.mem_pop h1).1 hy with rfl | hy
            · right; rw [← hyx]; simp
            · exact Or.inl ⟨y, hy, hyx⟩
          · exact Or.inr (List.mem_cons_of_mem _ h)
        obtain ⟨st'', h6, h7⟩ := scanList_invN L hL hA.1 hN' (hg _ hcK)
        have h8 := scanList_invA L hA.1 (hg _ hcK) h6
        simp only at h8
        rw [h6]
        simp only
        apply ih h8.1 h7 (h8.2.2.1 _ hep)
        · intro c' hc'
          rcases List.mem_cons.1 hc' with rfl | hc'
          · exact h8.2.2.1 _ hA.2.1
          · exact h8.2.2.1 _ (hev _ hc')
        · intro c' hc' e he
          rcases List.mem_cons.1 hc' with rfl | hc'
          · exact h8.2.1 e he
          · obtain ⟨v, hv, hv'⟩ := List.mem_map.1 (hcl c' hc' e he)
            exact List.mem_map.2 ⟨v, h8.2.2.1 v hv, hv'⟩

theorem slLoop_resN (L : P.Lawful) {K : Ref T → Prop} {nbf : PointId → List (PWO T)} {ep : Ref T}
    (hg : ∀ c, K c → ∀ e ∈ nbf c.pid, K e.pt)
    (hU : ∀ v w, K v → K w → v.pid = w.pid → v = w)
    (hL : ∀ v, K v → (eval q v.data).Legal) (n : Nat) {st : SL P} {exp : List (Ref T)}
    (hI : InvA P eval q ef K st) (hN : InvN P eval q ef exp st) (hep : ep ∈ st.vis)
    (hev : ∀ c ∈ exp, c ∈ st.vis)
    (hcl : ∀ c ∈ exp, ∀ e ∈ nbf c.pid, e.pt.pid ∈ st.vis.map (·.pid)) :
    slLoop P eval q ef none nbf n st = .error .fuel ∨
    ∃ r, slLoop P eval q ef none nbf n st = .ok r ∧ ResN P eval q ef nbf ep r := by
  rcases slLoop_numN L hg hU (fun v hv => (hL v hv).1) n hI hN hep hev hcl with h | ⟨-, v, hv, hn⟩ | h
  · exact Or.inl h
  · exact absurd (hL v hv) hn
  · exact Or.inr h

/-! ## Search with a filter -/

/-- Extra invariant, search with filter `φ` and `ef ≥ 1`.  `N` bounds the number of points. -/
structure InvF (P : Policy T) (eval : List T → List T → F32) (q : List T) (φ : DataId → Bool)
    (ef N : Nat) (ep : Ref T) (exp : List (Ref T)) (st : SL P) : Prop where
  ne : P.items st.ret ≠ []
  acc : (∀ x ∈ P.items st.ret, φ x.pt.origin = true) ∨
    (∃ x, P.items st.ret = [x] ∧ x.pt = ep ∧ φ ep.origin = false ∧
      (2 ≤ ef → ∀ v ∈ st.vis, φ v.origin = false ∧
        ((∃ y ∈ P.items st.cand, y.pt = v) ∨ v ∈ exp)))
  big : N ≤ ef → ∀ v ∈ st.vis, ((∃ y ∈ P.items st.cand, y.pt = v) ∨ v ∈ exp) ∧
      (φ v.origin = true → ∃ x ∈ P.items st.ret, x.pt = v)
  full : 2 ≤ ef → P.len st.ret < ef → ∀ v ∈ st.vis, (∃ y ∈ P.items st.cand, y.pt = v) ∨ v ∈ exp
  ce : ∀ x ∈ P.items st.ret, (∃ y ∈ P.items st.cand, y.pt = x.pt) ∨ x.pt ∈ exp
  far : 2 ≤ ef → ∀ v ∈ st.vis, φ v.origin = true → (∃ x ∈ P.items st.ret, x.pt = v) ∨
    (ef ≤ P.len st.ret ∧ ∀ r ∈ P.items st.ret, r.dist.key ≤ (eval q v.data).key)

theorem scanE_invF (L : P.Lawful) {K : Ref T → Prop} {st : SL P} {φ : DataId → Bool} {N : Nat}
    {ep : Ref T} {exp : List (Ref T)}
    (hI : InvA P eval q ef K st) (hF : InvF P eval q φ ef N ep exp st) (hef : 1 ≤ ef)
    (hL : ∀ v, K v → (eval q v.data).isNaN = false)
    (hN : ∀ l : List (Ref T), (∀ v ∈ l, K v) → (l.map (·.pid)).Nodup → l.length ≤ N)
    {e : Ref T} (hK : K e) :
    ∃ st', scanE P eval q ef (some φ) e st = .ok (.go st') ∧ InvF P eval q φ ef N ep exp st' := by
  unfold scanE
  split
  · exact ⟨st, rfl, hF⟩
  · rename_i hnv
    obtain ⟨f, hf⟩ := L.peek_isSome hF.ne
    have hfm := L.peek_some hf
    have hfl := hI.ret_num hL hfm.1
    have hel := hL e hK
    have hpos : 0 < P.len st.ret := Policy.len_pos_iff.2 hF.ne
    -- `e` is new, so fewer than `N` points are already returned
    have hltN : P.len st.ret < N := by
      have := hN (e :: (P.items st.ret).map (·.pt)) (by
        intro v hv
        rcases List.mem_cons.1 hv with rfl | hv
        · exact hK
        · obtain ⟨x, hx, rfl⟩ := List.mem_map.1 hv
          exact hI.visK _ (hI.retIn x hx).1) (by
        simp only [List.map_cons, List.map_map, List.nodup_cons]
        refine ⟨?_, hI.retNd⟩
        intro hm
        obtain ⟨x, hx, hx'⟩ := List.mem_map.1 hm
        exact hnv (List.mem_map.2 ⟨x.pt, (hI.retIn x hx).1, hx'⟩))
      simp at this
      unfold Policy.len
      omega
    simp only [hf, lt_keyN hel hfl]
    by_cases hc : (decide ((eval q e.data).key < f.dist.key) || decide (P.len st.ret < ef)) = true
    · rw [if_pos hc]
      have hp1 : P.pushC st.cand ⟨e, (eval q e.data).neg⟩ = .ok (P.push st.cand ⟨e, (eval q e.data).neg⟩) :=
        L.pushC_built (by simpa using hel) (hI.cand_builtN hL)
      have hcold : ∀ v, ((∃ y ∈ P.items st.cand, y.pt = v) ∨ v ∈ exp) →
          ((∃ y ∈ P.items (P.push st.cand ⟨e, (eval q e.data).neg⟩), y.pt = v) ∨ v ∈ exp) := by
        intro v hv
        rcases hv with ⟨y, hy, hy'⟩ | h
        · exact Or.inl ⟨y, L.mem_push.2 (Or.inr hy), hy'⟩
        · exact Or.inr h
      have hcnew : ∃ y ∈ P.items (P.push st.cand ⟨e, (eval q e.data).neg⟩), y.pt = e :=
        ⟨_, L.mem_push.2 (Or.inl rfl), rfl⟩
      by_cases hφ : φ e.origin = true
      · -- accepted
        have hp2 : (pushRet P (some φ) st.ret ⟨e, eval q e.data⟩ = .ok (P.push st.ret ⟨e, eval q e.data⟩) ∧
              (∀ x ∈ P.items st.ret, φ x.pt.origin = true)) ∨
            (pushRet P (some φ) st.ret ⟨e, eval q e.data⟩ = .ok (P.push P.empty ⟨e, eval q e.data⟩) ∧
              ∃ x, P.items st.ret = [x] ∧ φ x.pt.origin = false) := by
          unfold pushRet
          simp only [hφ, if_true]
          rcases hF.acc with hacc | ⟨x, hx, hxe, hφe, -⟩
          · left
            refine ⟨?_, hacc⟩
            have hpc : P.pushC st.ret ⟨e, eval q e.data⟩ = .ok (P.push st.ret ⟨e, eval q e.data⟩) :=
              L.pushC_built hel (hI.ret_builtN hL)
            split
            · simp only [hf, hacc f hfm.1, if_true]
              exact hpc
            · exact hpc
          · right
            have hfx : f = x := by
              have := hfm.1
              rw [hx] at this
              simpa using this
            refine ⟨?_, x, hx, by rw [hxe]; exact hφe⟩
            have hl1 : P.len st.ret = 1 := by simp [Policy.len, hx]
            have hφf : φ f.pt.origin = false := by rw [hfx, hxe]; exact hφe
            simp only [hl1, if_true, hf, hφf]
            exact L.pushC_built hel L.built_empty
        rcases hp2 with ⟨hp2, hacc⟩ | ⟨hp2, x0, hx0, hφ0⟩
        · simp only [hp1, hp2]
          refine ⟨_, rfl, ?_⟩
          generalize hr' : P.push st.ret ⟨e, eval q e.data⟩ = r'
          have hmem : ∀ y, y ∈ P.items r' ↔ y = ⟨e, eval q e.data⟩ ∨ y ∈ P.items st.ret := by
            intro y; rw [← hr']; exact L.mem_push
          have hlen : P.len r' = P.len st.ret + 1 := by rw [← hr']; exact L.len_push
          have hmem' : 2 ≤ ef → ∀ v ∈ e :: st.vis, φ v.origin = true →
              (∃ x ∈ P.items r', x.pt = v) ∨
              (ef ≤ P.len st.ret ∧ ∀ r ∈ P.items r', r.dist.key ≤ (eval q v.data).key) := by
            intro h2e v hv hφv
            rcases List.mem_cons.1 hv with rfl | hv
            · exact Or.inl ⟨_, (hmem _).2 (Or.inl rfl), rfl⟩
            · rcases hF.far h2e v hv hφv with ⟨x, hx, hx'⟩ | ⟨h1, h2⟩
              · exact Or.inl ⟨x, (hmem _).2 (Or.inr hx), hx'⟩
              · refine Or.inr ⟨h1, fun r hr => ?_⟩
                rcases (hmem r).1 hr with rfl | hr
                · have := h2 f hfm.1
                  simp at hc
                  simp only
                  omega
                · exact h2 r hr
          refine ⟨?_, ?_, ?_, ?_, ?_, ?_⟩
          rotate_left 3
          · intro h2e hlt v hv
            simp only at hlt
            rcases List.mem_cons.1 hv with rfl | hv
            · exact Or.inl hcnew
            · refine hcold v (hF.full h2e ?_ v hv)
              rcases trim_cases (ef := ef) L r' with ⟨h1, h2⟩ | ⟨x, h1, h2⟩
              · rw [h1] at hlt; omega
              · have := L.len_pop h1; omega
          · intro x hx
            rcases (hmem x).1 (trim_sub L _ hx) with rfl | hx
            · exact Or.inl hcnew
            · exact hcold _ (hF.ce x hx)
          · intro h2e v hv hφv
            simp only
            rcases trim_cases (ef := ef) L r' with ⟨h1, h2⟩ | ⟨x, h1, h2⟩
            · rw [h1]
              rcases hmem' h2e v hv hφv with h | ⟨h, -⟩
              · exact Or.inl h
              · omega
            · have hl2 := L.len_pop h1
              have hsub : ∀ r ∈ P.items (trim P ef r'), r ∈ P.items r' :=
                fun r hr => (L.mem_pop h1).2 (Or.inr hr)
              rcases hmem' h2e v hv hφv with ⟨y, hy, hyv⟩ | ⟨h3, h4⟩
              · rcases (L.mem_pop h1).1 hy with rfl | hy2
                · right
                  refine ⟨by omega, fun r hr => ?_⟩
                  have h5 := L.pop_max _ (hr' ▸ .push (hI.ret_builtN hL) hel) _ _ h1 r (hsub r hr)
                  have h6 : y.dist = eval q y.pt.data := by
                    rcases (hmem y).1 hy with rfl | hy
                    · rfl
                    · exact (hI.retIn y hy).2
                  rw [h6, hyv] at h5
                  exact h5
                · exact Or.inl ⟨y, hy2, hyv⟩
              · exact Or.inr ⟨by omega, fun r hr => h4 r (hsub r hr)⟩
          · apply Policy.len_pos_iff.1
            simp only
            rcases trim_cases (ef := ef) L r' with ⟨h1, h2⟩ | ⟨x, h1, h2⟩
            · rw [h1]; omega
            · have := L.len_pop h1; omega
          · left
            intro x hx
            rcases (hmem x).1 (trim_sub L _ hx) with rfl | hx
            · exact hφ
            · exact hacc x hx
          · intro hbig v hv
            have htr : trim P ef r' = r' := by
              rcases trim_cases (ef := ef) L r' with ⟨h1, h2⟩ | ⟨x, h1, h2⟩
              · exact h1
              · omega
            simp only [htr]
            rcases List.mem_cons.1 hv with rfl | hv
            · exact ⟨Or.inl hcnew, fun _ => ⟨_, (hmem _).2 (Or.inl rfl), rfl⟩⟩
            · refine ⟨hcold v (hF.big hbig v hv).1, fun hφv => ?_⟩
              obtain ⟨x, hx, hx'⟩ := (hF.big hbig v hv).2 hφv
              exact ⟨x, (hmem x).2 (Or.inr hx), hx'⟩
        · simp only [hp1, hp2]
          refine ⟨_, rfl, ?_⟩
          have htr : trim P ef (P.push P.empty ⟨e, eval q e.data⟩) = P.push P.empty ⟨e, eval q e.data⟩ := by
            rcases trim_cases (ef := ef) L (P.push P.empty ⟨e, eval q e.data⟩) with ⟨h1, h2⟩ | ⟨x, h1, h2⟩
            · exact h1
            · simp [Policy.len, L.items_push_empty] at h2; omega
          rw [htr]
          have hl1 : P.len st.ret = 1 := by simp [Policy.len, hx0]
          have hrej : 2 ≤ ef → ∀ v ∈ st.vis, φ v.origin = false := by
            intro h2e v hv
            rcases hF.acc with h | ⟨x, hx, hxe, hφe, h2⟩
            · have := h x0 (by rw [hx0]; simp)
              rw [hφ0] at this
              cases this
            · exact (h2 h2e v hv).1
          refine ⟨?_, ?_, ?_, ?_, ?_, ?_⟩
          rotate_left 3
          · intro h2e hlt v hv
            rcases List.mem_cons.1 hv with rfl | hv
            · exact Or.inl hcnew
            · exact hcold v (hF.full h2e (by omega) v hv)
          · intro x hx
            simp [L.items_push_empty] at hx
            subst hx
            exact Or.inl hcnew
          · intro h2e v hv hφv
            rcases List.mem_cons.1 hv with rfl | hv
            · exact Or.inl ⟨⟨v, eval q v.data⟩, by simp [L.items_push_empty], rfl⟩
            · rw [hrej h2e v hv] at hφv; cases hφv
          · simp [L.items_push_empty]
          · left
            simp [L.items_push_empty, hφ]
          · intro hbig v hv
            rcases List.mem_cons.1 hv with rfl | hv
            · exact ⟨Or.inl hcnew, fun _ => ⟨⟨v, eval q v.data⟩, by simp [L.items_push_empty], rfl⟩⟩
            · refine ⟨hcold v (hF.big hbig v hv).1, fun hφv => ?_⟩
              obtain ⟨x, hx, hx'⟩ := (hF.big hbig v hv).2 hφv
              rw [hx0] at hx
              simp at hx
              rw [← hx', hx, hφ0] at hφv
              cases hφv
      · -- rejected
        have hp2 : pushRet P (some φ) st.ret ⟨e, eval q e.data⟩ = .ok st.ret := by
          unfold pushRet
          simp [hφ]
        simp only [hp1, hp2]
        refine ⟨_, rfl, ?_⟩
        have htr : trim P ef st.ret = st.ret := by
          rcases trim_cases (ef := ef) L st.ret with ⟨h1, h2⟩ | ⟨x, h1, h2⟩
          · exact h1
          · have := hI.retLen; omega
        rw [htr]
        refine ⟨hF.ne, ?_, ?_, ?_, ?_, ?_⟩
        rotate_left 2
        · intro h2e hlt v hv
          rcases List.mem_cons.1 hv with rfl | hv
          · exact Or.inl hcnew
          · exact hcold v (hF.full h2e hlt v hv)
        · exact fun x hx => hcold _ (hF.ce x hx)
        · intro h2e v hv hφv
          rcases List.mem_cons.1 hv with rfl | hv
          · exact absurd hφv hφ
          · exact hF.far h2e v hv hφv
        · rcases hF.acc with h | ⟨x, hx, hxe, hφe, h2⟩
          · exact Or.inl h
          · refine Or.inr ⟨x, hx, hxe, hφe, fun h3 v hv => ?_⟩
            rcases List.mem_cons.1 hv with rfl | hv
            · exact ⟨by simpa using hφ, Or.inl hcnew⟩
            · exact ⟨(h2 h3 v hv).1, hcold v (h2 h3 v hv).2⟩
        · intro hbig v hv
          rcases List.mem_cons.1 hv with rfl | hv
          · exact ⟨Or.inl hcnew, fun h => absurd h hφ⟩
          · exact ⟨hcold v (hF.big hbig v hv).1, (hF.big hbig v hv).2⟩
    · rw [if_neg hc]
      simp at hc
      refine ⟨_, rfl, hF.ne, ?_, ?_, fun _ hlt => absurd hc.2 (by simp only at hlt; omega), hF.ce, ?_⟩
      rotate_left 2
      · intro h2e v hv hφv
        rcases List.mem_cons.1 hv with rfl | hv
        · refine Or.inr ⟨hc.2, fun r hr => ?_⟩
          have := hfm.2 (hI.ret_builtN hL) r hr
          omega
        · exact hF.far h2e v hv hφv
      · rcases hF.acc with h | ⟨x, hx, hxe, hφe, h2⟩
        · exact Or.inl h
        · refine Or.inr ⟨x, hx, hxe, hφe, fun h3 => ?_⟩
          have : P.len st.ret = 1 := by simp [Policy.len, hx]
          omega
      · intro hbig
        omega

theorem scanList_invF (L : P.Lawful) {K : Ref T → Prop} {φ : DataId → Bool} {N : Nat}
    {ep : Ref T} {exp : List (Ref T)} (hef : 1 ≤ ef)
    (hL : ∀ v, K v → (eval q v.data).isNaN = false)
    (hN : ∀ l : List (Ref T), (∀ v ∈ l, K v) → (l.map (·.pid)).Nodup → l.length ≤ N)
    {es : List (PWO T)} :
    ∀ {st : SL P}, InvA P eval q ef K st → InvF P eval q φ ef N ep exp st → (∀ e ∈ es, K e.pt) →
    ∃ st', scanList P eval q ef (some φ) es st = .ok (.go st') ∧ InvF P eval q φ ef N ep exp st' := by
  induction es with
  | nil => intro st _ hF _; exact ⟨st, rfl, hF⟩
  | cons e es ih =>
    intro st hI hF hK
    obtain ⟨st', h1, h2⟩ := scanE_invF L hI hF hef hL hN (hK e (by simp))
    have h3 := scanE_invA L hI (hK e (by simp)) h1
    simp only at h3
    obtain ⟨st'', h4, h5⟩ := ih h3.1 h2 (fun e' he' => hK e' (List.mem_cons_of_mem _ he'))
    exact ⟨st'', by simp [scanList, h1, h4], h5⟩

/-- Result of a filtered search with legal distances and `ef ≥ 1`. -/
structure ResF (P : Policy T) (eval : List T → List T → F32) (q : List T) (φ : DataId → Bool)
    (ef N : Nat) (nbf : PointId → List (PWO T)) (ep : Ref T) (r : P.H) : Prop where
  ne : P.items r ≠ []
  acc : (∀ x ∈ P.items r, φ x.pt.origin = true) ∨
    (∃ x, P.items r = [x] ∧ x.pt = ep ∧ φ ep.origin = false ∧
      (2 ≤ ef → ∀ v, Reaches nbf ep v → φ v.origin = false))
  big : N ≤ ef → ∀ v, Reaches nbf ep v → φ v.origin = true → ∃ x ∈ P.items r, x.pt = v
  full : 2 ≤ ef → P.len r < ef → ∀ v, Reaches nbf ep v → φ v.origin = true →
    ∃ x ∈ P.items r, x.pt = v
  localOpt : 2 ≤ ef → ∀ x ∈ P.items r, ∀ e ∈ nbf x.pt.pid, φ e.pt.origin = true →
    (∃ y ∈ P.items r, y.pt = e.pt) ∨ ∀ y ∈ P.items r, y.dist.key ≤ (eval q e.pt.data).key

theorem slLoop_numF (L : P.Lawful) {K : Ref T → Prop} {nbf : PointId → List (PWO T)} {ep : Ref T}
    {φ : DataId → Bool} {N : Nat} (hef : 1 ≤ ef)
    (hg : ∀ c, K c → ∀ e ∈ nbf c.pid, K e.pt)
    (hU : ∀ v w, K v → K w → v.pid = w.pid → v = w)
    (hL : ∀ v, K v → (eval q v.data).isNaN = false)
    (hN : ∀ l : List (Ref T), (∀ v ∈ l, K v) → (l.map (·.pid)).Nodup → l.length ≤ N)
    (hepK : K ep) :
    ∀ (n : Nat) {st : SL P} {exp : List (Ref T)}, InvA P eval q ef K st →
      InvF P eval q φ ef N ep exp st → ep ∈ st.vis → (∀ c ∈ exp, c ∈ st.vis) →
      (∀ c ∈ exp, ∀ e ∈ nbf c.pid, e.pt.pid ∈ st.vis.map (·.pid)) →
      slLoop P eval q ef (some φ) nbf n st = .error .fuel ∨
      (slLoop P eval q ef (some φ) nbf n st = .error .assertion ∧ ∃ v, K v ∧ ¬ (eval q v.data).Legal) ∨
      ∃ r, slLoop P eval q ef (some φ) nbf n st = .ok r ∧ ResF P eval q φ ef N nbf ep r := by
  intro n
  have hRK : ∀ v, Reaches nbf ep v → K v := by
    intro v hv
    induction hv with
    | refl => exact hepK
    | step _ he ih => exact hg _ ih _ he
  induction n with
  | zero => intro st _ _ _ _ _ _; left; rfl
  | succ n ih =>
    intro st exp hI hF hep hev hcl
    have hvis : ∀ c ∈ exp, ∀ e ∈ nbf c.pid, e.pt ∈ st.vis := by
      intro c hc e he
      obtain ⟨v, hv, hv'⟩ := List.mem_map.1 (hcl c hc e he)
      rw [← hU v e.pt (hI.visK v hv) (hg c (hI.visK c (hev c hc)) e he) hv']
      exact hv
    simp only [slLoop]
    rcases head_num (filt := some φ) L hI hL hF.ne with ⟨h1, h2⟩ | ⟨h1, h2⟩ | ⟨c, cand', f, h1, h2, h3⟩
    · rw [h1]
      exact Or.inr (Or.inl ⟨rfl, h2⟩)
    · rw [h2]
      right; right
      have hexp : ∀ x ∈ P.items st.ret, x.pt ∈ exp := by
        intro x hx
        rcases hF.ce x hx with ⟨y, hy, -⟩ | h
        · simp [h1] at hy
        · exact h
      refine ⟨_, rfl, hF.ne, ?_, ?_, ?_, ?_⟩
      rotate_left 2
      · intro h2e hlt v hv hφv
        have hv2 : v ∈ st.vis := by
          clear hφv
          induction hv with
          | refl => exact hep
          | step _ he ihv =>
            rcases hF.full h2e hlt _ ihv with ⟨y, hy, -⟩ | h
            · simp [h1] at hy
            · exact hvis _ h _ he
        rcases hF.far h2e v hv2 hφv with h | ⟨h, -⟩
        · exact h
        · omega
      · intro h2e x hx e he hφe
        rcases hF.far h2e _ (hvis _ (hexp x hx) e he) hφe with h | ⟨-, h⟩
        · exact Or.inl h
        · exact Or.inr h
      · rcases hF.acc with h | ⟨x, hx, hxe, hφe, h3⟩
        · exact Or.inl h
        · refine Or.inr ⟨x, hx, hxe, hφe, fun h4 v hv => ?_⟩
          have hv2 : v ∈ st.vis := by
            induction hv with
            | refl => exact hep
            | step _ he ihv =>
              rcases (h3 h4 _ ihv).2 with ⟨y, hy, -⟩ | h
              · simp [h1] at hy
              · exact hvis _ h _ he
          exact (h3 h4 v hv2).1
      · intro hbig v hv hφv
        have hv2 : v ∈ st.vis := by
          clear hφv
          induction hv with
          | refl => exact hep
          | step _ he ihv =>
            rcases (hF.big hbig _ ihv).1 with ⟨y, hy, -⟩ | h
            · simp [h1] at hy
            · exact hvis _ h _ he
        exact (hF.big hbig v hv2).2 hφv
    · rcases h3 with ⟨h3, h4, h5⟩ | h3
      · rw [h3]
        right; right
        have h5 : ef ≤ P.len st.ret := by
          rcases h5 with h5 | h5
          · cases h5
          · exact h5
        have hexp : ∀ x ∈ P.items st.ret, x.pt ∈ exp := by
          intro x hx
          rcases hF.ce x hx with ⟨y, hy, hyx⟩ | h
          · exfalso
            have h5 := L.pop_max _ (hI.cand_builtN hL) _ _ h1 y hy
            have h6 := (L.peek_some h2).2 (hI.ret_builtN hL) x hx
            have hcm : c ∈ P.items st.cand := (L.mem_pop h1).2 (Or.inl rfl)
            rw [(hI.candIn y hy).2, (hI.candIn c hcm).2, hyx] at h5
            rw [(hI.retIn x hx).2] at h6
            simp at h5
            omega
          · exact h
        refine ⟨_, rfl, hF.ne, ?_, ?_, fun _ hlt => absurd h5 (by omega), ?_⟩
        rotate_left 2
        · intro h2e x hx e he hφe
          rcases hF.far h2e _ (hvis _ (hexp x hx) e he) hφe with h | ⟨-, h⟩
          · exact Or.inl h
          · exact Or.inr h
        · rcases hF.acc with h | ⟨x, hx, hxe, hφe, h6⟩
          · exact Or.inl h
          · refine Or.inr ⟨x, hx, hxe, hφe, fun h7 => ?_⟩
            have : P.len st.ret = 1 := by simp [Policy.len, hx]
            omega
        · intro hbig v hv hφv
          -- the returned points are all the points
          by_cases hex : ∃ x ∈ P.items st.ret, x.pt = v
          · exact hex
          · exfalso
            have := hN (v :: (P.items st.ret).map (·.pt)) (by
              intro w hw
              rcases List.mem_cons.1 hw with rfl | hw
              · exact hRK _ hv
              · obtain ⟨x, hx, rfl⟩ := List.mem_map.1 hw
                exact hI.visK _ (hI.retIn x hx).1) (by
              simp only [List.map_cons, List.map_map, List.nodup_cons]
              refine ⟨?_, hI.retNd⟩
              intro hm
              obtain ⟨x, hx, hx'⟩ := List.mem_map.1 hm
              exact hex ⟨x, hx, hU _ _ (hI.visK _ (hI.retIn x hx).1) (hRK v hv) hx'⟩)
            simp at this
            unfold Policy.len at h5
            omega
      · have hcm : c ∈ P.items st.cand := (L.mem_pop h1).2 (Or.inl rfl)
        have hA := head_invA (filt := some φ) L hI
        rw [h3] at hA ⊢
        simp only at hA ⊢
        have hcK : K c.pt := hI.visK _ hA.2.1
        have hmv : ∀ v, ((∃ y ∈ P.items st.cand, y.pt = v) ∨ v ∈ exp) →
            ((∃ y ∈ P.items cand', y.pt = v) ∨ v ∈ c.pt :: exp) := by
          intro v hv
          rcases hv with ⟨y, hy, hyx⟩ | h
          · rcases (L.mem_pop h1).1 hy with rfl | hy
            · right; rw [← hyx]; simp
            · exact Or.inl ⟨y, hy, hyx⟩
          · exact Or.inr (List.mem_cons_of_mem _ h)
        have hF' : InvF P eval q φ ef N ep (c.pt :: exp) (⟨cand', st.ret, st.vis⟩ : SL P) := by
          refine ⟨hF.ne, ?_, ?_, fun h2e hlt v hv => hmv v (hF.full h2e hlt v hv),
            fun x hx => hmv _ (hF.ce x hx), hF.far⟩
          · rcases hF.acc with h | ⟨x, hx, hxe, hφe, h6⟩
            · exact Or.inl h
            · exact Or.inr ⟨x, hx, hxe, hφe, fun h7 v hv => ⟨(h6 h7 v hv).1, hmv v (h6 h7 v hv).2⟩⟩
          · intro hbig v hv
            exact ⟨hmv v (hF.big hbig v hv).1, (hF.big hbig v hv).2⟩
        obtain ⟨st'', h6, h7⟩ := scanList_invF L hef hL hN hA.1 hF' (hg _ hcK)
        have h8 := scanList_invA L hA.1 (hg _ hcK) h6
        simp only at h8
        rw [h6]
        simp only
        apply ih h8.1 h7 (h8.2.2.1 _ hep)
        · intro c' hc'
          rcases List.mem_cons.1 hc' with rfl | hc'
          · exact h8.2.2.1 _ hA.2.1
          · exact h8.2.2.1 _ (hev _ hc')
        · intro c' hc' e he
          rcases List.mem_cons.1 hc' with rfl | hc'
          · exact h8.2.1 e he
          · obtain ⟨v, hv, hv'⟩ := List.mem_map.1 (hcl c' hc' e he)
            exact List.mem_map.2 ⟨v, h8.2.2.1 v hv, hv'⟩

end Verif
