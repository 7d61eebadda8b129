import Verif.SearchTop

set_option autoImplicit false

/-!
# Searches with two values of `ef`

As long as the search with the smaller `ef` goes on, both searches expand the same points, provided
that no two points are at the same distance from the query.
-/

namespace Verif
variable {T : Type} {P : Policy T} {eval : List T → List T → F32} {q : List T} {ef ef1 ef2 : Nat}

/-- state of the loop without filter -/
structure Inv (P : Policy T) (eval : List T → List T → F32) (q : List T) (ef : Nat)
    (K : Ref T → Prop) (st : SL P) : Prop where
  a : InvA P eval q ef K st
  ne : P.items st.ret ≠ []
  far : ∀ v ∈ st.vis, (∃ x ∈ P.items st.ret, x.pt = v) ∨
    (ef ≤ P.len st.ret ∧ ∀ r ∈ P.items st.ret, r.dist.key ≤ (eval q v.data).key)

theorem inv_init (L : P.Lawful) {K : Ref T → Prop} {ep : Ref T} (hK : K ep) :
    Inv P eval q ef K (slInit P eval q ep) :=
  ⟨invA_init L hK, by simp [slInit, L.items_push_empty], by simp [slInit, L.items_push_empty]⟩

theorem Inv.invN {K : Ref T → Prop} {st : SL P} (h : Inv P eval q ef K st) :
    InvN P eval q ef st.vis st :=
  ⟨h.ne, fun x hx => Or.inr (h.a.retIn x hx).1, h.far⟩

theorem Inv.scanE (L : P.Lawful) {K : Ref T → Prop} {st : SL P} (h : Inv P eval q ef K st)
    (hL : ∀ v, K v → (eval q v.data).Legal) {e : Ref T} (hK : K e) :
    ∃ st', scanE P eval q ef none e st = .ok (.go st') ∧ Inv P eval q ef K st' := by
  obtain ⟨st', h1, h2⟩ := scanE_invN L h.a h.invN (fun v hv => (hL v hv).1) hK
  have h3 := scanE_invA L h.a hK h1
  exact ⟨st', h1, h3.1, h2.ne, h2.far⟩

theorem Inv.scanList (L : P.Lawful) {K : Ref T → Prop} {st : SL P} (h : Inv P eval q ef K st)
    (hL : ∀ v, K v → (eval q v.data).Legal) {es : List (PWO T)} (hK : ∀ e ∈ es, K e.pt) :
    ∃ st', Verif.scanList P eval q ef none es st = .ok (.go st') ∧ Inv P eval q ef K st' ∧
      ∀ v ∈ st.vis, v ∈ st'.vis := by
  obtain ⟨st', h1, h2⟩ := scanList_invN L (fun v hv => (hL v hv).1) h.a h.invN hK
  have h3 := scanList_invA L h.a hK h1
  exact ⟨st', h1, ⟨h3.1, h2.ne, h2.far⟩, h3.2.2.1⟩

/-- what has been seen is not better than what is returned -/
theorem slLoop_far (L : P.Lawful) {K : Ref T → Prop} {nbf : PointId → List (PWO T)}
    (hg : ∀ c, K c → ∀ e ∈ nbf c.pid, K e.pt) (hL : ∀ v, K v → (eval q v.data).Legal) :
    ∀ (n : Nat) {st : SL P}, Inv P eval q ef K st → ∀ {r : P.H},
      slLoop P eval q ef none nbf n st = .ok r →
      ∀ v ∈ st.vis, (∃ x ∈ P.items r, x.pt = v) ∨
        (ef ≤ P.len r ∧ ∀ y ∈ P.items r, y.dist.key ≤ (eval q v.data).key) := by
  intro n
  induction n with
  | zero => intro st _ r h; cases h
  | succ n ih =>
    intro st hI r hr v hv
    simp only [slLoop] at hr
    rcases head_legal (filt := none) L hI.a hL hI.ne with ⟨-, h2⟩ | ⟨c, cand', f, h1, h2, h3⟩
    · rw [h2] at hr
      cases hr
      exact hI.far v hv
    · rcases h3 with ⟨h3, -⟩ | h3
      · rw [h3] at hr
        cases hr
        exact hI.far v hv
      · have hA := head_invA (filt := none) L hI.a
        rw [h3] at hA hr
        simp only at hA hr
        have hI' : Inv P eval q ef K (⟨cand', st.ret, st.vis⟩ : SL P) := ⟨hA.1, hI.ne, hI.far⟩
        obtain ⟨st'', h6, h7, h8⟩ := hI'.scanList L hL (hg _ (hI.a.visK _ hA.2.1))
        rw [h6] at hr
        exact ih h7 hr v (h8 v hv)

theorem nodup_pts {l : List (PWO T)} (h : (l.map (·.pt.pid)).Nodup) : (l.map (·.pt)).Nodup := by
  have h1 : ((l.map (·.pt)).map (·.pid)).Nodup := by rw [List.map_map]; exact h
  exact List.Pairwise.of_map _ (fun a b hab heq => hab (by rw [heq])) h1

/-- the two loops have expanded the same points -/
structure Sync (P : Policy T) (eval : List T → List T → F32) (q : List T) (ef1 ef2 : Nat)
    (K : Ref T → Prop) (st1 st2 : SL P) : Prop where
  i1 : Inv P eval q ef1 K st1
  i2 : Inv P eval q ef2 K st2
  vis : st1.vis = st2.vis
  sub : ∀ y ∈ P.items st1.cand, y ∈ P.items st2.cand
  ext : ∀ y ∈ P.items st2.cand, y ∈ P.items st1.cand ∨
    (ef1 ≤ P.len st1.ret ∧ ∀ r ∈ P.items st1.ret, r.dist.key ≤ (eval q y.pt.data).key)

/-- the threshold of the larger search is not below that of the smaller one -/
theorem Sync.wide (L : P.Lawful) {K : Ref T → Prop} {st1 st2 : SL P}
    (h : Sync P eval q ef1 ef2 K st1 st2) (hL : ∀ v, K v → (eval q v.data).Legal)
    (h1 : 1 ≤ ef1) (h12 : ef1 ≤ ef2) {f1 f2 : PWO T}
    (hf1 : P.peek st1.ret = some f1) (hf2 : P.peek st2.ret = some f2) (hlen : ef2 ≤ P.len st2.ret) :
    ef1 ≤ P.len st1.ret ∧ f1.dist.key ≤ f2.dist.key := by
  have hv2 : ∀ y ∈ P.items st2.ret, y.pt ∈ st1.vis := by
    intro y hy
    rw [h.vis]
    exact (h.i2.a.retIn y hy).1
  have hnd2 := nodup_pts h.i2.a.retNd
  refine ⟨?_, ?_⟩
  · apply Classical.byContradiction
    intro hlt
    have : ((P.items st2.ret).map (·.pt)).length ≤ ((P.items st1.ret).map (·.pt)).length := by
      apply length_le_of_nodup_subset hnd2
      intro v hv
      obtain ⟨y, hy, rfl⟩ := List.mem_map.1 hv
      rcases h.i1.far y.pt (hv2 y hy) with ⟨x, hx, hxy⟩ | ⟨h3, -⟩
      · exact List.mem_map.2 ⟨x, hx, hxy⟩
      · exact absurd h3 hlt
    simp only [List.length_map] at this
    simp only [Policy.len] at hlt hlen
    omega
  · apply Classical.byContradiction
    intro hlt
    have hf1m := L.peek_some hf1
    have hf2m := L.peek_some hf2
    have hdist : ∀ y ∈ P.items st2.ret, (eval q y.pt.data).key < f1.dist.key := by
      intro y hy
      have := hf2m.2 (h.i2.a.ret_built hL) y hy
      rw [(h.i2.a.retIn y hy).2] at this
      omega
    have : (f1.pt :: (P.items st2.ret).map (·.pt)).length ≤ ((P.items st1.ret).map (·.pt)).length := by
      apply length_le_of_nodup_subset
      · rw [List.nodup_cons]
        refine ⟨?_, hnd2⟩
        intro hmem
        obtain ⟨y, hy, hyf⟩ := List.mem_map.1 hmem
        have := hdist y hy
        rw [hyf, ← (h.i1.a.retIn f1 hf1m.1).2] at this
        omega
      · intro v hv
        rcases List.mem_cons.1 hv with rfl | hv
        · exact List.mem_map.2 ⟨f1, hf1m.1, rfl⟩
        · obtain ⟨y, hy, rfl⟩ := List.mem_map.1 hv
          rcases h.i1.far y.pt (hv2 y hy) with ⟨x, hx, hxy⟩ | ⟨-, h3⟩
          · exact List.mem_map.2 ⟨x, hx, hxy⟩
          · have := h3 f1 hf1m.1
            have := hdist y hy
            omega
    have hl1 := h.i1.a.retLen
    simp only [List.length_map, List.length_cons] at this
    simp only [Policy.len] at hl1 hlen
    omega

/-- scan of one neighbour without filter, spelled out -/
theorem scanE_none (L : P.Lawful) {K : Ref T → Prop} {st : SL P} (h : Inv P eval q ef K st)
    (hL : ∀ v, K v → (eval q v.data).Legal) {e : Ref T} (hK : K e)
    (hv : e.pid ∉ st.vis.map (·.pid)) {f : PWO T} (hf : P.peek st.ret = some f) :
    scanE P eval q ef none e st = .ok (.go (
      if (eval q e.data).key < f.dist.key ∨ P.len st.ret < ef then
        ⟨P.push st.cand ⟨e, (eval q e.data).neg⟩, trim P ef (P.push st.ret ⟨e, eval q e.data⟩),
          e :: st.vis⟩
      else ⟨st.cand, st.ret, e :: st.vis⟩)) := by
  have hfm := L.peek_some hf
  have hfl := h.a.ret_nan hL hfm.1
  have hel := hL e hK
  have hp1 : P.pushC st.cand ⟨e, (eval q e.data).neg⟩ = .ok (P.push st.cand ⟨e, (eval q e.data).neg⟩) :=
    L.pushC_built (by simpa using hel.1) (h.a.cand_built hL)
  have hp2 : pushRet P none st.ret ⟨e, eval q e.data⟩ = .ok (P.push st.ret ⟨e, eval q e.data⟩) :=
    L.pushC_built hel.1 (h.a.ret_built hL)
  unfold scanE
  rw [if_neg hv]
  simp only [hf, lt_key hel hfl]
  by_cases hc : (eval q e.data).key < f.dist.key ∨ P.len st.ret < ef
  · rw [if_pos hc, if_pos (by simpa using hc)]
    simp only [hp1, hp2]
  · rw [if_neg hc, if_neg (by simpa using hc)]

theorem Sync.scanE (L : P.Lawful) {K : Ref T → Prop} {st1 st2 : SL P}
    (h : Sync P eval q ef1 ef2 K st1 st2) (h1 : 1 ≤ ef1) (h12 : ef1 ≤ ef2)
    (hL : ∀ v, K v → (eval q v.data).Legal) {e : Ref T} (hK : K e) :
    ∃ st1' st2', Verif.scanE P eval q ef1 none e st1 = .ok (.go st1') ∧
      Verif.scanE P eval q ef2 none e st2 = .ok (.go st2') ∧ Sync P eval q ef1 ef2 K st1' st2' := by
  obtain ⟨st1', e1, i1⟩ := h.i1.scanE L hL hK
  obtain ⟨st2', e2, i2⟩ := h.i2.scanE L hL hK
  refine ⟨st1', st2', e1, e2, ?_⟩
  by_cases hv : e.pid ∈ st1.vis.map (·.pid)
  · have hv2 := hv
    rw [h.vis] at hv2
    simp only [Verif.scanE, if_pos hv] at e1
    simp only [Verif.scanE, if_pos hv2] at e2
    cases e1
    cases e2
    exact h
  · have hv2 := hv
    rw [h.vis] at hv2
    obtain ⟨f1, hf1⟩ := L.peek_isSome h.i1.ne
    obtain ⟨f2, hf2⟩ := L.peek_isSome h.i2.ne
    have hw := h.wide L hL h1 h12 hf1 hf2
    rw [scanE_none L h.i1 hL hK hv hf1] at e1
    rw [scanE_none L h.i2 hL hK hv2 hf2] at e2
    have hf1m := L.peek_some hf1
    by_cases c1 : (eval q e.data).key < f1.dist.key ∨ P.len st1.ret < ef1
    · have c2 : (eval q e.data).key < f2.dist.key ∨ P.len st2.ret < ef2 := by
        by_cases hlt : P.len st2.ret < ef2
        · exact Or.inr hlt
        · have := hw (by omega)
          omega
      rw [if_pos c1] at e1
      rw [if_pos c2] at e2
      simp only [Except.ok.injEq, Scan.go.injEq] at e1 e2
      subst e1
      subst e2
      refine ⟨i1, i2, by simp [h.vis], ?_, ?_⟩
      · intro y hy
        rcases L.mem_push.1 hy with rfl | hy
        · exact L.mem_push.2 (Or.inl rfl)
        · exact L.mem_push.2 (Or.inr (h.sub y hy))
      · intro y hy
        rcases L.mem_push.1 hy with rfl | hy
        · exact Or.inl (L.mem_push.2 (Or.inl rfl))
        · rcases h.ext y hy with h3 | ⟨h3, h4⟩
          · exact Or.inl (L.mem_push.2 (Or.inr h3))
          · right
            have hfy := h4 f1 hf1m.1
            refine ⟨?_, ?_⟩
            · rcases trim_cases (ef := ef1) L (P.push st1.ret ⟨e, eval q e.data⟩) with ⟨h5, h6⟩ | ⟨x, h5, h6⟩
              · have := L.len_push (h := st1.ret) (x := ⟨e, eval q e.data⟩)
                simp only [h5]
                omega
              · have := L.len_pop h5
                simp only
                omega
            · intro r hr
              rcases L.mem_push.1 (trim_sub L _ hr) with rfl | hr
              · simp only
                omega
              · exact h4 r hr
    · rw [if_neg c1] at e1
      simp only [Except.ok.injEq, Scan.go.injEq] at e1
      subst e1
      have hnew : ef1 ≤ P.len st1.ret ∧ ∀ r ∈ P.items st1.ret, r.dist.key ≤ (eval q e.data).key := by
        refine ⟨by omega, fun r hr => ?_⟩
        have := hf1m.2 (h.i1.a.ret_built hL) r hr
        omega
      by_cases c2 : (eval q e.data).key < f2.dist.key ∨ P.len st2.ret < ef2
      · rw [if_pos c2] at e2
        simp only [Except.ok.injEq, Scan.go.injEq] at e2
        subst e2
        refine ⟨i1, i2, by simp [h.vis], fun y hy => L.mem_push.2 (Or.inr (h.sub y hy)), ?_⟩
        intro y hy
        rcases L.mem_push.1 hy with rfl | hy
        · exact Or.inr hnew
        · exact h.ext y hy
      · rw [if_neg c2] at e2
        simp only [Except.ok.injEq, Scan.go.injEq] at e2
        subst e2
        exact ⟨i1, i2, by simp [h.vis], h.sub, h.ext⟩

theorem Sync.scanList (L : P.Lawful) {K : Ref T → Prop} (h1 : 1 ≤ ef1) (h12 : ef1 ≤ ef2)
    (hL : ∀ v, K v → (eval q v.data).Legal) {es : List (PWO T)} : ∀ {st1 st2 : SL P},
    Sync P eval q ef1 ef2 K st1 st2 → (∀ e ∈ es, K e.pt) →
    ∃ st1' st2', Verif.scanList P eval q ef1 none es st1 = .ok (.go st1') ∧
      Verif.scanList P eval q ef2 none es st2 = .ok (.go st2') ∧ Sync P eval q ef1 ef2 K st1' st2' := by
  induction es with
  | nil => intro st1 st2 h _; exact ⟨st1, st2, rfl, rfl, h⟩
  | cons e es ih =>
    intro st1 st2 h hK
    obtain ⟨a, b, e1, e2, h'⟩ := h.scanE L h1 h12 hL (hK e (by simp))
    obtain ⟨a', b', e3, e4, h''⟩ := ih h' (fun x hx => hK x (List.mem_cons_of_mem _ hx))
    exact ⟨a', b', by simp [Verif.scanList, e1, e3], by simp [Verif.scanList, e2, e4], h''⟩

theorem pop_notMem (L : P.Lawful) {h h' : P.H} {c : PWO T} (hp : P.pop h = some (c, h'))
    (hn : ((P.items h).map (·.pt.pid)).Nodup) : c ∉ P.items h' := by
  have h1 := ((L.pop_perm h c h' hp).map (fun x : PWO T => x.pt.pid)).nodup_iff.1 hn
  simp only [List.map_cons, List.nodup_cons] at h1
  intro hc
  exact h1.1 (List.mem_map.2 ⟨c, hc, rfl⟩)

/-- what the smaller search returns is not better than what the larger one returns -/
theorem slLoop_mono (L : P.Lawful) {K : Ref T → Prop} {nbf : PointId → List (PWO T)}
    (h1 : 1 ≤ ef1) (h12 : ef1 ≤ ef2)
    (hg : ∀ c, K c → ∀ e ∈ nbf c.pid, K e.pt) (hL : ∀ v, K v → (eval q v.data).Legal)
    (hT : ∀ v w, K v → K w → (eval q v.data).key = (eval q w.data).key → v = w) :
    ∀ (n : Nat) {st1 st2 : SL P}, Sync P eval q ef1 ef2 K st1 st2 → ∀ {r1 r2 : P.H},
      slLoop P eval q ef1 none nbf n st1 = .ok r1 → slLoop P eval q ef2 none nbf n st2 = .ok r2 →
      ∀ x ∈ P.items r1, (∃ y ∈ P.items r2, y.pt = x.pt) ∨
        (ef2 ≤ P.len r2 ∧ ∀ y ∈ P.items r2, y.dist.key ≤ (eval q x.pt.data).key) := by
  intro n
  induction n with
  | zero => intro st1 st2 _ r1 r2 h; cases h
  | succ n ih =>
    intro st1 st2 h r1 r2 hr1 hr2
    have hfin : r1 = st1.ret → ∀ x ∈ P.items r1, (∃ y ∈ P.items r2, y.pt = x.pt) ∨
        (ef2 ≤ P.len r2 ∧ ∀ y ∈ P.items r2, y.dist.key ≤ (eval q x.pt.data).key) := by
      intro hr x hx
      apply slLoop_far L hg hL _ h.i2 hr2
      rw [← h.vis]
      rw [hr] at hx
      exact (h.i1.a.retIn x hx).1
    simp only [slLoop] at hr1 hr2
    rcases head_legal (filt := none) L h.i1.a hL h.i1.ne with ⟨-, h3⟩ | ⟨c1, cand1, f1, p1, k1, h3⟩
    · rw [h3] at hr1
      cases hr1
      exact hfin rfl
    · rcases h3 with ⟨h3, -⟩ | h3
      · rw [h3] at hr1
        cases hr1
        exact hfin rfl
      · -- the smaller search expands c1
        have hc1 : c1 ∈ P.items st1.cand := (L.mem_pop p1).2 (Or.inl rfl)
        have hc1v := h.i1.a.candIn c1 hc1
        have hf1m := L.peek_some k1
        have hf1l := h.i1.a.ret_nan hL hf1m.1
        have hc1l := hL _ (h.i1.a.visK _ hc1v.1)
        have hle : (eval q c1.pt.data).key ≤ f1.dist.key := by
          apply Classical.byContradiction
          intro hlt
          have : head P ef1 none st1 = .done st1.ret := by
            rcases head_legal (filt := none) L h.i1.a hL h.i1.ne with ⟨h4, -⟩ | ⟨c, cand, f, p, k, h5⟩
            · rw [h4] at hc1; cases hc1
            · unfold head
              have hz : ¬ F32.zero.le f1.dist = false := by rw [F32.legal_iff_le.1 hf1l]; simp
              have hz2 : ¬ c1.dist.le F32.zero = false := by
                have : c1.dist.le F32.zero = true := by
                  rw [F32.le_iff]
                  exact ⟨h.i1.a.cand_nan hL hc1, rfl, h.i1.a.cand_key hL hc1⟩
                rw [this]; simp
              have hcn : c1.dist.neg = eval q c1.pt.data := by rw [hc1v.2]; simp
              simp only [p1, k1, if_neg hz, if_neg hz2, hcn, lt_key hf1l hc1l]
              rw [if_pos]
              simp
              omega
          rw [this] at h3
          cases h3
        rcases head_legal (filt := none) L h.i2.a hL h.i2.ne with ⟨h4, -⟩ | ⟨c2, cand2, f2, p2, k2, h4⟩
        · have := h.sub c1 hc1
          rw [h4] at this
          cases this
        · have hc2 : c2 ∈ P.items st2.cand := (L.mem_pop p2).2 (Or.inl rfl)
          have hc2v := h.i2.a.candIn c2 hc2
          have hmin : (eval q c2.pt.data).key ≤ (eval q c1.pt.data).key := by
            have h5 := L.pop_max _ (h.i2.a.cand_built hL) _ _ p2 c1 (h.sub c1 hc1)
            rw [hc2v.2, hc1v.2] at h5
            simp at h5
            omega
          have hmin' : (eval q c1.pt.data).key ≤ (eval q c2.pt.data).key := by
            rcases h.ext c2 hc2 with h5 | ⟨-, h5⟩
            · have h6 := L.pop_max _ (h.i1.a.cand_built hL) _ _ p1 c2 h5
              rw [hc1v.2, hc2v.2] at h6
              simp at h6
              omega
            · have := h5 f1 hf1m.1
              omega
          have hpt : c2.pt = c1.pt := by
            apply hT _ _ (h.i2.a.visK _ hc2v.1) (h.i1.a.visK _ hc1v.1)
            omega
          have hcc : c2 = c1 := by
            have h5 : c2.dist = c1.dist := by rw [hc2v.2, hc1v.2, hpt]
            cases c1
            cases c2
            simp only at hpt h5
            subst hpt
            subst h5
            rfl
          subst hcc
          rcases h4 with ⟨-, h5, -⟩ | h4
          · -- the larger search would stop
            exfalso
            by_cases hlen : ef2 ≤ P.len st2.ret
            · have := (h.wide L hL h1 h12 k1 k2 hlen).2
              omega
            · rcases h.i2.far _ hc2v.1 with ⟨x, hx, hxc⟩ | ⟨h6, -⟩
              · have h7 := (L.peek_some k2).2 (h.i2.a.ret_built hL) x hx
                rw [(h.i2.a.retIn x hx).2, hxc] at h7
                omega
              · exact hlen h6
          · have hA1 := head_invA (filt := none) L h.i1.a
            have hA2 := head_invA (filt := none) L h.i2.a
            rw [h3] at hA1 hr1
            rw [h4] at hA2 hr2
            simp only at hA1 hA2 hr1 hr2
            have hn1 := pop_notMem L p1 h.i1.a.candNd
            have hn2 := pop_notMem L p2 h.i2.a.candNd
            have hS : Sync P eval q ef1 ef2 K (⟨cand1, st1.ret, st1.vis⟩ : SL P)
                (⟨cand2, st2.ret, st2.vis⟩ : SL P) := by
              refine ⟨⟨hA1.1, h.i1.ne, h.i1.far⟩, ⟨hA2.1, h.i2.ne, h.i2.far⟩, h.vis, ?_, ?_⟩
              · intro y hy
                rcases (L.mem_pop p2).1 (h.sub y ((L.mem_pop p1).2 (Or.inr hy))) with rfl | h6
                · exact absurd hy hn1
                · exact h6
              · intro y hy
                rcases h.ext y ((L.mem_pop p2).2 (Or.inr hy)) with h6 | h6
                · rcases (L.mem_pop p1).1 h6 with rfl | h7
                  · exact absurd hy hn2
                  · exact Or.inl h7
                · exact Or.inr h6
            obtain ⟨a, b, e1, e2, h'⟩ := hS.scanList L h1 h12 hL
              (hg _ (h.i1.a.visK _ hc1v.1))
            rw [e1] at hr1
            rw [e2] at hr2
            exact ih h' hr1 hr2

theorem sync_init (L : P.Lawful) {K : Ref T → Prop} {ep : Ref T} (hK : K ep) :
    Sync P eval q ef1 ef2 K (slInit P eval q ep) (slInit P eval q ep) :=
  ⟨inv_init L hK, inv_init L hK, rfl, fun _ h => h, fun _ h => Or.inl h⟩

/-- comparison of two sorted lists, position by position -/
theorem sorted_le {l1 l2 : List (PWO T)} (s1 : l1.Pairwise (fun a b => a.dist.key ≤ b.dist.key))
    (s2 : l2.Pairwise (fun a b => a.dist.key ≤ b.dist.key)) (n1 : (l1.map (·.pt.pid)).Nodup)
    (d1 : ∀ x ∈ l1, x.dist = eval q x.pt.data) (d2 : ∀ x ∈ l2, x.dist = eval q x.pt.data)
    (h : ∀ x ∈ l1, (∃ y ∈ l2, y.pt = x.pt) ∨
      (l1.length ≤ l2.length ∧ ∀ y ∈ l2, y.dist.key ≤ (eval q x.pt.data).key)) :
    l1.length ≤ l2.length ∧ ∀ (i : Nat) (a b : PWO T), l1[i]? = some a → l2[i]? = some b →
      b.dist.key ≤ a.dist.key := by
  have hsub : (∀ x ∈ l1, ∃ y ∈ l2, y.pt = x.pt) → l1.length ≤ l2.length := by
    intro hall
    have : (l1.map (·.pt)).length ≤ (l2.map (·.pt)).length := by
      apply length_le_of_nodup_subset (nodup_pts n1)
      intro v hv
      obtain ⟨x, hx, rfl⟩ := List.mem_map.1 hv
      obtain ⟨y, hy, hyx⟩ := hall x hx
      exact List.mem_map.2 ⟨y, hy, hyx⟩
    simpa using this
  refine ⟨?_, ?_⟩
  · by_cases hall : ∀ x ∈ l1, ∃ y ∈ l2, y.pt = x.pt
    · exact hsub hall
    · apply Classical.byContradiction
      intro hlt
      apply hall
      intro x hx
      rcases h x hx with h3 | ⟨h3, -⟩
      · exact h3
      · exact absurd h3 hlt
  · intro i a b ha hb
    apply Classical.byContradiction
    intro hlt
    -- the first i + 1 points of l1 are among the first i of l2
    have hi1 : i < l1.length := (List.getElem?_eq_some_iff.1 ha).1
    have hi2 : i < l2.length := (List.getElem?_eq_some_iff.1 hb).1
    have hbm : b ∈ l2 := List.mem_of_getElem? hb
    have : ((l1.take (i + 1)).map (·.pt)).length ≤ ((l2.take i).map (·.pt)).length := by
      apply length_le_of_nodup_subset
      · apply nodup_pts
        rw [List.map_take]
        exact n1.sublist (List.take_sublist _ _)
      · intro v hv
        obtain ⟨x, hx, rfl⟩ := List.mem_map.1 hv
        have hxm := List.mem_of_mem_take hx
        have hxa : x.dist.key ≤ a.dist.key := by
          obtain ⟨k, hk, hkx⟩ := List.getElem_of_mem hx
          rw [List.length_take] at hk
          rw [List.getElem_take] at hkx
          have hki : k ≤ i := by omega
          rcases Nat.lt_or_eq_of_le hki with hki | rfl
          · have := List.pairwise_iff_getElem.1 s1 k i (by omega) hi1 hki
            rw [hkx, (List.getElem?_eq_some_iff.1 ha).2] at this
            exact this
          · rw [← hkx, (List.getElem?_eq_some_iff.1 ha).2]
            exact Int.le_refl _
        rcases h x hxm with ⟨y, hy, hyx⟩ | ⟨-, h3⟩
        · refine List.mem_map.2 ⟨y, ?_, hyx⟩
          obtain ⟨k, hk, hky⟩ := List.getElem_of_mem hy
          have hyd : y.dist.key ≤ a.dist.key := by
            rw [d2 y hy, hyx, ← d1 x hxm]; exact hxa
          have hki : k < i := by
            apply Classical.byContradiction
            intro hge
            have : b.dist.key ≤ y.dist.key := by
              rcases Nat.lt_or_eq_of_le (Nat.le_of_not_lt hge) with h5 | h5
              · have := List.pairwise_iff_getElem.1 s2 i k hi2 hk h5
                rw [hky, (List.getElem?_eq_some_iff.1 hb).2] at this
                exact this
              · subst h5
                rw [← hky, (List.getElem?_eq_some_iff.1 hb).2]
                exact Int.le_refl _
            omega
          rw [← hky]
          exact List.mem_take_iff_getElem.2 ⟨k, by omega, rfl⟩
        · have := h3 b hbm
          rw [← d1 x hxm] at this
          omega
    simp only [List.length_map, List.length_take] at this
    omega

/-! ## Filters -/

/-- two filters that agree on what is accepted among the known points -/
def Agree (K : Ref T → Prop) (φ ψ : DataId → Bool) : Prop := ∀ v, K v → φ v.origin = ψ v.origin

theorem pushRet_agree (L : P.Lawful) {K : Ref T → Prop} {φ ψ : DataId → Bool} (hA : Agree K φ ψ)
    {r : P.H} {e : PWO T} (hr : ∀ x ∈ P.items r, K x.pt) (he : K e.pt) :
    pushRet P (some φ) r e = pushRet P (some ψ) r e := by
  simp only [pushRet]
  rw [hA _ he]
  cases hp : P.peek r with
  | none => rfl
  | some x => simp only [hA _ (hr x (L.peek_some hp).1)]

theorem scanE_agree (L : P.Lawful) {K : Ref T → Prop} {φ ψ : DataId → Bool} (hA : Agree K φ ψ)
    {st : SL P} (hI : InvA P eval q ef K st) {e : Ref T} (he : K e) :
    scanE P eval q ef (some φ) e st = scanE P eval q ef (some ψ) e st := by
  simp only [scanE]
  rw [pushRet_agree L hA (fun x hx => hI.visK _ (hI.retIn x hx).1) he]

theorem scanList_agree (L : P.Lawful) {K : Ref T → Prop} {φ ψ : DataId → Bool} (hA : Agree K φ ψ)
    {es : List (PWO T)} : ∀ {st : SL P}, InvA P eval q ef K st → (∀ e ∈ es, K e.pt) →
    scanList P eval q ef (some φ) es st = scanList P eval q ef (some ψ) es st := by
  induction es with
  | nil => intros; rfl
  | cons e es ih =>
    intro st hI hK
    simp only [scanList]
    rw [scanE_agree L hA hI (hK e (by simp))]
    cases h : scanE P eval q ef (some ψ) e.pt st with
    | error x => rfl
    | ok sc =>
      cases sc with
      | stop r => rfl
      | go st' =>
        have := scanE_invA L hI (hK e (by simp)) h
        exact ih this.1 (fun x hx => hK x (List.mem_cons_of_mem _ hx))

theorem slLoop_agree (L : P.Lawful) {K : Ref T → Prop} {φ ψ : DataId → Bool} (hA : Agree K φ ψ)
    {nbf : PointId → List (PWO T)} (hg : ∀ c, K c → ∀ e ∈ nbf c.pid, K e.pt) : ∀ (n : Nat)
    {st : SL P}, InvA P eval q ef K st →
    slLoop P eval q ef (some φ) nbf n st = slLoop P eval q ef (some ψ) nbf n st := by
  intro n
  induction n with
  | zero => intros; rfl
  | succ n ih =>
    intro st hI
    have hh : head P ef (some φ) st = head P ef (some ψ) st := rfl
    simp only [slLoop]
    rw [hh]
    have h1 := head_invA (filt := some ψ) L hI
    cases h : head P ef (some ψ) st with
    | done r => rfl
    | panic e => rfl
    | expand c st' =>
      rw [h] at h1
      simp only at h1 ⊢
      have hK := hg c (hI.visK _ h1.2.1)
      rw [scanList_agree L hA h1.1 hK]
      cases h2 : scanList P eval q ef (some ψ) (nbf c.pid) st' with
      | error x => rfl
      | ok sc =>
        cases sc with
        | stop r => rfl
        | go st'' => exact ih (scanList_invA L h1.1 hK h2).1

/-- as long as the heap of results is not full, candidates are in it -/
def CandRet (P : Policy T) (ef : Nat) (st : SL P) : Prop :=
  P.len st.ret < ef → ∀ y ∈ P.items st.cand, ∃ x ∈ P.items st.ret, x.pt = y.pt

theorem pushRet_all (L : P.Lawful) {K : Ref T → Prop} {φ : DataId → Bool}
    (hA : ∀ v, K v → φ v.origin = true) {r : P.H} {e : PWO T} (hr : ∀ x ∈ P.items r, K x.pt)
    (he : K e.pt) : pushRet P (some φ) r e = pushRet P none r e := by
  simp only [pushRet, hA _ he, if_true]
  cases hp : P.peek r with
  | none => simp
  | some x => simp [hA _ (hr x (L.peek_some hp).1)]

theorem scanE_all (L : P.Lawful) {K : Ref T → Prop} {φ : DataId → Bool}
    (hA : ∀ v, K v → φ v.origin = true) {st : SL P} (hI : InvA P eval q ef K st) {e : Ref T}
    (he : K e) : scanE P eval q ef (some φ) e st = scanE P eval q ef none e st := by
  simp only [scanE]
  rw [pushRet_all L hA (fun x hx => hI.visK _ (hI.retIn x hx).1) he]

theorem scanE_candRet (L : P.Lawful) {st st' : SL P} (hC : CandRet P ef st) {e : Ref T}
    (h : scanE P eval q ef none e st = .ok (.go st')) : CandRet P ef st' := by
  unfold scanE at h
  split at h
  · cases h; exact hC
  · cases hp : P.peek st.ret with
    | none => rw [hp] at h; cases h
    | some f =>
      simp only [hp] at h
      split at h
      · cases h1 : P.pushC st.cand ⟨e, (eval q e.data).neg⟩ with
        | error x => rw [h1] at h; cases h
        | ok cand' =>
          simp only [h1] at h
          cases h2 : pushRet P none st.ret ⟨e, eval q e.data⟩ with
          | error x => rw [h2] at h; cases h
          | ok ret' =>
            simp only [h2] at h
            cases h
            have e1 := Policy.pushC_ok h1
            have e2 : P.push st.ret ⟨e, eval q e.data⟩ = ret' := (Policy.pushC_ok h2).symm
            intro hlen y hy
            simp only at hlen hy ⊢
            have hl := L.len_push (h := st.ret) (x := ⟨e, eval q e.data⟩)
            rw [e2] at hl
            rcases trim_cases (ef := ef) L ret' with ⟨h3, h4⟩ | ⟨x, h3, h4⟩
            · rw [h3] at hlen ⊢
              rw [e1] at hy
              rcases L.mem_push.1 hy with rfl | hy
              · exact ⟨⟨e, eval q e.data⟩, by rw [← e2]; exact L.mem_push.2 (Or.inl rfl), rfl⟩
              · obtain ⟨z, hz, hz'⟩ := hC (by omega) y hy
                exact ⟨z, by rw [← e2]; exact L.mem_push.2 (Or.inr hz), hz'⟩
            · have := L.len_pop h3
              omega
      · cases h
        exact hC

theorem scanList_all (L : P.Lawful) {K : Ref T → Prop} {φ : DataId → Bool}
    (hA : ∀ v, K v → φ v.origin = true) {es : List (PWO T)} : ∀ {st : SL P},
    InvA P eval q ef K st → CandRet P ef st → (∀ e ∈ es, K e.pt) →
    scanList P eval q ef (some φ) es st = scanList P eval q ef none es st ∧
    ∀ st', scanList P eval q ef none es st = .ok (.go st') → CandRet P ef st' := by
  induction es with
  | nil =>
    intro st _ hC _
    refine ⟨rfl, ?_⟩
    intro st' h
    cases h
    exact hC
  | cons e es ih =>
    intro st hI hC hK
    simp only [scanList]
    rw [scanE_all L hA hI (hK e (by simp))]
    cases h : scanE P eval q ef none e.pt st with
    | error x => exact ⟨rfl, fun _ h => by cases h⟩
    | ok sc =>
      cases sc with
      | stop r => exact ⟨rfl, fun _ h => by cases h⟩
      | go st' =>
        have h1 := scanE_invA L hI (hK e (by simp)) h
        exact ih h1.1 (scanE_candRet L hC h) (fun x hx => hK x (List.mem_cons_of_mem _ hx))

theorem head_all (L : P.Lawful) {K : Ref T → Prop} {φ : DataId → Bool} {st : SL P}
    (hN : ∀ v, K v → (eval q v.data).isNaN = false) (hI : InvA P eval q ef K st) (hC : CandRet P ef st) :
    head P ef (some φ) st = head P ef none st := by
  unfold head
  cases hp : P.pop st.cand with
  | none => rfl
  | some z =>
    obtain ⟨c, cand'⟩ := z
    cases hf : P.peek st.ret with
    | none => rfl
    | some f =>
      simp only
      by_cases hl : ef ≤ P.len st.ret
      · simp [hl]
      · have hlt : f.dist.lt c.dist.neg = false := by
          have hc : c ∈ P.items st.cand := (L.mem_pop hp).2 (Or.inl rfl)
          obtain ⟨x, hx, hxc⟩ := hC (by omega) c hc
          have h1 := (L.peek_some hf).2 (hI.retB fun v hv => hN v (hI.visK v hv)) x hx
          have h2 : c.dist.neg = x.dist := by
            rw [(hI.candIn c hc).2, (hI.retIn x hx).2, hxc]; simp
          rw [h2]
          unfold F32.lt
          simp
          intros
          omega
        simp [hlt]

theorem slLoop_all (L : P.Lawful) {K : Ref T → Prop} {φ : DataId → Bool}
    (hA : ∀ v, K v → φ v.origin = true) (hN : ∀ v, K v → (eval q v.data).isNaN = false)
    {nbf : PointId → List (PWO T)} (hg : ∀ c, K c → ∀ e ∈ nbf c.pid, K e.pt) : ∀ (n : Nat)
    {st : SL P}, InvA P eval q ef K st → CandRet P ef st →
    slLoop P eval q ef (some φ) nbf n st = slLoop P eval q ef none nbf n st := by
  intro n
  induction n with
  | zero => intros; rfl
  | succ n ih =>
    intro st hI hC
    simp only [slLoop]
    rw [head_all L hN hI hC]
    have h1 := head_invA (filt := none) L hI
    cases h : head P ef none st with
    | done r => rfl
    | panic e => rfl
    | expand c st' =>
      rw [h] at h1
      simp only at h1 ⊢
      have hK := hg c (hI.visK _ h1.2.1)
      have hC' : CandRet P ef st' := by
        unfold head at h
        split at h
        · cases h
        · rename_i c' cand' hp
          split at h
          · cases h
          · split at h
            · cases h
            · split at h
              · cases h
              · split at h
                · cases h
                · cases h
                  intro hl y hy
                  exact hC hl y ((L.mem_pop hp).2 (Or.inr hy))
      have h2 := scanList_all L hA h1.1 hC' hK
      rw [h2.1]
      cases h3 : scanList P eval q ef none (nbf c.pid) st' with
      | error x => rfl
      | ok sc =>
        cases sc with
        | stop r => rfl
        | go st'' => exact ih (scanList_invA L h1.1 hK h3).1 (h2.2 _ h3)

theorem candRet_init (L : P.Lawful) {ep : Ref T} : CandRet P ef (slInit P eval q ep) := by
  intro _ y hy
  simp [slInit, L.items_push_empty] at hy ⊢
  rw [hy]

/-! ## Whole searches -/

section
variable {cfg : Cfg T} {s : Idx T}

/-- all searches for `q` start from the same pivot in the same layer -/
theorem searchFilter_eqAll (h : Navig s) (hne : s.points ≠ []) (q : List T) :
    ∃ pivot l, Stored s pivot ∧ ∀ knbn efArg filt,
      searchFilter P cfg s q knbn efArg filt =
        match slLoop P cfg.eval q (max efArg knbn) filt (links s l) (s.points.length + 2)
            (slInit P cfg.eval q pivot) with
        | .error e => .error e
        | .ok h =>
          match P.intoSortedC h with
          | .error e => .error e
          | .ok v => .ok ((v.take knbn).map PWO.toNeighbour) := by
  cases he : s.entry with
  | none => exact absurd he (h.start hne)
  | some ep =>
    have hst := h.entry ep he
    obtain ⟨l, hl, hl'⟩ := lowestLayer_some hne
    refine ⟨_, l, descend_stored (cfg := cfg) (q := q) h ep.pid.layer ep hst, ?_⟩
    intro knbn efArg filt
    unfold searchFilter
    simp only [he, hl]
    obtain ⟨a, as, hla⟩ := layer_of_lowest hl'
    unfold searchLayer
    simp only [hla]
    have : (fun p => s.nb p l) = links s l := rfl
    rw [this]
    cases slLoop P cfg.eval q (max efArg knbn) filt (links s l) (s.points.length + 2)
            (slInit P cfg.eval q (descend cfg.eval q s ep.pid.layer (ep, cfg.eval q ep.data)).1) with
    | error e => rfl
    | ok hh =>
      simp only
      cases P.intoSortedC hh with
      | error e => rfl
      | ok v =>
        simp only
        congr 2
        rw [List.take_eq_take_iff]
        omega

end

end Verif
