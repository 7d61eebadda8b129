import Verif.SelectLemmas
import Verif.Prog

set_option autoImplicit false

/-!
# What the selection of neighbours computes

Lemmas for C24 and C25.
-/

namespace Verif
variable {T : Type} {P : Policy T} {cfg : Cfg T}

theorem le_zero_neg_legal {x : F32} (h : ¬ x.le F32.zero = false) : x.neg.Legal :=
  le_zero_iff_legal.1 (by simpa using h)

/-- the selected point `e` is not nearer to the previously selected `d` than to the new point -/
def Diverse (cfg : Cfg T) (d e : PWO T) : Prop := (cfg.eval e.pt.data d.pt.data).le e.dist = false

/-- the candidate `x` (with its negated distance) is nearer to one of the points of `v` than to the
new point -/
def Covered (cfg : Cfg T) (v : List (PWO T)) (x : PWO T) : Prop :=
  ∃ d ∈ v, (cfg.eval x.pt.data d.pt.data).le x.dist.neg = true

theorem Covered.mono {v w : List (PWO T)} {x : PWO T} (h : Covered cfg v x) (hs : ∀ d ∈ v, d ∈ w) :
    Covered cfg w x := by
  obtain ⟨d, hd, hx⟩ := h
  exact ⟨d, hs d hd, hx⟩

/-- the selection loop -/
theorem selLoop_spec (L : P.Lawful) {asked : Nat} {kp : Bool} : ∀ (n : Nat) (h : P.H)
    (acc : List (PWO T)) (disc : P.H) (acc' : List (PWO T)) (disc' : P.H),
    selLoop P cfg asked kp n h acc disc = .ok (acc', disc') → P.len h ≤ n → P.Built h →
    (∀ d ∈ acc, ∀ x ∈ P.items h, d.dist.key ≤ x.dist.neg.key) →
    acc.Pairwise (fun a b => a.dist.key ≤ b.dist.key) → acc.Pairwise (Diverse cfg) →
    acc <+: acc' ∧
    acc'.Pairwise (fun a b => a.dist.key ≤ b.dist.key) ∧ acc'.Pairwise (Diverse cfg) ∧
    (∀ x ∈ P.items h, x.flip ∈ acc' ∨ (Covered cfg acc' x ∧ (kp = true → x ∈ P.items disc')) ∨
      (asked ≤ acc'.length ∧ ∀ d ∈ acc', d.dist.key ≤ x.dist.neg.key)) ∧
    (∀ x ∈ P.items disc, x ∈ P.items disc') ∧
    (kp = true → acc'.length < asked →
      acc'.length + P.len disc' = acc.length + P.len disc + P.len h) := by
  intro n
  induction n with
  | zero =>
    intro h acc disc acc' disc' hs hl hB hle hso hdi
    simp only [selLoop] at hs
    cases hs
    have h0 : P.items h = [] := by
      simp [Policy.len] at hl; exact hl
    refine ⟨List.prefix_refl _, hso, hdi, ?_, fun x hx => hx, ?_⟩
    · intro x hx; rw [h0] at hx; cases hx
    · intro _ _; omega
  | succ n ih =>
    intro h acc disc acc' disc' hs hl hB hle hso hdi
    simp only [selLoop] at hs
    split at hs
    · rename_i hge
      cases hs
      refine ⟨List.prefix_refl _, hso, hdi, ?_, fun x hx => hx, ?_⟩
      · intro x hx
        exact Or.inr (Or.inr ⟨hge, fun d hd => hle d hd x hx⟩)
      · intro _ h1; omega
    · rename_i hlt
      split at hs
      · rename_i hp
        cases hs
        have h0 := (L.pop_none h).1 hp
        refine ⟨List.prefix_refl _, hso, hdi, ?_, fun x hx => hx, ?_⟩
        · intro x hx; rw [h0] at hx; cases hx
        · intro _ _
          have : P.len h = 0 := by unfold Policy.len; rw [h0]; rfl
          omega
      · rename_i e h' hp
        have hlen := L.len_pop hp
        have hmem : ∀ x, x ∈ P.items h' → x ∈ P.items h := fun x hx => (L.mem_pop hp).2 (Or.inr hx)
        have hem : e ∈ P.items h := (L.mem_pop hp).2 (Or.inl rfl)
        have hmax := L.pop_max h hB e h' hp
        split at hs
        · cases hs
        · rename_i hel
          have hel := le_zero_neg_legal hel
          split at hs
          · rename_i hdiv
            obtain ⟨i1, i2, i3, i4, i5, i6⟩ := ih h' (acc ++ [⟨e.pt, e.dist.neg⟩]) disc acc' disc' hs
              (by omega) (.pop hB hp) (by
                intro d hd x hx
                rcases List.mem_append.1 hd with hd | hd
                · exact hle d hd x (hmem x hx)
                · rw [List.mem_singleton] at hd
                  subst hd
                  have := hmax x (hmem x hx)
                  simp only [F32.key_neg]
                  omega) (by
                rw [List.pairwise_append]
                refine ⟨hso, List.pairwise_singleton _ _, ?_⟩
                intro a ha b hb
                rw [List.mem_singleton] at hb
                subst hb
                exact hle a ha e hem) (by
                rw [List.pairwise_append]
                refine ⟨hdi, List.pairwise_singleton _ _, ?_⟩
                intro a ha b hb
                rw [List.mem_singleton] at hb
                subst hb
                rw [List.any_eq_false] at hdiv
                have := hdiv a ha
                simpa [Diverse] using this)
            have hpre : acc <+: acc' := (List.prefix_append _ _).trans i1
            refine ⟨hpre, i2, i3, ?_, i5, ?_⟩
            · intro x hx
              rcases (L.mem_pop hp).1 hx with rfl | hx'
              · left
                exact i1.subset (by simp [PWO.flip])
              · exact i4 x hx'
            · intro hk hlt'
              have := i6 hk hlt'
              simp only [List.length_append, List.length_singleton] at this
              omega
          · rename_i hdiv
            have hcov : Covered cfg acc e := by
              have hdiv' : acc.any (fun d => (cfg.eval e.pt.data d.pt.data).le e.dist.neg) = true := by
                simpa using hdiv
              obtain ⟨d, hd, hx⟩ := List.any_eq_true.1 hdiv'
              exact ⟨d, hd, hx⟩
            split at hs
            · rename_i hk
              split at hs
              · cases hs
              · rename_i disc2 hd2
                obtain rfl := Policy.pushC_ok hd2
                obtain ⟨i1, i2, i3, i4, i5, i6⟩ := ih h' acc _ acc' disc' hs (by omega) (.pop hB hp)
                  (fun d hd x hx => hle d hd x (hmem x hx)) hso hdi
                refine ⟨i1, i2, i3, ?_, fun x hx => i5 x (L.mem_push.2 (Or.inr hx)), ?_⟩
                · intro x hx
                  rcases (L.mem_pop hp).1 hx with rfl | hx'
                  · exact Or.inr (Or.inl ⟨hcov.mono (fun d hd => i1.subset hd),
                      fun _ => i5 x (L.mem_push.2 (Or.inl rfl))⟩)
                  · exact i4 x hx'
                · intro hk' hlt'
                  have := i6 hk' hlt'
                  rw [L.len_push] at this
                  omega
            · rename_i hk
              obtain ⟨i1, i2, i3, i4, i5, i6⟩ := ih h' acc disc acc' disc' hs (by omega) (.pop hB hp)
                (fun d hd x hx => hle d hd x (hmem x hx)) hso hdi
              refine ⟨i1, i2, i3, ?_, i5, fun hk' => absurd hk' hk⟩
              intro x hx
              rcases (L.mem_pop hp).1 hx with rfl | hx'
              · exact Or.inr (Or.inl ⟨hcov.mono (fun d hd => i1.subset hd),
                  fun hk' => absurd hk' hk⟩)
              · exact i4 x hx'

/-- the selection loop, whatever the distances are -/
theorem selLoop_any (L : P.Lawful) {asked : Nat} {kp : Bool} : ∀ (n : Nat) (h : P.H)
    (acc : List (PWO T)) (disc : P.H) (acc' : List (PWO T)) (disc' : P.H),
    selLoop P cfg asked kp n h acc disc = .ok (acc', disc') → P.len h ≤ n →
    acc.Pairwise (Diverse cfg) →
    acc <+: acc' ∧ acc'.Pairwise (Diverse cfg) ∧
    (∀ x ∈ P.items h, x.flip ∈ acc' ∨ (Covered cfg acc' x ∧ (kp = true → x ∈ P.items disc')) ∨
      asked ≤ acc'.length) ∧
    (∀ x ∈ P.items disc, x ∈ P.items disc') ∧
    (kp = true → acc'.length < asked →
      acc'.length + P.len disc' = acc.length + P.len disc + P.len h) := by
  intro n
  induction n with
  | zero =>
    intro h acc disc acc' disc' hs hl hdi
    simp only [selLoop] at hs
    cases hs
    have h0 : P.items h = [] := by
      simp [Policy.len] at hl; exact hl
    refine ⟨List.prefix_refl _, hdi, ?_, fun x hx => hx, ?_⟩
    · intro x hx; rw [h0] at hx; cases hx
    · intro _ _; omega
  | succ n ih =>
    intro h acc disc acc' disc' hs hl hdi
    simp only [selLoop] at hs
    split at hs
    · rename_i hge
      cases hs
      refine ⟨List.prefix_refl _, hdi, ?_, fun x hx => hx, ?_⟩
      · intro x hx
        exact Or.inr (Or.inr hge)
      · intro _ h1; omega
    · rename_i hlt
      split at hs
      · rename_i hp
        cases hs
        have h0 := (L.pop_none h).1 hp
        refine ⟨List.prefix_refl _, hdi, ?_, fun x hx => hx, ?_⟩
        · intro x hx; rw [h0] at hx; cases hx
        · intro _ _
          have : P.len h = 0 := by unfold Policy.len; rw [h0]; rfl
          omega
      · rename_i e h' hp
        have hlen := L.len_pop hp
        split at hs
        · cases hs
        · rename_i hel
          have hel := le_zero_neg_legal hel
          split at hs
          · rename_i hdiv
            obtain ⟨i1, i3, i4, i5, i6⟩ := ih h' (acc ++ [⟨e.pt, e.dist.neg⟩]) disc acc' disc' hs
              (by omega) (by
                rw [List.pairwise_append]
                refine ⟨hdi, List.pairwise_singleton _ _, ?_⟩
                intro a ha b hb
                rw [List.mem_singleton] at hb
                subst hb
                rw [List.any_eq_false] at hdiv
                have := hdiv a ha
                simpa [Diverse] using this)
            have hpre : acc <+: acc' := (List.prefix_append _ _).trans i1
            refine ⟨hpre, i3, ?_, i5, ?_⟩
            · intro x hx
              rcases (L.mem_pop hp).1 hx with rfl | hx'
              · left
                exact i1.subset (by simp [PWO.flip])
              · exact i4 x hx'
            · intro hk hlt'
              have := i6 hk hlt'
              simp only [List.length_append, List.length_singleton] at this
              omega
          · rename_i hdiv
            have hcov : Covered cfg acc e := by
              have hdiv' : acc.any (fun d => (cfg.eval e.pt.data d.pt.data).le e.dist.neg) = true := by
                simpa using hdiv
              obtain ⟨d, hd, hx⟩ := List.any_eq_true.1 hdiv'
              exact ⟨d, hd, hx⟩
            split at hs
            · rename_i hk
              split at hs
              · cases hs
              · rename_i disc2 hd2
                obtain rfl := Policy.pushC_ok hd2
                obtain ⟨i1, i3, i4, i5, i6⟩ := ih h' acc _ acc' disc' hs (by omega) hdi
                refine ⟨i1, i3, ?_, fun x hx => i5 x (L.mem_push.2 (Or.inr hx)), ?_⟩
                · intro x hx
                  rcases (L.mem_pop hp).1 hx with rfl | hx'
                  · exact Or.inr (Or.inl ⟨hcov.mono (fun d hd => i1.subset hd),
                      fun _ => i5 x (L.mem_push.2 (Or.inl rfl))⟩)
                  · exact i4 x hx'
                · intro hk' hlt'
                  have := i6 hk' hlt'
                  rw [L.len_push] at this
                  omega
            · rename_i hk
              obtain ⟨i1, i3, i4, i5, i6⟩ := ih h' acc disc acc' disc' hs (by omega) hdi
              refine ⟨i1, i3, ?_, i5, fun hk' => absurd hk' hk⟩
              intro x hx
              rcases (L.mem_pop hp).1 hx with rfl | hx'
              · exact Or.inr (Or.inl ⟨hcov.mono (fun d hd => i1.subset hd),
                  fun hk' => absurd hk' hk⟩)
              · exact i4 x hx'

/-- the heap of the discarded points is built by pushes of numbers -/
theorem selLoop_disc_built {asked : Nat} {kp : Bool} : ∀ (n : Nat) (h : P.H)
    (acc : List (PWO T)) (disc : P.H) (acc' : List (PWO T)) (disc' : P.H),
    selLoop P cfg asked kp n h acc disc = .ok (acc', disc') → P.Built disc → P.Built disc' := by
  intro n
  induction n with
  | zero =>
    intro h acc disc acc' disc' hs hB
    simp only [selLoop] at hs
    cases hs
    exact hB
  | succ n ih =>
    intro h acc disc acc' disc' hs hB
    simp only [selLoop] at hs
    split at hs
    · cases hs
      exact hB
    · split at hs
      · cases hs
        exact hB
      · rename_i e h' hp
        split at hs
        · cases hs
        · rename_i hel
          split at hs
          · exact ih _ _ _ _ _ hs hB
          · split at hs
            · split at hs
              · cases hs
              · rename_i disc2 hd2
                obtain rfl := Policy.pushC_ok hd2
                refine ih _ _ _ _ _ hs (.push hB ?_)
                have := (le_zero_neg_legal hel).1
                simpa using this
            · exact ih _ _ _ _ _ hs hB

/-- keeping the discarded points apart does not change the loop -/
theorem selLoop_kp {asked : Nat} : ∀ (n : Nat) (h : P.H)
    (acc : List (PWO T)) (disc disc0 : P.H) (acc' : List (PWO T)) (disc' : P.H),
    selLoop P cfg asked true n h acc disc = .ok (acc', disc') →
    selLoop P cfg asked false n h acc disc0 = .ok (acc', disc0) := by
  intro n
  induction n with
  | zero =>
    intro h acc disc disc0 acc' disc' hs
    simp only [selLoop] at hs ⊢
    cases hs
    rfl
  | succ n ih =>
    intro h acc disc disc0 acc' disc' hs
    simp only [selLoop] at hs ⊢
    split at hs
    · rename_i hge
      cases hs
      rw [if_pos hge]
    · rename_i hlt
      rw [if_neg hlt]
      split at hs
      · rename_i hp
        cases hs
        rfl
      · rename_i e h' hp
        split at hs
        · cases hs
        · rename_i hel
          rw [if_neg hel]
          split at hs
          · rename_i hdiv
            rw [if_pos hdiv]
            exact ih _ _ _ _ _ _ hs
          · rename_i hdiv
            rw [if_neg hdiv, if_neg (by simp)]
            rw [if_pos trivial] at hs
            split at hs
            · cases hs
            · exact ih _ _ _ _ _ _ hs

/-- the refill loop takes the nearest discarded points until there are enough -/
theorem refill_spec (L : P.Lawful) {asked : Nat} : ∀ (n : Nat) (disc : P.H)
    (acc acc' : List (PWO T)),
    refill P asked n disc acc = .ok acc' → P.len disc ≤ n → P.Built disc → acc.length ≤ asked →
    ∃ w, acc' = acc ++ w ∧ w.Pairwise (fun a b => a.dist.key ≤ b.dist.key) ∧
      (∀ y ∈ w, y.dist.Legal ∧ ∃ x ∈ P.items disc, y = x.flip) ∧
      (∀ x ∈ P.items disc, x.flip ∈ w ∨ ∀ y ∈ w, y.dist.key ≤ x.dist.neg.key) ∧
      acc'.length = min asked (acc.length + P.len disc) := by
  intro n
  induction n with
  | zero =>
    intro disc acc acc' hs hl hB ha
    simp only [refill] at hs
    cases hs
    have h0 : P.items disc = [] := by
      simp [Policy.len] at hl; exact hl
    refine ⟨[], by simp, List.Pairwise.nil, by simp, by simp [h0], ?_⟩
    omega
  | succ n ih =>
    intro disc acc acc' hs hl hB ha
    simp only [refill] at hs
    split at hs
    · cases hs
      refine ⟨[], by simp, List.Pairwise.nil, by simp, by simp, ?_⟩
      omega
    · rename_i hlt
      split at hs
      · rename_i hp
        cases hs
        have h0 := (L.pop_none disc).1 hp
        have : P.len disc = 0 := by unfold Policy.len; rw [h0]; rfl
        refine ⟨[], by simp, List.Pairwise.nil, by simp, by simp [h0], ?_⟩
        omega
      · rename_i e disc2 hp
        have hlen := L.len_pop hp
        have hmax := L.pop_max disc hB e disc2 hp
        split at hs
        · cases hs
        · rename_i hel
          have hel := le_zero_neg_legal hel
          obtain ⟨w, hw, h1, h2, h3, h4⟩ := ih disc2 _ acc' hs (by omega) (.pop hB hp) (by
            simp only [List.length_append, List.length_singleton]; omega)
          have hfirst : ∀ y ∈ w, e.dist.neg.key ≤ y.dist.key := by
            intro y hy
            obtain ⟨-, x, hx, rfl⟩ := h2 y hy
            have := hmax x ((L.mem_pop hp).2 (Or.inr hx))
            simp only [PWO.flip_dist, F32.key_neg]
            omega
          refine ⟨⟨e.pt, e.dist.neg⟩ :: w, by rw [hw]; simp, ?_, ?_, ?_, ?_⟩
          · rw [List.pairwise_cons]
            exact ⟨hfirst, h1⟩
          · intro y hy
            rcases List.mem_cons.1 hy with rfl | hy'
            · exact ⟨hel, e, (L.mem_pop hp).2 (Or.inl rfl), rfl⟩
            · obtain ⟨hl', x, hx, rfl⟩ := h2 y hy'
              exact ⟨hl', x, (L.mem_pop hp).2 (Or.inr hx), rfl⟩
          · intro x hx
            rcases (L.mem_pop hp).1 hx with rfl | hx'
            · left; simp [PWO.flip]
            · rcases h3 x hx' with h | h
              · left; exact List.mem_cons_of_mem _ h
              · right
                intro y hy
                rcases List.mem_cons.1 hy with rfl | hy'
                · have := hmax x hx
                  simp only [F32.key_neg]
                  omega
                · exact h y hy'
          · rw [h4]
            simp only [List.length_append, List.length_singleton]
            omega

/-- one candidate of the extension -/
theorem extend_fold_spec (cands : List (Ref T)) : ∀ (qs : List (PWO T)) (acc : List (Ref T)),
    (acc.map (·.pid)).Nodup →
    ∃ acc', qs.foldl (fun acc q =>
          if q.pt.pid ∉ cands.map (·.pid) ∧ q.pt.pid ∉ acc.map (·.pid) then acc ++ [q.pt]
          else acc) acc = acc' ∧ (acc'.map (·.pid)).Nodup ∧
      (∀ r ∈ acc', r ∈ acc ∨ (r.pid ∉ cands.map (·.pid) ∧ ∃ q ∈ qs, q.pt = r)) ∧
      (∀ r ∈ acc, r ∈ acc') ∧
      (∀ q ∈ qs, q.pt.pid ∉ cands.map (·.pid) → q.pt.pid ∈ acc'.map (·.pid)) := by
  intro qs
  induction qs with
  | nil => intro acc h; exact ⟨acc, rfl, h, fun r hr => Or.inl hr, fun r hr => hr, by simp⟩
  | cons q qs ih =>
    intro acc hnd
    rw [List.foldl_cons]
    by_cases hq : q.pt.pid ∉ cands.map (·.pid) ∧ q.pt.pid ∉ acc.map (·.pid)
    · rw [if_pos hq]
      obtain ⟨acc', h1, h2, h3, h4, h5⟩ := ih (acc ++ [q.pt]) (by
        rw [List.map_append, List.nodup_append]
        refine ⟨hnd, by simp, ?_⟩
        intro a ha b hb
        simp only [List.map_cons, List.map_nil, List.mem_singleton] at hb
        rintro rfl
        exact hq.2 (hb ▸ ha))
      refine ⟨acc', h1, h2, ?_, fun r hr => h4 r (List.mem_append_left _ hr), ?_⟩
      · intro r hr
        rcases h3 r hr with h | ⟨h, q', hq', h'⟩
        · rcases List.mem_append.1 h with h | h
          · exact Or.inl h
          · rw [List.mem_singleton] at h
            subst h
            exact Or.inr ⟨hq.1, q, by simp, rfl⟩
        · exact Or.inr ⟨h, q', List.mem_cons_of_mem _ hq', h'⟩
      · intro q' hq' hn
        rcases List.mem_cons.1 hq' with rfl | hq'
        · exact List.mem_map.2 ⟨_, h4 _ (by simp), rfl⟩
        · exact h5 q' hq' hn
    · rw [if_neg hq]
      obtain ⟨acc', h1, h2, h3, h4, h5⟩ := ih acc hnd
      refine ⟨acc', h1, h2, ?_, h4, ?_⟩
      · intro r hr
        rcases h3 r hr with h | ⟨h, q', hq', h'⟩
        · exact Or.inl h
        · exact Or.inr ⟨h, q', List.mem_cons_of_mem _ hq', h'⟩
      · intro q' hq' hn
        rcases List.mem_cons.1 hq' with rfl | hq'
        · have : q'.pt.pid ∈ acc.map (·.pid) := by
            apply Classical.byContradiction
            intro h; exact hq ⟨hn, h⟩
          obtain ⟨r, hr, hr'⟩ := List.mem_map.1 this
          exact List.mem_map.2 ⟨r, h4 r hr, hr'⟩
        · exact h5 q' hq' hn

/-- the extension, run alone -/
theorem extendP_run (layer : Nat) (cands : List (Ref T)) (c : CSt T) : ∀ (ps acc : List (Ref T)),
    (acc.map (·.pid)).Nodup →
    ∃ acc', (extendP layer cands ps acc).run c = .ok acc' c ∧ (acc'.map (·.pid)).Nodup ∧
      (∀ r ∈ acc', r ∈ acc ∨ (r.pid ∉ cands.map (·.pid) ∧
        ∃ p ∈ ps, ∃ q ∈ c.idx.nb p.pid layer, q.pt = r)) ∧
      (∀ r ∈ acc, r ∈ acc') ∧
      (∀ p ∈ ps, ∀ q ∈ c.idx.nb p.pid layer, q.pt.pid ∉ cands.map (·.pid) →
        q.pt.pid ∈ acc'.map (·.pid)) := by
  intro ps
  induction ps with
  | nil => intro acc h; exact ⟨acc, rfl, h, fun r hr => Or.inl hr, fun r hr => hr, by simp⟩
  | cons p ps ih =>
    intro acc hnd
    obtain ⟨acc1, h1, h2, h3, h4, h5⟩ := extend_fold_spec cands (c.idx.nb p.pid layer) acc hnd
    obtain ⟨acc2, i1, i2, i3, i4, i5⟩ := ih acc1 h2
    refine ⟨acc2, ?_, i2, ?_, fun r hr => i4 r (h4 r hr), ?_⟩
    · simp only [extendP, Prog.read, Prog.run, if_true, id]
      rw [h1]
      exact i1
    · intro r hr
      rcases i3 r hr with h | ⟨h, p', hp', h'⟩
      · rcases h3 r h with h | ⟨h, q, hq, h'⟩
        · exact Or.inl h
        · exact Or.inr ⟨h, p, by simp, q, hq, h'⟩
      · exact Or.inr ⟨h, p', List.mem_cons_of_mem _ hp', h'⟩
    · intro p' hp' q hq hn
      rcases List.mem_cons.1 hp' with rfl | hp'
      · obtain ⟨r, hr, hr'⟩ := List.mem_map.1 (h5 q hq hn)
        exact List.mem_map.2 ⟨r, i4 r hr, hr'⟩
      · exact i5 p' hp' q hq hn

theorem run_bind {σ α β : Type} (m : Prog σ α) (f : α → Prog σ β) : ∀ (s : σ),
    (m.bind f).run s = match m.run s with
      | .ok a s' => (f a).run s'
      | .panic e s' => .panic e s'
      | .blocked s' => .blocked s' := by
  induction m with
  | ret a => intro s; rfl
  | fail e => intro s; rfl
  | act g u k ih =>
    intro s
    simp only [Prog.bind, Prog.run]
    split
    · exact ih s (u s)
    · rfl

theorem run_ofExcept_ok {σ α β : Type} {x : Except Panic β} {f : β → Prog σ α} {s s' : σ} {a : α}
    (h : (Prog.ofExcept x f).run s = .ok a s') : ∃ b, x = .ok b ∧ (f b).run s = .ok a s' := by
  cases x with
  | error e => cases h
  | ok b => exact ⟨b, rfl, h⟩

end Verif
