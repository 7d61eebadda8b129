import Verif.SelectSpec
import Verif.Examples

set_option autoImplicit false

/-!
# Properties of the selection of neighbours (C24, C25)

`(selectP P cfg p cands asked ext layer kp).run c = .ok v c'`: `select_neighbours` called for the
new point `p` with the candidate heap `cands` returns the list `v`.  The heap contains negated
distances.
-/

namespace Verif
variable {T : Type} {P : Policy T} {cfg : Cfg T}

/-- the content of the candidate heap with the sign of the distances restored -/
def candidates (P : Policy T) (cands : P.H) : List (PWO T) :=
  (P.items cands).map fun x => ⟨x.pt, x.dist.neg⟩

/-- `pool`: the candidates and, if `extended`, all their neighbours in the layer that are not
candidates, each once, with their distance to the new point -/
def IsPool (cfg : Cfg T) (s : Idx T) (p : Ref T) (layer : Nat) (cands : List (PWO T))
    (extended : Prop) (pool : List (PWO T)) : Prop :=
  ∃ extras : List (Ref T),
    pool.Perm (cands ++ extras.map fun r => ⟨r, cfg.eval p.data r.data⟩) ∧
    (extras.map (·.pid)).Nodup ∧
    (∀ r ∈ extras, r.pid ∉ cands.map (·.pt.pid) ∧
      ∃ x ∈ cands, ∃ q ∈ s.nb x.pt.pid layer, q.pt = r) ∧
    (extended → ∀ x ∈ cands, ∀ q ∈ s.nb x.pt.pid layer, q.pt.pid ∉ cands.map (·.pt.pid) →
      q.pt.pid ∈ extras.map (·.pid)) ∧
    (¬ extended → extras = [])

theorem selectP_run (L : P.Lawful) {p : Ref T} {cands : P.H} {asked layer : Nat} {ext kp : Bool}
    {c c' : CSt T} {v : List (PWO T)}
    (h : (selectP P cfg p cands asked ext layer kp).run c = .ok v c') :
    c' = c ∧
    ((P.len cands ≤ asked ∧ ext = false ∧ transferAll P (P.len cands) cands [] = .ok v ∧
        ∀ kp', (selectP P cfg p cands asked ext layer kp').run c = .ok v c) ∨
     ((asked < P.len cands ∨ ext = true) ∧ ∃ heap : P.H,
        IsPool cfg c.idx p layer (candidates P cands) (P.len cands ≤ asked) (candidates P heap) ∧
        (P.Built cands → NoNaN (candidates P heap) → P.Built heap) ∧
        selectFrom P cfg asked kp heap = .ok v ∧
        ∀ kp' v', selectFrom P cfg asked kp' heap = .ok v' →
          (selectP P cfg p cands asked ext layer kp').run c = .ok v' c)) := by
  unfold selectP at h ⊢
  split at h
  · rename_i hc
    obtain ⟨b, hb, hr⟩ := run_ofExcept_ok h
    cases hr
    exact ⟨rfl, Or.inl ⟨hc.1, hc.2, hb, fun kp' => by rw [if_pos hc, hb]; rfl⟩⟩
  · rename_i hc
    have hact : asked < P.len cands ∨ ext = true := by
      by_cases hl : P.len cands ≤ asked
      · right
        cases ext with
        | true => rfl
        | false => exact absurd ⟨hl, rfl⟩ hc
      · left; omega
    split at h
    · rename_i hle
      rw [run_bind] at h
      obtain ⟨news, h1, h2, h3, -, h5⟩ := extendP_run layer ((P.items cands).map (·.pt)) c
        (P.hashOrder p.pid layer 0 ((P.items cands).map (·.pt))) [] (by simp)
      rw [h1] at h
      simp only at h
      obtain ⟨heap, hb, hr⟩ := run_ofExcept_ok h
      obtain ⟨v', hb', hr'⟩ := run_ofExcept_ok hr
      cases hr'
      refine ⟨rfl, Or.inr ⟨hact, heap, ?_, ?_, hb', ?_⟩⟩
      rotate_left
      · intro hB hN
        refine pushAll_built _ _ _ hb hB fun x hx => ?_
        have := hN ⟨x.pt, x.dist.neg⟩ (List.mem_map.2
          ⟨x, (pushAll_ok L _ _ _ hb).mem_iff.2 (List.mem_append_left _ hx), rfl⟩)
        simpa using this
      · intro kp' v' hv'
        rw [if_neg hc, if_pos hle, run_bind, h1]
        simp only
        rw [hb, Prog.ofExcept, hv']
        rfl
      have hp := pushAll_ok L _ _ _ hb
      have hm : ∀ r, r ∈ P.hashOrder p.pid layer 0 ((P.items cands).map (·.pt)) ↔
          r ∈ (P.items cands).map (·.pt) := fun r => (L.hash_perm _ _ _ _).mem_iff
      have hpid : (candidates P cands).map (·.pt.pid) =
          ((P.items cands).map (·.pt)).map (·.pid) := by
        simp [candidates, Function.comp_def]
      have hmem : ∀ r, r ∈ (P.items cands).map (·.pt) ↔ ∃ x ∈ candidates P cands, x.pt = r := by
        intro r
        unfold candidates
        simp only [List.mem_map]
        constructor
        · rintro ⟨x, hx, rfl⟩
          exact ⟨_, ⟨x, hx, rfl⟩, rfl⟩
        · rintro ⟨_, ⟨x, hx, rfl⟩, rfl⟩
          exact ⟨x, hx, rfl⟩
      refine ⟨news, ?_, h2, ?_, ?_, fun hn => absurd hle hn⟩
      · unfold candidates
        refine (hp.map _).trans ?_
        rw [List.map_append, List.map_map]
        refine (List.perm_append_comm).trans (List.Perm.append_left _ ?_)
        refine ((L.hash_perm p.pid layer 1 news).map _).trans ?_
        apply List.Perm.of_eq
        apply List.map_congr_left
        intro r _
        simp
      · intro r hr
        rcases h3 r hr with h | ⟨h, p', hp', q, hq, rfl⟩
        · cases h
        · refine ⟨hpid ▸ h, ?_⟩
          obtain ⟨x, hx, rfl⟩ := (hmem p').1 ((hm p').1 hp')
          exact ⟨x, hx, q, hq, rfl⟩
      · intro _ x hx q hq hn
        exact h5 x.pt ((hm _).2 ((hmem _).2 ⟨x, hx, rfl⟩)) q hq (hpid ▸ hn)
    · rename_i hgt
      obtain ⟨v', hb, hr⟩ := run_ofExcept_ok h
      cases hr
      refine ⟨rfl, Or.inr ⟨hact, cands, ⟨[], by simp, by simp, by simp, fun h => absurd h hgt,
        fun _ => rfl⟩, fun hB _ => hB, hb, ?_⟩⟩
      intro kp' v' hv'
      rw [if_neg hc, if_neg hgt, hv']
      rfl

theorem mem_candidates {h : P.H} {x : PWO T} : x ∈ candidates P h ↔ x.flip ∈ P.items h := by
  simp only [candidates, List.mem_map]
  constructor
  · rintro ⟨y, hy, rfl⟩
    have : (PWO.mk y.pt y.dist.neg).flip = y := by cases y; simp [PWO.flip]
    rw [this]; exact hy
  · intro hx
    exact ⟨_, hx, by cases x; simp [PWO.flip]⟩

/-- no NaN in the pool -/
theorem pool_noNaN (L : P.Lawful) {s : Idx T} {p : Ref T} {layer : Nat} {cands heap : P.H} {e : Prop}
    (hpool : IsPool cfg s p layer (candidates P cands) e (candidates P heap)) (hB : P.Built cands)
    (hnan : ∀ a, ∀ x ∈ s.nb a layer, (cfg.eval p.data x.pt.data).isNaN = false) :
    NoNaN (candidates P heap) := by
  obtain ⟨extras, e1, -, e3, -, -⟩ := hpool
  intro x hx
  rcases List.mem_append.1 (e1.mem_iff.1 hx) with hx | hx
  · have := L.built_noNaN hB _ (mem_candidates.1 hx)
    simpa using this
  · obtain ⟨r, hr, rfl⟩ := List.mem_map.1 hx
    obtain ⟨-, y, -, q, hq, rfl⟩ := e3 r hr
    exact hnan _ q hq

theorem pool_nodup {s : Idx T} {p : Ref T} {layer : Nat} {cands heap : P.H} {e : Prop}
    (hpool : IsPool cfg s p layer (candidates P cands) e (candidates P heap))
    (hnd : ((P.items cands).map (·.pt.pid)).Nodup) : (pids (P.items heap)).Nodup := by
  obtain ⟨extras, e1, e2, e3, -, -⟩ := hpool
  have := (e1.map (·.pt.pid)).nodup_iff.2 (by
    rw [List.map_append, List.nodup_append]
    refine ⟨by simpa [candidates, Function.comp_def] using hnd,
      by simpa [Function.comp_def] using e2, ?_⟩
    intro a ha b hb
    simp only [List.map_map, Function.comp_def, List.mem_map] at hb
    obtain ⟨r, hr, rfl⟩ := hb
    rintro rfl
    exact (e3 r hr).1 ha)
  simpa [candidates, pids, Function.comp_def] using this

/-- `v` is the selection of at most `asked` neighbours from `pool` by the heuristic: in increasing
distance, the nearest of the pool first; each is strictly nearer to the new point than to every
previously selected one (no `≤`); and nothing else is left out: what is not selected is at least as near
to some selected point as to the new point, or the list is full and it is not nearer than any selected
one. -/
structure Diversified (cfg : Cfg T) (asked : Nat) (pool v : List (PWO T)) : Prop where
  sub : ∀ y ∈ v, y ∈ pool ∧ y.dist.Legal
  nodup : (v.map (·.pt.pid)).Nodup
  len : v.length ≤ asked
  sorted : v.Pairwise (fun a b => a.dist.key ≤ b.dist.key)
  diverse : v.Pairwise (fun d e => (cfg.eval e.pt.data d.pt.data).le e.dist = false)
  maximal : ∀ x ∈ pool, x ∈ v ∨ (∃ d ∈ v, (cfg.eval x.pt.data d.pt.data).le x.dist = true) ∨
    (v.length = asked ∧ ∀ d ∈ v, d.dist.key ≤ x.dist.key)
  first : 0 < asked → pool ≠ [] → ∃ y, v.head? = some y ∧ ∀ x ∈ pool, y.dist.key ≤ x.dist.key

theorem selectFrom_diversified (L : P.Lawful) {asked : Nat} {heap : P.H} {v : List (PWO T)}
    (hsel : selectFrom P cfg asked false heap = .ok v) (hnd' : (pids (P.items heap)).Nodup)
    (hB : P.Built heap) :
    Diversified cfg asked (candidates P heap) v := by
  obtain ⟨k1, k2, k3⟩ := selectFrom_ok L hsel hnd'
  unfold selectFrom at hsel
  split at hsel
  · cases hsel
  · rename_i acc disc hs
    simp only [Bool.false_eq_true, if_false] at hsel
    injection hsel with hsel
    subst hsel
    obtain ⟨i1, i2, i3, i4, -, -⟩ := selLoop_spec L _ _ _ _ _ _ hs (Nat.le_refl _) hB
      (by simp) List.Pairwise.nil List.Pairwise.nil
    have hall : ∀ x ∈ candidates P heap, x ∈ acc ∨
        (∃ d ∈ acc, (cfg.eval x.pt.data d.pt.data).le x.dist = true) ∨
        (acc.length = asked ∧ ∀ d ∈ acc, d.dist.key ≤ x.dist.key) := by
      intro x hx
      rcases i4 _ (mem_candidates.1 hx) with h4 | h4 | ⟨h4, h5⟩
      · left; simpa using h4
      · right; left
        obtain ⟨d, hd, hd'⟩ := h4.1
        exact ⟨d, hd, by simpa using hd'⟩
      · right; right
        refine ⟨by omega, ?_⟩
        intro d hd
        simpa using h5 d hd
    refine ⟨?_, k2, k3, i2, i3, hall, ?_⟩
    · intro y hy
      obtain ⟨hl, x, hx, rfl⟩ := k1 y hy
      exact ⟨mem_candidates.2 (by simpa using hx), hl⟩
    · intro ha hne
      -- the first element popped is selected
      have hlen : P.len heap ≠ 0 := by
        intro h0
        apply hne
        unfold candidates
        rw [List.length_eq_zero_iff.1 h0]
        rfl
      cases hn : P.len heap with
      | zero => exact absurd hn hlen
      | succ n =>
        rw [hn] at hs
        simp only [selLoop, List.length_nil] at hs
        rw [if_neg (by omega)] at hs
        cases hp : P.pop heap with
        | none =>
          have h0 := (L.pop_none heap).1 hp
          exact absurd (by unfold Policy.len; rw [h0]; rfl) hlen
        | some eh =>
          obtain ⟨e, h'⟩ := eh
          rw [hp] at hs
          simp only [List.any_nil, if_true, List.nil_append] at hs
          split at hs
          · cases hs
          · obtain ⟨j1, -⟩ := selLoop_spec L _ _ _ _ _ _ hs (by have := L.len_pop hp; omega)
              (.pop hB hp) (by
              intro d hd x hx
              rw [List.mem_singleton] at hd
              subst hd
              have := L.pop_max heap hB e h' hp x ((L.mem_pop hp).2 (Or.inr hx))
              simp only [F32.key_neg]
              omega) (List.pairwise_singleton _ _) (List.pairwise_singleton _ _)
            obtain ⟨w, rfl⟩ := j1
            refine ⟨_, rfl, ?_⟩
            intro x hx
            have := L.pop_max heap hB e h' hp _ (mem_candidates.1 hx)
            simp only [PWO.flip_dist, F32.key_neg] at this ⊢
            omega

/-- **C24** (with pruning), for every distance, NaN included: the selected points are candidates, not more
than asked, and none is nearer (`≤`) to a previously selected one than to the new point; nothing else is left
out: a candidate that is not selected is at least as near to some selected point as to the new point, or the list
is full; a list that is not full contains at least one point. -/
theorem C24_selection (L : P.Lawful) {p : Ref T} {cands : P.H} {asked layer : Nat} {ext : Bool}
    {c c' : CSt T} {v : List (PWO T)}
    (h : (selectP P cfg p cands asked ext layer false).run c = .ok v c')
    (hact : asked < P.len cands ∨ ext = true)
    (hnd : ((P.items cands).map (·.pt.pid)).Nodup) :
    c' = c ∧ ∃ pool, IsPool cfg c.idx p layer (candidates P cands) (P.len cands ≤ asked) pool ∧
      (∀ y ∈ v, y ∈ pool ∧ y.dist.Legal) ∧ (v.map (·.pt.pid)).Nodup ∧ v.length ≤ asked ∧
      v.Pairwise (fun d e => (cfg.eval e.pt.data d.pt.data).le e.dist = false) ∧
      (∀ x ∈ pool, x ∈ v ∨ (∃ d ∈ v, (cfg.eval x.pt.data d.pt.data).le x.dist = true) ∨
        v.length = asked) ∧
      (0 < asked → pool ≠ [] → v ≠ []) := by
  obtain ⟨hc, hh⟩ := selectP_run L h
  refine ⟨hc, ?_⟩
  rcases hh with ⟨h1, h2, -⟩ | ⟨-, heap, hpool, -, hsel, -⟩
  · rcases hact with h3 | h3
    · omega
    · rw [h2] at h3; cases h3
  · have hnd' := pool_nodup hpool hnd
    obtain ⟨k1, k2, k3⟩ := selectFrom_ok L hsel hnd'
    unfold selectFrom at hsel
    split at hsel
    · cases hsel
    · rename_i acc disc hs
      simp only [Bool.false_eq_true, if_false] at hsel
      injection hsel with hsel
      subst hsel
      obtain ⟨-, i3, i4, -, -⟩ := selLoop_any L _ _ _ _ _ _ hs (Nat.le_refl _) List.Pairwise.nil
      have hall : ∀ x ∈ candidates P heap, x ∈ acc ∨
          (∃ d ∈ acc, (cfg.eval x.pt.data d.pt.data).le x.dist = true) ∨ acc.length = asked := by
        intro x hx
        rcases i4 _ (mem_candidates.1 hx) with h4 | h4 | h4
        · left; simpa using h4
        · right; left
          obtain ⟨d, hd, hd'⟩ := h4.1
          exact ⟨d, hd, by simpa using hd'⟩
        · right; right; omega
      refine ⟨candidates P heap, hpool, ?_, k2, k3, i3, hall, ?_⟩
      · intro y hy
        obtain ⟨hl, x, hx, rfl⟩ := k1 y hy
        exact ⟨mem_candidates.2 (by simpa using hx), hl⟩
      · intro ha hne h0
        obtain ⟨x, hx⟩ := List.exists_mem_of_ne_nil _ hne
        rcases hall x hx with h1 | ⟨d, h1, -⟩ | h1
        · rw [h0] at h1; cases h1
        · rw [h0] at h1; cases h1
        · rw [h0, List.length_nil] at h1; omega

/-- **C24** (partial: without NaN in the pool; with pruning) The selection of at most `asked` neighbours without `keep_pruned`, when
there are more candidates than asked or they are extended.  The selected points are candidates, in
increasing distance, the nearest candidate first; each is strictly nearer to the new point than to
every previously selected one; and nothing else is left out: a candidate that is not selected is
at least as near to some selected point as to the new point, or the list is full and the candidate
is not nearer than any selected one. -/
theorem C24_selection_partial (L : P.Lawful) {p : Ref T} {cands : P.H} {asked layer : Nat} {ext : Bool}
    {c c' : CSt T} {v : List (PWO T)}
    (h : (selectP P cfg p cands asked ext layer false).run c = .ok v c')
    (hact : asked < P.len cands ∨ ext = true)
    (hnd : ((P.items cands).map (·.pt.pid)).Nodup)
    (hB : P.Built cands)
    (hnan : ∀ a, ∀ x ∈ c.idx.nb a layer, (cfg.eval p.data x.pt.data).isNaN = false) :
    c' = c ∧ ∃ pool, IsPool cfg c.idx p layer (candidates P cands) (P.len cands ≤ asked) pool ∧
      (∀ y ∈ v, y ∈ pool ∧ y.dist.Legal) ∧ (v.map (·.pt.pid)).Nodup ∧ v.length ≤ asked ∧
      v.Pairwise (fun a b => a.dist.key ≤ b.dist.key) ∧
      v.Pairwise (fun d e => (cfg.eval e.pt.data d.pt.data).le e.dist = false) ∧
      (∀ x ∈ pool, x ∈ v ∨ (∃ d ∈ v, (cfg.eval x.pt.data d.pt.data).le x.dist = true) ∨
        (v.length = asked ∧ ∀ d ∈ v, d.dist.key ≤ x.dist.key)) ∧
      (0 < asked → pool ≠ [] → ∃ y, v.head? = some y ∧ ∀ x ∈ pool, y.dist.key ≤ x.dist.key) := by
  obtain ⟨hc, hh⟩ := selectP_run L h
  refine ⟨hc, ?_⟩
  rcases hh with ⟨h1, h2, -⟩ | ⟨-, heap, hpool, hbu, hsel, -⟩
  · rcases hact with h3 | h3
    · omega
    · rw [h2] at h3; cases h3
  · have hD := selectFrom_diversified L hsel (pool_nodup hpool hnd)
      (hbu hB (pool_noNaN L hpool hB hnan))
    exact ⟨candidates P heap, hpool, hD.sub, hD.nodup, hD.len, hD.sorted, hD.diverse, hD.maximal,
      hD.first⟩

/-- **C24** (partial), diversity in terms of `<`: for a distance that is not NaN on the selected points, each
selected point is strictly nearer to the new point than to every previously selected one. -/
theorem C24_diversified_partial (L : P.Lawful) {p : Ref T} {cands : P.H} {asked layer : Nat} {ext : Bool}
    {c c' : CSt T} {v : List (PWO T)}
    (h : (selectP P cfg p cands asked ext layer false).run c = .ok v c')
    (hact : asked < P.len cands ∨ ext = true)
    (hnd : ((P.items cands).map (·.pt.pid)).Nodup)
    (hB : P.Built cands)
    (hnb : ∀ a, ∀ x ∈ c.idx.nb a layer, (cfg.eval p.data x.pt.data).isNaN = false)
    (hnan : ∀ a ∈ v, ∀ b ∈ v, (cfg.eval a.pt.data b.pt.data).isNaN = false) :
    v.Pairwise (fun d e => e.dist.lt (cfg.eval e.pt.data d.pt.data) = true) := by
  obtain ⟨-, pool, -, h1, -, -, -, h2, -, -⟩ := C24_selection_partial L h hact hnd hB hnb
  refine List.Pairwise.imp_of_mem ?_ h2
  intro d e hd he hde
  rw [F32.lt_iff]
  refine ⟨(h1 e he).2.1, hnan e he d hd, ?_⟩
  apply Classical.byContradiction
  intro hn
  have : (cfg.eval e.pt.data d.pt.data).le e.dist = true :=
    F32.le_iff.2 ⟨hnan e he d hd, (h1 e he).2.1, by omega⟩
  rw [this] at hde
  cases hde

theorem transferAll_perm (L : P.Lawful) : ∀ (n : Nat) (hp : P.H) (acc v : List (PWO T)),
    P.len hp ≤ n → transferAll P n hp acc = .ok v →
    v.Perm (acc ++ (P.items hp).map PWO.flip) := by
  intro n
  induction n with
  | zero =>
    intro hp acc v hl hs
    simp only [transferAll] at hs
    cases hs
    have h0 : P.items hp = [] := by
      simp [Policy.len] at hl; exact hl
    simp [h0]
  | succ n ih =>
    intro hp acc v hl hs
    simp only [transferAll] at hs
    split at hs
    · rename_i hq
      cases hs
      simp [(L.pop_none hp).1 hq]
    · rename_i e h' hq
      split at hs
      · cases hs
      · have h1 := ih h' _ v (by have := L.len_pop hq; omega) hs
        refine h1.trans ?_
        rw [List.append_assoc]
        refine List.Perm.append_left _ ?_
        exact ((L.pop_perm hp e h' hq).map PWO.flip).symm

/-- **C24** (without pruning) When there are not more candidates than asked and no extension is
asked, all the candidates are selected. -/
theorem C24_all_selected (L : P.Lawful) {p : Ref T} {cands : P.H} {asked layer : Nat} {kp : Bool}
    {c c' : CSt T} {v : List (PWO T)}
    (h : (selectP P cfg p cands asked false layer kp).run c = .ok v c')
    (hle : P.len cands ≤ asked) :
    c' = c ∧ v.Perm (candidates P cands) := by
  obtain ⟨hc, hh⟩ := selectP_run L h
  refine ⟨hc, ?_⟩
  rcases hh with ⟨-, -, h3, -⟩ | ⟨h1 | h1, -⟩
  · have := transferAll_perm L _ _ _ _ (Nat.le_refl _) h3
    exact this
  · omega
  · cases h1

/-- with `keep_pruned`: the selection without it, completed by the nearest of the others -/
theorem selectFrom_kept (L : P.Lawful) {asked : Nat} {heap : P.H} {v : List (PWO T)}
    (hsel : selectFrom P cfg asked true heap = .ok v) (hnd' : (pids (P.items heap)).Nodup) :
    ∃ v0 w, v = v0 ++ w ∧ selectFrom P cfg asked false heap = .ok v0 ∧
      (∀ y ∈ v, y ∈ candidates P heap) ∧ (v.map (·.pt.pid)).Nodup ∧
      v.length = min asked (candidates P heap).length ∧
      w.Pairwise (fun a b => a.dist.key ≤ b.dist.key) ∧
      ∀ x ∈ candidates P heap, x ∉ v → ∀ y ∈ w, y.dist.key ≤ x.dist.key := by
  obtain ⟨k1, k2, k3⟩ := selectFrom_ok L hsel hnd'
  have hlen : (candidates P heap).length = P.len heap := by simp [candidates, Policy.len]
  have hsel' := hsel
  unfold selectFrom at hsel'
  split at hsel'
  · cases hsel'
  · rename_i acc disc hs
    simp only [if_true] at hsel'
    have hs0 := selLoop_kp _ _ _ _ P.empty _ _ hs
    have hv0 : selectFrom P cfg asked false heap = .ok acc := by
      unfold selectFrom
      rw [hs0]
      rfl
    obtain ⟨-, -, k3'⟩ := selectFrom_ok L hv0 hnd'
    obtain ⟨-, -, i4, -, i6⟩ := selLoop_any L _ _ _ _ _ _ hs (Nat.le_refl _)
      List.Pairwise.nil
    obtain ⟨w, hw, h1, h2, h3, h4⟩ := refill_spec L _ _ _ _ hsel' (Nat.le_refl _)
      (selLoop_disc_built _ _ _ _ _ _ hs L.built_empty) k3'
    refine ⟨acc, w, hw, hv0, ?_, k2, ?_, h1, ?_⟩
    rotate_left
    · rw [h4, hlen]
      by_cases hlt : acc.length < asked
      · have := i6 rfl hlt
        rw [L.len_empty] at this
        simp only [List.length_nil] at this
        omega
      · have hle : acc.length ≤ P.len heap := by
          have h5 : acc.map (·.pt.pid) ⊆ (P.items heap).map (·.pt.pid) := by
            intro a ha
            obtain ⟨y, hy, rfl⟩ := List.mem_map.1 ha
            obtain ⟨-, x, hx, rfl⟩ := k1 y (by rw [hw]; exact List.mem_append_left _ hy)
            exact List.mem_map.2 ⟨x, hx, rfl⟩
          have h6 : (acc.map (·.pt.pid)).Nodup := by
            rw [hw] at k2
            unfold pids at k2
            rw [List.map_append] at k2
            exact (List.nodup_append.1 k2).1
          have := length_le_of_nodup_subset h6 h5
          simpa [Policy.len] using this
        omega
    rotate_left
    · intro y hy
      obtain ⟨-, x, hx, rfl⟩ := k1 y hy
      exact mem_candidates.2 (by simpa using hx)
    · intro x hx hn y hy
      have hn1 : x ∉ acc := fun h => hn (by rw [hw]; exact List.mem_append_left _ h)
      have hn2 : x ∉ w := fun h => hn (by rw [hw]; exact List.mem_append_right _ h)
      rcases i4 _ (mem_candidates.1 hx) with h5 | ⟨-, h5⟩ | h5
      · exact absurd (by simpa using h5) hn1
      · rcases h3 _ (h5 rfl) with h6 | h6
        · exact absurd (by simpa using h6) hn2
        · simpa using h6 y hy
      · -- the list was full before the refill
        have : w.length = 0 := by
          have h7 := congrArg List.length hw
          rw [List.length_append] at h7
          omega
        rw [List.length_eq_zero_iff.1 this] at hy
        cases hy

/-- **C25** With `keep_pruned` the selection returns exactly `min(asked, candidates)` neighbours: the
ones selected without `keep_pruned`, followed by the nearest of the others in increasing distance. -/
theorem C25_keep_pruned (L : P.Lawful) {p : Ref T} {cands : P.H} {asked layer : Nat} {ext : Bool}
    {c c' : CSt T} {v : List (PWO T)}
    (h : (selectP P cfg p cands asked ext layer true).run c = .ok v c')
    (hnd : ((P.items cands).map (·.pt.pid)).Nodup) :
    ∃ pool, IsPool cfg c.idx p layer (candidates P cands) (P.len cands ≤ asked ∧ ext = true) pool ∧
      v.length = min asked pool.length ∧ (∀ y ∈ v, y ∈ pool) ∧ (v.map (·.pt.pid)).Nodup ∧
      ∃ v0 w, v = v0 ++ w ∧
        (selectP P cfg p cands asked ext layer false).run c = .ok v0 c ∧
        w.Pairwise (fun a b => a.dist.key ≤ b.dist.key) ∧
        ∀ x ∈ pool, x ∉ v → ∀ y ∈ w, y.dist.key ≤ x.dist.key := by
  obtain ⟨hc, hh⟩ := selectP_run L h
  rcases hh with ⟨h1, h2, h3, h4⟩ | ⟨hact, heap, hpool, -, hsel, hrun⟩
  · have hp := transferAll_perm L _ _ _ _ (Nat.le_refl _) h3
    have hp : v.Perm (candidates P cands) := hp
    have hl : (candidates P cands).length = P.len cands := by simp [candidates, Policy.len]
    refine ⟨candidates P cands, ⟨[], by simp, by simp, by simp, fun h => ?_, fun _ => rfl⟩, ?_,
      fun y hy => hp.mem_iff.1 hy, ?_, v, [], by simp, h4 false, List.Pairwise.nil, by simp⟩
    · rw [h2] at h; cases h.2
    · rw [hp.length_eq, hl]; omega
    · rw [(hp.map _).nodup_iff]
      simpa [candidates, Function.comp_def] using hnd
  · have hpool' : IsPool cfg c.idx p layer (candidates P cands) (P.len cands ≤ asked ∧ ext = true)
        (candidates P heap) := by
      have : (P.len cands ≤ asked) = (P.len cands ≤ asked ∧ ext = true) := by
        apply propext
        constructor
        · intro h
          rcases hact with h' | h'
          · omega
          · exact ⟨h, h'⟩
        · exact fun h => h.1
      rw [← this]; exact hpool
    have hnd' := pool_nodup hpool hnd
    obtain ⟨v0, w, h1, h2, h3, h4, h5, h6, h7⟩ := selectFrom_kept L hsel hnd'
    exact ⟨candidates P heap, hpool', h5, h3, h4, v0, w, h1, hrun false v0 h2, h6, h7⟩

/-- a heap for the examples: candidates at 12, 11, 15, 30 of a new point 10 -/
def exHeap : List (PWO Nat) :=
  [12, 11, 15, 30].map fun n => ⟨⟨⟨0, n⟩, UInt64.ofNat n, [n]⟩, (absDist [10] [n]).neg⟩

/-- the values selected -/
def selected (o : Outcome (CSt Nat) (List (PWO Nat))) : List Nat :=
  match o with
  | .ok v _ => v.map (·.pt.data.headD 0)
  | _ => []

/-- hypotheses of C24: 5 candidates, 3 asked; 12, 15 and 30 are pruned because of 11 -/
example : selected ((selectP (listPolicy Nat) (exCfg 3) ⟨⟨0, 0⟩, 10, [10]⟩
      (⟨⟨⟨0, 9⟩, 9, [8]⟩, (absDist [10] [8]).neg⟩ :: exHeap) 3 false 0 false).run (CSt.new 16)) =
    [11, 8] := by decide +kernel

/-- with `keep_pruned` the list is filled -/
example : selected ((selectP (listPolicy Nat) (exCfg 3) ⟨⟨0, 0⟩, 10, [10]⟩
      (⟨⟨⟨0, 9⟩, 9, [8]⟩, (absDist [10] [8]).neg⟩ :: exHeap) 3 false 0 true).run (CSt.new 16)) =
    [11, 8, 12] := by decide +kernel

/-- extension: the only candidate is the point 10, its neighbours 25 and 30 are considered too; 30 is
pruned because of 25 -/
example : (ex4.nb ⟨0, 0⟩ 0).map (·.pt.data) = [[25], [30]] ∧
    selected ((selectP (listPolicy Nat) (exCfg 3) ⟨⟨0, 9⟩, 22, [22]⟩
      [⟨⟨⟨0, 0⟩, 10, [10]⟩, (absDist [22] [10]).neg⟩] 3 true 0 false).run
      (exSt (exCfg 3) [(10, 0), (20, 1), (30, 0), (25, 0)])) = [25, 10] := by decide +kernel

end Verif
