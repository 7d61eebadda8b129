import Verif.Param

set_option autoImplicit false

/-!
# Insertions on related data

Programs whose actions have related effects have matching executions (`ProgR`); every program of
the insertion is related to the same program on related data.
-/

namespace Verif
variable {T T' : Type} {S : DSim T T'} {P : Policy T} {P' : Policy T'}

/-! ## Programs -/

/-- Programs that go on alike from related states. -/
inductive ProgR {σ σ' α β : Type} (SR : σ → σ' → Prop) (A : α → β → Prop) :
    Prog σ α → Prog σ' β → Prop
  | ret {a : α} {b : β} : A a b → ProgR SR A (.ret a) (.ret b)
  | fail (e : Panic) : ProgR SR A (.fail e) (.fail e)
  | act {g : σ → Bool} {g' : σ' → Bool} {u : σ → σ} {u' : σ' → σ'} {k : σ → Prog σ α}
      {k' : σ' → Prog σ' β} :
      (∀ s s', SR s s' → g s = g' s') → (∀ s s', SR s s' → SR (u s) (u' s')) →
      (∀ s s', SR s s' → ProgR SR A (k s) (k' s')) → ProgR SR A (.act g u k) (.act g' u' k')

namespace ProgR
variable {σ σ' α β γ δ : Type} {SR : σ → σ' → Prop} {A : α → β → Prop} {B : γ → δ → Prop}

theorem bind {t : Prog σ α} {t' : Prog σ' β} (h : ProgR SR A t t') {f : α → Prog σ γ}
    {f' : β → Prog σ' δ} (hf : ∀ a b, A a b → ProgR SR B (f a) (f' b)) :
    ProgR SR B (t.bind f) (t'.bind f') := by
  induction h with
  | ret h => exact hf _ _ h
  | fail e => exact .fail e
  | act hg hu _ ih => exact .act hg hu ih

theorem read {k : σ → Prog σ α} {k' : σ' → Prog σ' β}
    (hk : ∀ s s', SR s s' → ProgR SR A (k s) (k' s')) : ProgR SR A (.read k) (.read k') :=
  .act (fun _ _ _ => rfl) (fun _ _ h => h) hk

theorem ofExcept {x : Except Panic γ} {x' : Except Panic δ} (h : ExcR B x x') {f : γ → Prog σ α}
    {f' : δ → Prog σ' β} (hf : ∀ a b, B a b → ProgR SR A (f a) (f' b)) :
    ProgR SR A (.ofExcept x f) (.ofExcept x' f') := by
  cases h with
  | error e => exact .fail e
  | ok h => exact hf _ _ h

theorem finished {t : Prog σ α} {t' : Prog σ' β} (h : ProgR SR A t t') : t.Finished ↔ t'.Finished := by
  cases h <;> exact Iff.rfl

end ProgR

/-- related outcomes of a run -/
inductive OutR {σ σ' α β : Type} (SR : σ → σ' → Prop) (A : α → β → Prop) :
    Outcome σ α → Outcome σ' β → Prop
  | ok {a : α} {b : β} {s : σ} {s' : σ'} : A a b → SR s s' → OutR SR A (.ok a s) (.ok b s')
  | panic (e : Panic) {s : σ} {s' : σ'} : SR s s' → OutR SR A (.panic e s) (.panic e s')
  | blocked {s : σ} {s' : σ'} : SR s s' → OutR SR A (.blocked s) (.blocked s')

theorem run_rel {σ σ' α β : Type} {SR : σ → σ' → Prop} {A : α → β → Prop} {t : Prog σ α}
    {t' : Prog σ' β} (h : ProgR SR A t t') : ∀ {s : σ} {s' : σ'}, SR s s' →
    OutR SR A (t.run s) (t'.run s') := by
  induction h with
  | ret h => intro s s' hs; exact .ok h hs
  | fail e => intro s s' hs; exact .panic e hs
  | @act g g' u u' k k' hg hu _ ih =>
    intro s s' hs
    simp only [Prog.run, hg s s' hs]
    split
    · exact ih s s' hs (hu s s' hs)
    · exact .blocked hs

/-- related systems of threads make matching steps -/
theorem steps_rel {σ σ' α β : Type} {SR : σ → σ' → Prop} {A : α → β → Prop}
    {a b : σ × List (Prog σ α)} (h : Steps a b) : ∀ {a' : σ' × List (Prog σ' β)}, SR a.1 a'.1 →
    Rel2 (ProgR SR A) a.2 a'.2 →
    ∃ b' : σ' × List (Prog σ' β), Steps a' b' ∧ SR b.1 b'.1 ∧ Rel2 (ProgR SR A) b.2 b'.2 := by
  induction h with
  | refl => intro a' h1 h2; exact ⟨a', .refl _, h1, h2⟩
  | step _ hb ih =>
    intro a' h1 h2
    obtain ⟨⟨s', ts'⟩, hs, h3, h4⟩ := ih h1 h2
    cases hb with
    | @mk s ts i hi g u k hact hg =>
      have hi' : i < ts'.length := by rw [← h4.length]; exact hi
      have h5 := h4.get hi hi'
      simp only at h3
      rw [hact] at h5
      generalize hx : ts'[i] = x at h5
      cases h5 with
      | @act _ g' _ u' _ k' hgg huu hkk =>
        exact ⟨(u' s', ts'.set i (k' s')),
          .step hs (.mk i hi' g' u' k' hx (by rw [← hgg s s' h3]; exact hg)),
          huu s s' h3, h4.set (hkk s s' h3) i⟩

/-! ## The insertion -/

/-- related shared states -/
structure CR (S : DSim T T') (c : CSt T) (c' : CSt T') : Prop where
  idx : IdxR S c.idx c'.idx
  held : c.held = c'.held
  pub : c.pub = c'.pub

/-- same parameters -/
structure CfgR (S : DSim T T') (cfg : Cfg T) (cfg' : Cfg T') : Prop where
  maxNb : cfg.maxNb = cfg'.maxNb
  efC : cfg.efC = cfg'.efC
  extend : cfg.extend = cfg'.extend
  keepPruned : cfg.keepPruned = cfg'.keepPruned
  maxLayer : cfg.maxLayer = cfg'.maxLayer
  eval : S.Eval cfg.eval cfg'.eval

theorem CfgR.flags {cfg : Cfg T} {cfg' : Cfg T'} (h : CfgR S cfg cfg') (e k : Bool) :
    CfgR S (cfg.withFlags e k) (cfg'.withFlags e k) :=
  ⟨h.maxNb, h.efC, rfl, rfl, h.maxLayer, h.eval⟩

theorem IdxR.setNb {s : Idx T} {s' : Idx T'} (h : IdxR S s s') (p : PointId) (l : Nat)
    {v : List (PWO T)} {v' : List (PWO T')} (hv : Rel2 S.PWO v v') :
    IdxR S (s.setNb p l v) (s'.setNb p l v') := by
  refine ⟨h.layers, ?_, h.count, h.entry⟩
  intro p' l'
  simp only [Idx.setNb]
  split
  · exact hv
  · exact h.nb p' l'

theorem Rel2.map_pid {l : List (Ref T)} {l' : List (Ref T')} (h : Rel2 S.Ref l l') :
    l.map (·.pid) = l'.map (·.pid) := h.map_eq (fun _ _ h => h.pid)

section
variable (R : PolRel S P P') (M : S.Mono) {cfg : Cfg T} {cfg' : Cfg T'} (K : CfgR S cfg cfg')

include M K in
theorem loopP_rel {q : List T} {q' : List T'} (hq : S.data q q') (ef l : Nat) : ∀ (n : Nat)
    {st : SL P} {st' : SL P'}, SLRel R st st' →
    ProgR (CR S) R.H (loopP P cfg q ef l n st) (loopP P' cfg' q' ef l n st') := by
  intro n
  induction n with
  | zero => intros; exact .fail _
  | succ n ih =>
    intro st st' hst
    simp only [loopP]
    have h1 := head_rel R M (φ := none) (φ' := none) .none ef hst
    generalize head P ef none st = a at h1
    generalize head P' ef none st' = b at h1
    cases h1 with
    | done h => exact .ret h
    | panic e => exact .fail e
    | @expand c c' st st' hc hst =>
      apply ProgR.read
      intro s s' hs
      have h2 := scanList_rel R M K.eval hq (φ := none) (φ' := none) .none ef (hs.idx.nb c.pid l) hst
      simp only [← hc.pid]
      generalize scanList P cfg.eval q ef none (s.idx.nb c.pid l) st = x at h2
      generalize scanList P' cfg'.eval q' ef none (s'.idx.nb c.pid l) st' = y at h2
      cases h2 with
      | error e => exact .fail e
      | ok h3 =>
        cases h3 with
        | stop h => exact .ret h
        | go h => exact ih h

include M K in
theorem searchLayerP_rel {q : List T} {q' : List T'} (hq : S.data q q') (fuel ef l : Nat)
    {ep : Ref T} {ep' : Ref T'} (he : S.Ref ep ep') :
    ProgR (CR S) R.H (searchLayerP P cfg fuel q ep ef l) (searchLayerP P' cfg' fuel q' ep' ef l) := by
  apply ProgR.read
  intro s s' hs
  have hl := hs.idx.layerOpt l
  generalize s.idx.layers[l]? = x at hl
  generalize s'.idx.layers[l]? = y at hl
  cases hl with
  | none => exact .fail _
  | some hl =>
    cases hl with
    | nil => exact .ret R.empty
    | cons _ _ => exact loopP_rel R M K hq ef l fuel (slInit_rel R M K.eval hq he)

include M in
theorem fromPositive_rel {l : List (PWO T)} {l' : List (PWO T')} (hl : Rel2 S.PWO l l') :
    ∀ {h : P.H} {h' : P'.H}, R.H h h' → ExcR R.H (fromPositive P l h) (fromPositive P' l' h') := by
  induction hl with
  | nil => intro h h' hh; exact .ok hh
  | @cons a b l l' h1 _ ih =>
    intro h h' hh
    simp only [fromPositive, M.le M.zero h1.dist]
    split
    · exact .error _
    · have h2 := R.pushC hh (x := ⟨a.pt, a.dist.neg⟩) (x' := ⟨b.pt, b.dist.neg⟩)
        ⟨h1.pt, M.neg h1.dist⟩
      generalize P.pushC h ⟨a.pt, a.dist.neg⟩ = x at h2
      generalize P'.pushC h' ⟨b.pt, b.dist.neg⟩ = y at h2
      cases h2 with
      | error e => exact .error e
      | ok h2 => exact ih h2

include M in
theorem transferAll_rel : ∀ (n : Nat) {h : P.H} {h' : P'.H} {acc : List (PWO T)}
    {acc' : List (PWO T')}, R.H h h' → Rel2 S.PWO acc acc' →
    ExcR (Rel2 S.PWO) (transferAll P n h acc) (transferAll P' n h' acc') := by
  intro n
  induction n with
  | zero => intro h h' acc acc' _ ha; exact .ok ha
  | succ n ih =>
    intro h h' acc acc' hh ha
    simp only [transferAll]
    have := R.pop hh
    generalize P.pop h = x at this
    generalize P'.pop h' = y at this
    cases this with
    | none => exact .ok ha
    | @some x y h1 =>
      obtain ⟨p, h2⟩ := x
      obtain ⟨p', h2'⟩ := y
      simp only [M.le M.zero (M.neg h1.1.dist)]
      split
      · exact .error _
      · exact ih h1.2 (ha.snoc ⟨h1.1.pt, M.neg h1.1.dist⟩)

theorem extend_fold_rel {cands : List (Ref T)} {cands' : List (Ref T')} (hc : Rel2 S.Ref cands cands')
    {l : List (PWO T)} {l' : List (PWO T')} (hl : Rel2 S.PWO l l') :
    ∀ {acc : List (Ref T)} {acc' : List (Ref T')}, Rel2 S.Ref acc acc' →
    Rel2 S.Ref
      (l.foldl (fun acc q => if q.pt.pid ∉ cands.map (·.pid) ∧ q.pt.pid ∉ acc.map (·.pid) then
        acc ++ [q.pt] else acc) acc)
      (l'.foldl (fun acc q => if q.pt.pid ∉ cands'.map (·.pid) ∧ q.pt.pid ∉ acc.map (·.pid) then
        acc ++ [q.pt] else acc) acc') := by
  induction hl with
  | nil => intro acc acc' ha; exact ha
  | @cons a b l l' h1 _ ih =>
    intro acc acc' ha
    simp only [List.foldl_cons]
    apply ih
    rw [h1.pt.pid, hc.map_pid, ha.map_pid]
    split
    · exact ha.snoc h1.pt
    · exact ha

theorem extendP_rel (l : Nat) {cands : List (Ref T)} {cands' : List (Ref T')}
    (hc : Rel2 S.Ref cands cands') {w : List (Ref T)} {w' : List (Ref T')} (hw : Rel2 S.Ref w w') :
    ∀ {acc : List (Ref T)} {acc' : List (Ref T')}, Rel2 S.Ref acc acc' →
    ProgR (CR S) (Rel2 S.Ref) (extendP l cands w acc) (extendP l cands' w' acc') := by
  induction hw with
  | nil => intro acc acc' ha; exact .ret ha
  | @cons a b w w' h1 _ ih =>
    intro acc acc' ha
    apply ProgR.read
    intro s s' hs
    apply ih
    rw [← h1.pid]
    exact extend_fold_rel hc (hs.idx.nb a.pid l) ha

include M K in
theorem selLoop_rel (asked : Nat) (kp : Bool) : ∀ (n : Nat) {h : P.H} {h' : P'.H}
    {acc : List (PWO T)} {acc' : List (PWO T')} {d : P.H} {d' : P'.H}, R.H h h' →
    Rel2 S.PWO acc acc' → R.H d d' →
    ExcR (fun x y => Rel2 S.PWO x.1 y.1 ∧ R.H x.2 y.2) (selLoop P cfg asked kp n h acc d)
      (selLoop P' cfg' asked kp n h' acc' d') := by
  intro n
  induction n with
  | zero => intro h h' acc acc' d d' _ ha hd; exact .ok ⟨ha, hd⟩
  | succ n ih =>
    intro h h' acc acc' d d' hh ha hd
    simp only [selLoop, ha.length]
    split
    · exact .ok ⟨ha, hd⟩
    · have := R.pop hh
      generalize P.pop h = x at this
      generalize P'.pop h' = y at this
      cases this with
      | none => exact .ok ⟨ha, hd⟩
      | @some x y h1 =>
        obtain ⟨e, h2⟩ := x
        obtain ⟨e', h2'⟩ := y
        have hany : acc.any (fun d => (cfg.eval e.pt.data d.pt.data).le e.dist.neg) =
            acc'.any (fun d => (cfg'.eval e'.pt.data d.pt.data).le e'.dist.neg) :=
          ha.any_eq (fun a b hab => M.le (K.eval _ _ _ _ h1.1.pt.data hab.pt.data) (M.neg h1.1.dist))
        simp only [M.le h1.1.dist M.zero, hany]
        split
        · exact .error _
        · split
          · exact ih h1.2 (ha.snoc ⟨h1.1.pt, M.neg h1.1.dist⟩) hd
          · split
            · have h3 := R.pushC hd (x := ⟨e.pt, e.dist⟩) (x' := ⟨e'.pt, e'.dist⟩) h1.1
              generalize P.pushC d ⟨e.pt, e.dist⟩ = x at h3
              generalize P'.pushC d' ⟨e'.pt, e'.dist⟩ = y at h3
              cases h3 with
              | error e => exact .error e
              | ok h3 => exact ih h1.2 ha h3
            · exact ih h1.2 ha hd

include M in
theorem refill_rel (asked : Nat) : ∀ (n : Nat) {h : P.H} {h' : P'.H} {acc : List (PWO T)}
    {acc' : List (PWO T')}, R.H h h' → Rel2 S.PWO acc acc' →
    ExcR (Rel2 S.PWO) (refill P asked n h acc) (refill P' asked n h' acc') := by
  intro n
  induction n with
  | zero => intro h h' acc acc' _ ha; exact .ok ha
  | succ n ih =>
    intro h h' acc acc' hh ha
    simp only [refill, ha.length]
    split
    · exact .ok ha
    · have := R.pop hh
      generalize P.pop h = x at this
      generalize P'.pop h' = y at this
      cases this with
      | none => exact .ok ha
      | @some x y h1 =>
        obtain ⟨e, h2⟩ := x
        obtain ⟨e', h2'⟩ := y
        simp only [M.le h1.1.dist M.zero]
        split
        · exact .error _
        · exact ih h1.2 (ha.snoc ⟨h1.1.pt, M.neg h1.1.dist⟩)

include R M K in
theorem selectFrom_rel (asked : Nat) (kp : Bool) {h : P.H} {h' : P'.H} (hh : R.H h h') :
    ExcR (Rel2 S.PWO) (selectFrom P cfg asked kp h) (selectFrom P' cfg' asked kp h') := by
  unfold selectFrom
  rw [R.len hh]
  have h1 := selLoop_rel R M K asked kp (P'.len h') hh .nil R.empty
  generalize selLoop P cfg asked kp (P'.len h') h [] P.empty = x at h1
  generalize selLoop P' cfg' asked kp (P'.len h') h' [] P'.empty = y at h1
  cases h1 with
  | error e => exact .error e
  | @ok a b h1 =>
    obtain ⟨acc, d⟩ := a
    obtain ⟨acc', d'⟩ := b
    simp only
    split
    · rw [R.len h1.2]
      exact refill_rel R M asked _ h1.2 h1.1
    · exact .ok h1.1

include R M K in
theorem selectP_rel {p : Ref T} {p' : Ref T'} (hp : S.Ref p p') {h : P.H} {h' : P'.H} (hh : R.H h h')
    (asked : Nat) (ext : Bool) (l : Nat) (kp : Bool) :
    ProgR (CR S) (Rel2 S.PWO) (selectP P cfg p h asked ext l kp) (selectP P' cfg' p' h' asked ext l kp) := by
  unfold selectP
  rw [R.len hh]
  split
  · exact .ofExcept (transferAll_rel R M _ hh .nil) (fun a b h => .ret h)
  · split
    · have hc : Rel2 S.Ref ((P.items h).map (·.pt)) ((P'.items h').map (·.pt)) :=
        (R.items hh).map (fun a b h => h.pt)
      simp only
      refine ProgR.bind (extendP_rel l hc (by rw [← hp.pid]; exact R.hash _ _ _ hc) .nil) ?_
      intro news news' hn
      refine ProgR.ofExcept (R.pushAll ?_ hh) (fun a b hab =>
        ProgR.ofExcept (selectFrom_rel R M K asked kp hab) (fun a b h => .ret h))
      rw [← hp.pid]
      exact (R.hash p.pid l 1 hn).map (fun a b h => ⟨h, M.neg (K.eval _ _ _ _ hp.data h.data)⟩)
    · exact .ofExcept (selectFrom_rel R M K asked kp hh) (fun a b h => .ret h)

include R M K in
theorem upperP_rel (fuel : Nat) {p : Ref T} {p' : Ref T'} (hp : S.Ref p p') : ∀ (ls : List Nat)
    {ep : Ref T} {ep' : Ref T'} {d d' : F32}, S.Ref ep ep' → S.dist d d' →
    ProgR (CR S) S.Ref (upperP P cfg fuel p ls ep d) (upperP P' cfg' fuel p' ls ep' d') := by
  intro ls
  induction ls with
  | nil => intro ep ep' d d' he _; exact .ret he
  | cons l ls ih =>
    intro ep ep' d d' he hd
    refine ProgR.bind (searchLayerP_rel R M K hp.data fuel 1 l he) ?_
    intro h h' hh
    rw [R.len hh]
    split
    · exact .fail _
    · have := R.pop hh
      generalize P.pop h = x at this
      generalize P'.pop h' = y at this
      cases this with
      | none => exact ih he hd
      | @some x y h1 =>
        obtain ⟨e, h2⟩ := x
        obtain ⟨e', h2'⟩ := y
        have hev := K.eval _ _ _ _ hp.data h1.1.pt.data
        have hnext : ProgR (CR S) S.Ref
            (if (cfg.eval p.data e.pt.data).lt d = true then
              upperP P cfg fuel p ls e.pt (cfg.eval p.data e.pt.data) else upperP P cfg fuel p ls ep d)
            (if (cfg'.eval p'.data e'.pt.data).lt d' = true then
              upperP P' cfg' fuel p' ls e'.pt (cfg'.eval p'.data e'.pt.data)
              else upperP P' cfg' fuel p' ls ep' d') := by
          rw [M.lt hev hd]
          split
          · exact ih h1.1.pt hev
          · exact ih he hd
        apply ProgR.read
        intro s s' hs
        rw [(hs.idx.nb p.pid l).length, ← hp.pid, Cfg.maxNbU8, Cfg.maxNbU8, K.maxNb]
        split
        · refine .act ?_ ?_ (fun _ _ _ => hnext)
          · intro s s' hs
            rw [hs.held]
          · intro s s' hs
            exact ⟨hs.idx.setNb _ _ ((hs.idx.nb p.pid l).snoc h1.1), hs.held, hs.pub⟩
        · exact hnext

include R M K in
theorem lowerP_rel (fuel : Nat) {p : Ref T} {p' : Ref T'} (hp : S.Ref p p') : ∀ (ls : List Nat)
    {ep : Ref T} {ep' : Ref T'}, S.Ref ep ep' →
    ProgR (CR S) (fun _ _ => True) (lowerP P cfg fuel p ls ep) (lowerP P' cfg' fuel p' ls ep') := by
  intro ls
  induction ls with
  | nil => intro ep ep' he; exact .ret trivial
  | cons l ls ih =>
    intro ep ep' he
    simp only [lowerP]
    rw [K.efC, K.maxNb, K.extend, K.keepPruned]
    refine ProgR.bind (searchLayerP_rel R M K hp.data fuel cfg'.efC l he) ?_
    intro h h' hh
    refine ProgR.ofExcept (fromPositive_rel R M (R.items hh) R.empty) ?_
    intro nh nh' hnh
    simp only [(R.items hnh).nil_iff]
    split
    · exact ih he
    · refine ProgR.bind (selectP_rel R M K hp hnh _ _ l _) ?_
      intro v v' hv
      refine ProgR.ofExcept (R.sortC hv) ?_
      intro n n' hn
      refine .act ?_ ?_ ?_
      · intro s s' hs
        rw [hs.held, hp.pid]
      · intro s s' hs
        rw [← hp.pid]
        exact ⟨hs.idx.setNb _ _ hn, hs.held, hs.pub⟩
      · intro _ _ _
        cases hn with
        | nil => exact ih he
        | cons h1 _ => exact ih h1.pt

include R M K in
theorem revList_rel {p : Ref T} {p' : Ref T'} (hp : S.Ref p p') {q : PWO T} {q' : PWO T'}
    (hq : S.PWO q q') {old : List (PWO T)} {old' : List (PWO T')} (ho : Rel2 S.PWO old old') :
    Rel2 S.PWO (revList P cfg p q old).1 (revList P' cfg' p' q' old').1 ∧
    (revList P cfg p q old).2 = (revList P' cfg' p' q' old').2 := by
  unfold revList
  have hany : old.any (fun o => o.pt.pid = p.pid) = old'.any (fun o => o.pt.pid = p'.pid) :=
    ho.any_eq (fun a b h => by rw [h.pt.pid, hp.pid])
  rw [hany]
  split
  · exact ⟨ho, rfl⟩
  · simp only
    have hpush : Rel2 S.PWO (old ++ [⟨p, q.dist⟩]) (old' ++ [⟨p', q'.dist⟩]) := ho.snoc ⟨hp, hq.dist⟩
    have h1 := R.sortC hpush
    rw [hpush.length, K.maxNb, hp.pid]
    generalize P.sortC (old ++ [⟨p, q.dist⟩]) = x at h1
    generalize P'.sortC (old' ++ [⟨p', q'.dist⟩]) = y at h1
    cases h1 with
    | error e => exact ⟨R.sort hpush, rfl⟩
    | @ok a b h1 =>
      refine ⟨?_, rfl⟩
      by_cases hc : (if 0 < p'.pid.layer then cfg'.maxNb else 2 * cfg'.maxNb) <
          (old' ++ [(⟨p', q'.dist⟩ : PWO T')]).length
      · simp only [if_pos hc]
        exact h1.dropLast
      · simp only [if_neg hc]
        exact h1

theorem release_rel (p : PointId) {c : CSt T} {c' : CSt T'} (h : CR S c c') :
    CR S (release p c) (release p c') :=
  ⟨h.idx, by simp only [release, h.held], h.pub⟩

include R M K in
theorem revInner_rel {p : Ref T} {p' : Ref T'} (hp : S.Ref p p') {k : Prog (CSt T) Unit}
    {k' : Prog (CSt T') Unit} (hk : ProgR (CR S) (fun _ _ => True) k k') {l : List (PWO T)}
    {l' : List (PWO T')} (hl : Rel2 S.PWO l l') :
    ProgR (CR S) (fun _ _ => True) (revInner P cfg p k l) (revInner P' cfg' p' k' l') := by
  induction hl with
  | nil =>
    refine .act (fun _ _ _ => rfl) ?_ (fun _ _ _ => hk)
    intro s s' hs
    rw [← hp.pid]
    exact release_rel _ hs
  | @cons a b l l' h1 _ ih =>
    simp only [revInner, ← hp.pid, ← h1.pt.pid]
    split
    · exact ih
    · refine .act ?_ ?_ ?_
      · intro s s' hs
        rw [hs.held]
      · intro s s' hs
        exact ⟨hs.idx.setNb _ _ (revList_rel R M K hp h1 (hs.idx.nb _ _)).1, hs.held,
          by rw [hs.pub]⟩
      · intro s s' hs
        rw [(revList_rel R M K hp h1 (hs.idx.nb a.pt.pid p.pid.layer)).2]
        cases (revList P' cfg' p' b (s'.idx.nb a.pt.pid p.pid.layer)).2 with
        | none => exact ih
        | some e =>
          exact .act (fun _ _ _ => rfl) (fun s s' hs => release_rel _ hs) (fun _ _ _ => .fail e)

include R M K in
theorem reverseP_rel {p : Ref T} {p' : Ref T'} (hp : S.Ref p p') {k : Prog (CSt T) Unit}
    {k' : Prog (CSt T') Unit} (hk : ProgR (CR S) (fun _ _ => True) k k') : ∀ ls : List Nat,
    ProgR (CR S) (fun _ _ => True) (reverseP P cfg p k ls) (reverseP P' cfg' p' k' ls) := by
  intro ls
  induction ls with
  | nil => exact hk
  | cons l ls ih =>
    refine .act (fun _ _ _ => rfl) ?_ ?_
    · intro s s' hs
      exact ⟨hs.idx, by simp only [hs.held, hp.pid], hs.pub⟩
    · intro s s' hs
      rw [← hp.pid]
      exact revInner_rel R M K hp ih (hs.idx.nb p.pid l)

theorem checkEntryP_rel {p : Ref T} {p' : Ref T'} (hp : S.Ref p p') :
    ProgR (CR S) (fun _ _ => True) (checkEntryP p) (checkEntryP p') := by
  refine .act (fun _ _ _ => rfl) ?_ (fun _ _ _ => .ret trivial)
  intro s s' hs
  refine ⟨⟨hs.idx.layers, hs.idx.nb, hs.idx.count, ?_⟩, hs.held, ?_⟩
  · simp only [checkEntry]
    have he := hs.idx.entry
    generalize s.idx.entry = x at he
    generalize s'.idx.entry = y at he
    cases he with
    | none => exact .some hp
    | some he =>
      simp only [he.pid, hp.pid]
      split
      · exact .some hp
      · exact .some he
  · simp only [checkEntry, hs.pub, hp.pid]

include R M K in
theorem linkP_rel (fuel : Nat) {p : Ref T} {p' : Ref T'} (hp : S.Ref p p') (rank : Nat) :
    ProgR (CR S) (fun _ _ => True) (linkP P cfg fuel p rank) (linkP P' cfg' fuel p' rank) := by
  apply ProgR.read
  intro s s' hs
  have he := hs.idx.entry
  generalize s.idx.entry = x at he
  generalize s'.idx.entry = y at he
  cases he with
  | none => exact checkEntryP_rel hp
  | @some ep ep' he =>
    simp only
    split
    · exact .ret trivial
    · rw [he.pid, hp.pid]
      refine ProgR.bind (upperP_rel R M K fuel hp _ he (K.eval _ _ _ _ hp.data he.data)) ?_
      intro a b hab
      refine ProgR.bind (lowerP_rel R M K fuel hp _ hab) ?_
      intro _ _ _
      exact reverseP_rel R M K hp (checkEntryP_rel hp) _

include R M K in
theorem countP_rel (fuel : Nat) {p : Ref T} {p' : Ref T'} (hp : S.Ref p p') :
    ProgR (CR S) (fun _ _ => True) (countP P cfg fuel p) (countP P' cfg' fuel p') := by
  refine .act (fun _ _ _ => rfl) ?_ ?_
  · intro s s' hs
    exact ⟨⟨hs.idx.layers, hs.idx.nb, by simp only [hs.idx.count], hs.idx.entry⟩, hs.held, hs.pub⟩
  · intro s s' hs
    rw [hs.idx.count]
    exact linkP_rel R M K fuel hp _

theorem layer_rel {s : Idx T} {s' : Idx T'} (hs : IdxR S s s') (l : Nat) :
    Rel2 S.Ref (s.layer l) (s'.layer l) := by
  unfold Idx.layer
  have h := hs.layerOpt l
  generalize s.layers[l]? = x at h
  generalize s'.layers[l]? = y at h
  cases h with
  | none => exact .nil
  | some h => exact h

theorem Rel2.modify {α β : Type} {R : α → β → Prop} {f : α → α} {g : β → β}
    (hf : ∀ a b, R a b → R (f a) (g b)) {l : List α} {l' : List β} (h : Rel2 R l l') (i : Nat) :
    Rel2 R (l.modify i f) (l'.modify i g) := by
  induction h generalizing i with
  | nil => cases i <;> exact .nil
  | cons h1 h2 ih =>
    cases i with
    | zero =>
      rw [List.modify_zero_cons, List.modify_zero_cons]
      exact .cons (hf _ _ h1) h2
    | succ i =>
      rw [List.modify_succ_cons, List.modify_succ_cons]
      exact .cons h1 (ih i)

include R M K in
theorem insertP_rel (fuel : Nat) {d : List T} {d' : List T'} (hd : S.data d d') {i i' : DataId}
    (hi : S.id i i') (level : Nat) :
    ProgR (CR S) (fun _ _ => True) (insertP P cfg fuel (d, i) level) (insertP P' cfg' fuel (d', i') level) := by
  refine .act (fun _ _ _ => rfl) ?_ ?_
  · intro s s' hs
    refine ⟨⟨?_, hs.idx.nb, hs.idx.count, hs.idx.entry⟩, hs.held, hs.pub⟩
    refine hs.idx.layers.modify ?_ level
    intro a b hab
    exact hab.snoc ⟨by simp only [hab.length], hi, hd⟩
  · intro s s' hs
    rw [hs.idx.layers.length]
    split
    · refine countP_rel R M K fuel ⟨?_, hi, hd⟩
      simp only [newRef, (layer_rel hs.idx level).length]
    · exact .fail _

end

/-- related insertions -/
structure JobR (S : DSim T T') (j : Job T) (j' : Job T') : Prop where
  data : S.data j.data j'.data
  id : S.id j.id j'.id
  level : j.level = j'.level

/-- related results of insertion threads -/
abbrev ThreadR (S : DSim T T') : Prog (CSt T) Unit → Prog (CSt T') Unit → Prop :=
  ProgR (CR S) (fun _ _ => True)

section
variable (R : PolRel S P P') (M : S.Mono) {cfg : Cfg T} {cfg' : Cfg T'} (K : CfgR S cfg cfg')

include R M K in
/-- every execution of related insertions is matched -/
theorem exec_rel {c0 : CSt T} {c0' : CSt T'} (h0 : CR S c0 c0') {jobs : List (Job T)}
    {jobs' : List (Job T')} (hj : Rel2 (JobR S) jobs jobs') {c : CSt T}
    {ts : List (Prog (CSt T) Unit)} (he : Exec P cfg c0 jobs c ts) :
    ∃ c' ts', Exec P' cfg' c0' jobs' c' ts' ∧ CR S c c' ∧ Rel2 (ThreadR S) ts ts' := by
  unfold Exec at he
  have hts : Rel2 (ThreadR S) (jobs.map (Job.prog P cfg (c0.idx.points.length + jobs.length + 2)))
      (jobs'.map (Job.prog P' cfg' (c0'.idx.points.length + jobs'.length + 2))) := by
    rw [h0.idx.points.length, hj.length]
    refine hj.map ?_
    intro a b hab
    unfold Job.prog
    rw [← hab.level]
    exact insertP_rel R M K _ hab.data hab.id _
  obtain ⟨⟨c', ts'⟩, h1, h2, h3⟩ := steps_rel (SR := CR S) (A := fun _ _ => True) he
    (a' := (c0', jobs'.map (Job.prog P' cfg' (c0'.idx.points.length + jobs'.length + 2)))) h0 hts
  exact ⟨c', ts', h1, h2, h3⟩

include R M K in
/-- related single insertions end alike -/
theorem insert_rel {c : CSt T} {c' : CSt T'} (h : CR S c c') {d : List T} {d' : List T'}
    (hd : S.data d d') {i i' : DataId} (hi : S.id i i') (level : Nat) :
    OutR (CR S) (fun _ _ => True) (insert P cfg c (d, i) level) (insert P' cfg' c' (d', i') level) := by
  unfold insert
  rw [h.idx.points.length]
  exact run_rel (insertP_rel R M K _ hd hi level) h

theorem new_rel (S : DSim T T') (n : Nat) : CR S (CSt.new n) (CSt.new n) := by
  refine ⟨⟨?_, fun _ _ => .nil, rfl, .none⟩, rfl, rfl⟩
  simp only [CSt.new, Idx.new]
  induction n with
  | zero => exact .nil
  | succ n ih => exact .cons .nil ih

include R in
theorem resort_rel {c : CSt T} {c' : CSt T'} (h : CR S c c') :
    CR S { c with idx := c.idx.resort P } { c' with idx := c'.idx.resort P' } :=
  ⟨⟨h.idx.layers, fun p l => R.sort (h.idx.nb p l), h.idx.count, h.idx.entry⟩, h.held, h.pub⟩

include R M K in
theorem seqReach_rel {jobs : List (Job T)} {c : CSt T} (h : SeqReach P cfg jobs c) :
    ∀ {jobs' : List (Job T')}, Rel2 (JobR S) jobs jobs' →
    ∃ c', SeqReach P' cfg' jobs' c' ∧ CR S c c' := by
  induction h with
  | new =>
    intro jobs' hj
    cases hj
    rw [K.maxLayer]
    exact ⟨_, .new, new_rel S _⟩
  | @insert jobs c0 ext kp j c _ hl hi ih =>
    intro jobs' hj
    obtain ⟨l1, j', rfl, h1, h2⟩ : ∃ l1 j', jobs' = l1 ++ [j'] ∧ Rel2 (JobR S) jobs l1 ∧ JobR S j j' := by
      have h3 := hj.reverse
      rw [List.reverse_append, List.reverse_singleton, List.singleton_append] at h3
      generalize hr : jobs'.reverse = r at h3
      cases h3 with
      | @cons _ b _ l' hb hl' =>
        refine ⟨l'.reverse, b, ?_, ?_, hb⟩
        · rw [← List.reverse_reverse jobs', hr, List.reverse_cons]
        · have := hl'.reverse
          rwa [List.reverse_reverse] at this
    obtain ⟨c0', hr, hc⟩ := ih h1
    have h3 := insert_rel R M (K.flags ext kp) hc h2.data h2.id j.level
    rw [hi, h2.level] at h3
    generalize hx : insert P' (cfg'.withFlags ext kp) c0' (j'.data, j'.id) j'.level = x at h3
    cases h3 with
    | @ok _ _ _ c' _ h4 =>
      exact ⟨c', .insert ext kp j' hr (by rw [← h2.level, ← K.maxLayer]; exact hl) hx, h4⟩
  | reload _ ih =>
    intro jobs' hj
    obtain ⟨c0', hr, hc⟩ := ih hj
    exact ⟨_, .reload hr, resort_rel R hc⟩

end

end Verif
