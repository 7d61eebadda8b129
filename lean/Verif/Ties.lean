import Verif.Param
import Verif.SelectSpec

set_option autoImplicit false

/-!
# Two choices of containers

Two containers that obey the laws of `Policy.Lawful` give the same results as long as no two elements of
different points have the same distance: then a heap has one maximum and a list one sorted order.
-/

namespace Verif
variable {T : Type}

/-- no NaN, and elements with the same distance are equal -/
def OneKey (W : PWO T → Prop) : Prop :=
  (∀ x, W x → x.dist.isNaN = false) ∧ ∀ x y, W x → W y → x.dist.key = y.dist.key → x = y

/-- sorted lists with the same elements -/
theorem sorted_unique {W : PWO T → Prop} (K : OneKey W) {l l' : List (PWO T)} (hp : l.Perm l')
    (hW : ∀ x ∈ l, W x) (h : l.Pairwise (fun a b => a.dist.key ≤ b.dist.key))
    (h' : l'.Pairwise (fun a b => a.dist.key ≤ b.dist.key)) : l = l' := by
  induction l generalizing l' with
  | nil => exact (List.perm_nil.1 hp.symm).symm
  | cons a l ih =>
    cases l' with
    | nil => exact absurd hp.symm (by simp)
    | cons b l' =>
      rw [List.pairwise_cons] at h h'
      have hb : b ∈ a :: l := hp.mem_iff.2 (by simp)
      have ha : a ∈ b :: l' := hp.mem_iff.1 (by simp)
      have hle : a.dist.key ≤ b.dist.key := by
        rcases List.mem_cons.1 hb with rfl | hb
        · exact Int.le_refl _
        · exact h.1 _ hb
      have hge : b.dist.key ≤ a.dist.key := by
        rcases List.mem_cons.1 ha with rfl | ha
        · exact Int.le_refl _
        · exact h'.1 _ ha
      have : a = b := K.2 a b (hW _ (by simp)) (hW _ hb) (Int.le_antisymm hle hge)
      subst this
      rw [ih ((List.perm_cons a).1 hp) (fun x hx => hW x (List.mem_cons_of_mem _ hx)) h.2 h'.2]

variable {P P' : Policy T}

/-- heaps with the same elements, all in `W` -/
structure HR (P P' : Policy T) (W : PWO T → Prop) (h : P.H) (h' : P'.H) : Prop where
  perm : (P.items h).Perm (P'.items h')
  mem : ∀ x ∈ P.items h, W x
  built : P.Built h
  built' : P'.Built h'

section
variable (L : P.Lawful) (L' : P'.Lawful) {W : PWO T → Prop} (K : OneKey W)

include L L' in
theorem HR.empty : HR P P' W P.empty P'.empty :=
  ⟨by rw [L.items_empty, L'.items_empty], by rw [L.items_empty]; simp, L.built_empty, L'.built_empty⟩

include L L' K in
theorem HR.push {h : P.H} {h' : P'.H} (hh : HR P P' W h h') {x : PWO T} (hx : W x) :
    HR P P' W (P.push h x) (P'.push h' x) := by
  refine ⟨(L.items_push h x).trans ((hh.perm.cons x).trans (L'.items_push h' x).symm), ?_,
    .push hh.built (K.1 x hx), .push hh.built' (K.1 x hx)⟩
  intro y hy
  rcases L.mem_push.1 hy with rfl | hy
  · exact hx
  · exact hh.mem y hy

theorem HR.len {h : P.H} {h' : P'.H} (hh : HR P P' W h h') : P.len h = P'.len h' := hh.perm.length_eq

theorem HR.any {h : P.H} {h' : P'.H} (hh : HR P P' W h h') (f : PWO T → Bool) :
    (P.items h).any f = (P'.items h').any f := by
  rw [Bool.eq_iff_iff, List.any_eq_true, List.any_eq_true]
  constructor
  · rintro ⟨x, h1, h2⟩; exact ⟨x, hh.perm.mem_iff.1 h1, h2⟩
  · rintro ⟨x, h1, h2⟩; exact ⟨x, hh.perm.mem_iff.2 h1, h2⟩

theorem HR.nil {h : P.H} {h' : P'.H} (hh : HR P P' W h h') : P.items h = [] ↔ P'.items h' = [] := by
  rw [← List.length_eq_zero_iff, ← List.length_eq_zero_iff, hh.perm.length_eq]

include L L' K in
theorem HR.pop {h : P.H} {h' : P'.H} (hh : HR P P' W h h') :
    OptR (fun a b => a.1 = b.1 ∧ HR P P' W a.2 b.2 ∧ W a.1) (P.pop h) (P'.pop h') := by
  cases hp : P.pop h with
  | none =>
    rw [(L'.pop_none h').2 (hh.nil.1 ((L.pop_none h).1 hp))]
    exact .none
  | some z =>
    obtain ⟨x, h1⟩ := z
    cases hp' : P'.pop h' with
    | none =>
      have := (L.pop_none h).2 (hh.nil.2 ((L'.pop_none h').1 hp'))
      rw [hp] at this
      cases this
    | some z' =>
      obtain ⟨x', h1'⟩ := z'
      have m1 : x ∈ P.items h := (L.mem_pop hp).2 (Or.inl rfl)
      have m2 : x' ∈ P.items h := hh.perm.mem_iff.2 ((L'.mem_pop hp').2 (Or.inl rfl))
      have k1 := L.pop_max h hh.built x h1 hp x' m2
      have k2 := L'.pop_max h' hh.built' x' h1' hp' x (hh.perm.mem_iff.1 m1)
      have : x = x' := K.2 x x' (hh.mem _ m1) (hh.mem _ m2) (Int.le_antisymm k2 k1)
      subst this
      have p1 := L.pop_perm h x h1 hp
      have p2 := L'.pop_perm h' x h1' hp'
      refine .some ⟨rfl, ⟨?_, ?_, .pop hh.built hp, .pop hh.built' hp'⟩, hh.mem _ m1⟩
      · exact (List.perm_cons x).1 (p1.symm.trans (hh.perm.trans p2))
      · exact fun y hy => hh.mem y ((L.mem_pop hp).2 (Or.inr hy))

include L L' K in
theorem HR.peek {h : P.H} {h' : P'.H} (hh : HR P P' W h h') : P.peek h = P'.peek h' := by
  have := hh.pop L L' K
  unfold Policy.peek
  generalize P.pop h = x at this
  generalize P'.pop h' = y at this
  cases this with
  | none => rfl
  | some h1 => simp [h1.1]

include L L' K in
theorem HR.pushC {h : P.H} {h' : P'.H} (hh : HR P P' W h h') {x : PWO T} (hx : W x) :
    ExcR (HR P P' W) (P.pushC h x) (P'.pushC h' x) := by
  rw [L.pushC_built (K.1 x hx) hh.built, L'.pushC_built (K.1 x hx) hh.built']
  exact .ok (hh.push L L' K hx)

include L L' K in
theorem HR.intoSortedC {h : P.H} {h' : P'.H} (hh : HR P P' W h h') :
    P.intoSortedC h = P'.intoSortedC h' := by
  rw [L.intoSortedC_built hh.built, L'.intoSortedC_built hh.built']
  congr 1
  refine sorted_unique K ((L.intoSorted_perm h).trans (hh.perm.trans (L'.intoSorted_perm h').symm)) ?_
    (L.intoSorted_sorted h hh.built) (L'.intoSorted_sorted h' hh.built')
  exact fun x hx => hh.mem x ((L.intoSorted_perm h).mem_iff.1 hx)

include L L' K in
theorem sortC_unique {l : List (PWO T)} (hl : ∀ x ∈ l, W x) : P.sortC l = P'.sortC l := by
  have hN : NoNaN l := fun x hx => K.1 x (hl x hx)
  rw [L.sortC_legal hN, L'.sortC_legal hN]
  congr 1
  exact sorted_unique K ((L.sort_perm l).trans (L'.sort_perm l).symm)
    (fun x hx => hl x ((L.sort_perm l).mem_iff.1 hx)) (L.sort_sorted l hN) (L'.sort_sorted l hN)

end

/-! ## Searches -/

/-- elements at their distance from `q` -/
def AtDist (eval : List T → List T → F32) (U : Ref T → Prop) (q : List T) (x : PWO T) : Prop :=
  U x.pt ∧ x.dist = eval q x.pt.data

/-- elements at the opposite of their distance from `q` -/
def AtNeg (eval : List T → List T → F32) (U : Ref T → Prop) (q : List T) (x : PWO T) : Prop :=
  U x.pt ∧ x.dist = (eval q x.pt.data).neg

/-- no NaN and no two points at the same distance from `q` -/
def NoTiesFrom (eval : List T → List T → F32) (U : Ref T → Prop) (q : List T) : Prop :=
  (∀ a, U a → (eval q a.data).isNaN = false) ∧ ∀ a b, U a → U b → (eval q a.data).key = (eval q b.data).key → a = b

theorem NoTiesFrom.pos {eval : List T → List T → F32} {U : Ref T → Prop} {q : List T}
    (h : NoTiesFrom eval U q) : OneKey (AtDist eval U q) := by
  refine ⟨fun x hx => hx.2 ▸ h.1 _ hx.1, ?_⟩
  rintro ⟨a, x⟩ ⟨b, y⟩ ⟨ha, hx⟩ ⟨hb, hy⟩ hk
  simp only at ha hx hb hy hk
  subst hx hy
  cases h.2 a b ha hb hk
  rfl

theorem NoTiesFrom.neg {eval : List T → List T → F32} {U : Ref T → Prop} {q : List T}
    (h : NoTiesFrom eval U q) : OneKey (AtNeg eval U q) := by
  refine ⟨fun x hx => by rw [hx.2, F32.isNaN_neg]; exact h.1 _ hx.1, ?_⟩
  rintro ⟨a, x⟩ ⟨b, y⟩ ⟨ha, hx⟩ ⟨hb, hy⟩ hk
  simp only at ha hx hb hy hk
  subst hx hy
  simp only [F32.key_neg] at hk
  cases h.2 a b ha hb (by omega)
  rfl

section
variable (L : P.Lawful) (L' : P'.Lawful) {eval : List T → List T → F32} {U : Ref T → Prop} {q : List T}
  (N : NoTiesFrom eval U q)

/-- local variables of two searches -/
structure SLR (P P' : Policy T) (eval : List T → List T → F32) (U : Ref T → Prop) (q : List T)
    (st : SL P) (st' : SL P') : Prop where
  cand : HR P P' (AtNeg eval U q) st.cand st'.cand
  ret : HR P P' (AtDist eval U q) st.ret st'.ret
  vis : st.vis = st'.vis

/-- outcome of a scan -/
inductive ScanT (P P' : Policy T) (eval : List T → List T → F32) (U : Ref T → Prop) (q : List T) :
    Scan P → Scan P' → Prop
  | go {st : SL P} {st' : SL P'} : SLR P P' eval U q st st' → ScanT P P' eval U q (.go st) (.go st')
  | stop {r : P.H} {r' : P'.H} : HR P P' (AtDist eval U q) r r' → ScanT P P' eval U q (.stop r) (.stop r')

/-- outcome of the head of the loop -/
inductive HeadT (P P' : Policy T) (eval : List T → List T → F32) (U : Ref T → Prop) (q : List T) :
    Head P → Head P' → Prop
  | done {r : P.H} {r' : P'.H} : HR P P' (AtDist eval U q) r r' → HeadT P P' eval U q (.done r) (.done r')
  | panic (e : Panic) : HeadT P P' eval U q (.panic e) (.panic e)
  | expand {c : Ref T} {st : SL P} {st' : SL P'} : U c → SLR P P' eval U q st st' →
      HeadT P P' eval U q (.expand c st) (.expand c st')

include L L' N in
theorem trim_ties (ef : Nat) {h : P.H} {h' : P'.H} (hh : HR P P' (AtDist eval U q) h h') :
    HR P P' (AtDist eval U q) (trim P ef h) (trim P' ef h') := by
  unfold trim
  rw [hh.len]
  split
  · have := hh.pop L L' N.pos
    generalize P.pop h = x at this
    generalize P'.pop h' = y at this
    cases this with
    | none => exact hh
    | some h1 => exact h1.2.1
  · exact hh

include L L' N in
theorem pushRet_ties (φ : Option (DataId → Bool)) {h : P.H} {h' : P'.H}
    (hh : HR P P' (AtDist eval U q) h h') {x : PWO T} (hx : AtDist eval U q x) :
    ExcR (HR P P' (AtDist eval U q)) (pushRet P φ h x) (pushRet P' φ h' x) := by
  cases φ with
  | none => exact hh.pushC L L' N.pos hx
  | some φ =>
    unfold pushRet
    simp only
    split
    · rw [hh.len, hh.peek L L' N.pos]
      split
      · split
        · split
          · exact hh.pushC L L' N.pos hx
          · exact (HR.empty L L').pushC L L' N.pos hx
        · exact hh.pushC L L' N.pos hx
      · exact hh.pushC L L' N.pos hx
    · exact .ok hh

include L L' N in
theorem scanE_ties (φ : Option (DataId → Bool)) (ef : Nat) {e : Ref T} (he : U e) {st : SL P}
    {st' : SL P'} (hst : SLR P P' eval U q st st') :
    ExcR (ScanT P P' eval U q) (scanE P eval q ef φ e st) (scanE P' eval q ef φ e st') := by
  unfold scanE
  rw [hst.vis]
  split
  · exact .ok (.go hst)
  · rw [hst.ret.peek L L' N.pos]
    cases P'.peek st'.ret with
    | none => exact .ok (.stop hst.ret)
    | some f =>
      simp only
      rw [hst.ret.len]
      split
      · have h1 := hst.cand.pushC L L' N.neg (x := ⟨e, (eval q e.data).neg⟩) ⟨he, rfl⟩
        generalize P.pushC st.cand ⟨e, (eval q e.data).neg⟩ = x at h1
        generalize P'.pushC st'.cand ⟨e, (eval q e.data).neg⟩ = y at h1
        cases h1 with
        | error e => exact .error e
        | ok h1 =>
          simp only
          have h2 := pushRet_ties L L' N φ hst.ret (x := ⟨e, eval q e.data⟩) ⟨he, rfl⟩
          generalize pushRet P φ st.ret ⟨e, eval q e.data⟩ = x at h2
          generalize pushRet P' φ st'.ret ⟨e, eval q e.data⟩ = y at h2
          cases h2 with
          | error e => exact .error e
          | ok h2 => exact .ok (.go ⟨h1, trim_ties L L' N ef h2, rfl⟩)
      · exact .ok (.go ⟨hst.cand, hst.ret, rfl⟩)

include L L' N in
theorem scanList_ties (φ : Option (DataId → Bool)) (ef : Nat) : ∀ (es : List (PWO T)),
    (∀ e ∈ es, U e.pt) → ∀ {st : SL P} {st' : SL P'}, SLR P P' eval U q st st' →
    ExcR (ScanT P P' eval U q) (scanList P eval q ef φ es st) (scanList P' eval q ef φ es st') := by
  intro es
  induction es with
  | nil => intro _ st st' h; exact .ok (.go h)
  | cons e es ih =>
    intro hU st st' h
    simp only [scanList]
    have h1 := scanE_ties L L' N φ ef (hU e (by simp)) h
    generalize scanE P eval q ef φ e.pt st = x at h1
    generalize scanE P' eval q ef φ e.pt st' = y at h1
    cases h1 with
    | error e => exact .error e
    | ok h2 =>
      cases h2 with
      | stop h => exact .ok (.stop h)
      | go h => exact ih (fun e he => hU e (List.mem_cons_of_mem _ he)) h

include L L' N in
theorem head_ties (φ : Option (DataId → Bool)) (ef : Nat) {st : SL P} {st' : SL P'}
    (hst : SLR P P' eval U q st st') : HeadT P P' eval U q (head P ef φ st) (head P' ef φ st') := by
  unfold head
  have := hst.cand.pop L L' N.neg
  generalize P.pop st.cand = x at this
  generalize P'.pop st'.cand = y at this
  cases this with
  | none => exact .done hst.ret
  | @some a b h1 =>
    obtain ⟨c, cand⟩ := a
    obtain ⟨c', cand'⟩ := b
    obtain ⟨h1, h2, h3⟩ := h1
    simp only at h1 h2 h3
    subst h1
    simp only
    rw [hst.ret.peek L L' N.pos]
    cases P'.peek st'.ret with
    | none => exact .panic _
    | some f =>
      simp only
      rw [hst.ret.len]
      split
      · exact .panic _
      · split
        · exact .panic _
        · split
          · exact .done hst.ret
          · exact .expand h3.1 ⟨h2, hst.ret, hst.vis⟩

include L L' N in
theorem slInit_ties {ep : Ref T} (he : U ep) :
    SLR P P' eval U q (slInit P eval q ep) (slInit P' eval q ep) :=
  ⟨(HR.empty L L').push L L' N.neg ⟨he, rfl⟩, (HR.empty L L').push L L' N.pos ⟨he, rfl⟩, rfl⟩

include L L' N in
theorem slLoop_ties (φ : Option (DataId → Bool)) (ef : Nat) {nbf : PointId → List (PWO T)}
    (hn : ∀ o, U o → ∀ e ∈ nbf o.pid, U e.pt) : ∀ (n : Nat) {st : SL P} {st' : SL P'},
    SLR P P' eval U q st st' →
    ExcR (HR P P' (AtDist eval U q)) (slLoop P eval q ef φ nbf n st) (slLoop P' eval q ef φ nbf n st') := by
  intro n
  induction n with
  | zero => intros; exact .error _
  | succ n ih =>
    intro st st' hst
    simp only [slLoop]
    have h1 := head_ties L L' N φ ef hst
    generalize head P ef φ st = a at h1
    generalize head P' ef φ st' = b at h1
    cases h1 with
    | done h => exact .ok h
    | panic e => exact .error e
    | @expand c st st' hc hst =>
      have h2 := scanList_ties L L' N φ ef (nbf c.pid) (hn c hc) hst
      simp only
      generalize scanList P eval q ef φ (nbf c.pid) st = x at h2
      generalize scanList P' eval q ef φ (nbf c.pid) st' = y at h2
      cases h2 with
      | error e => exact .error e
      | ok h3 =>
        cases h3 with
        | stop h => exact .ok h
        | go h => exact ih h

end

theorem scanPivot_mem {eval : List T → List T → F32} {U : Ref T → Prop} {q : List T} :
    ∀ (es : List (PWO T)) (x : Ref T × F32), (∀ e ∈ es, U e.pt) → U x.1 → U (scanPivot eval q es x).1 := by
  intro es
  induction es with
  | nil => intro x _ h; exact h
  | cons e es ih =>
    intro x hU hx
    simp only [scanPivot]
    apply ih _ (fun e he => hU e (List.mem_cons_of_mem _ he))
    split
    · exact hU e (by simp)
    · exact hx

theorem descend_mem {eval : List T → List T → F32} {U : Ref T → Prop} {q : List T} {s : Idx T}
    (hn : ∀ p l, ∀ e ∈ s.nb p l, U e.pt) : ∀ (l : Nat) (x : Ref T × F32), U x.1 →
    U (descend eval q s l x).1 := by
  intro l
  induction l with
  | zero => intro x h; exact h
  | succ l ih =>
    intro x h
    simp only [descend]
    exact ih _ (scanPivot_mem _ _ (hn _ _) h)

/-- a search without ties does not depend on the containers -/
theorem searchFilter_ties (L : P.Lawful) (L' : P'.Lawful) {cfg : Cfg T} {s : Idx T} {U : Ref T → Prop}
    {q : List T} (N : NoTiesFrom cfg.eval U q) (hn : ∀ p l, ∀ e ∈ s.nb p l, U e.pt)
    (he : ∀ e, s.entry = some e → U e) (knbn ef : Nat) (φ : Option (DataId → Bool)) :
    searchFilter P cfg s q knbn ef φ = searchFilter P' cfg s q knbn ef φ := by
  unfold searchFilter
  cases hep : s.entry with
  | none => rfl
  | some ep =>
    simp only
    have hpv := descend_mem (eval := cfg.eval) (q := q) hn ep.pid.layer (ep, cfg.eval q ep.data) (he ep hep)
    generalize (descend cfg.eval q s ep.pid.layer (ep, cfg.eval q ep.data)).1 = pv at hpv
    cases lowestLayer s with
    | none => rfl
    | some l =>
      simp only
      have h1 : ExcR (HR P P' (AtDist cfg.eval U q)) (searchLayer P cfg.eval q (max ef knbn) φ s pv l)
          (searchLayer P' cfg.eval q (max ef knbn) φ s pv l) := by
        unfold searchLayer
        cases s.layers[l]? with
        | none => exact .error _
        | some v =>
          cases v with
          | nil => exact .ok (HR.empty L L')
          | cons _ _ =>
            exact slLoop_ties L L' N φ _ (nbf := fun p => s.nb p l) (fun o _ => hn o.pid l) _
              (slInit_ties L L' N hpv)
      generalize searchLayer P cfg.eval q (max ef knbn) φ s pv l = x at h1
      generalize searchLayer P' cfg.eval q (max ef knbn) φ s pv l = y at h1
      cases h1 with
      | error e => rfl
      | @ok h h' h1 =>
        simp only
        rw [h1.intoSortedC L L' N.pos]

/-! ## Insertions -/

/-- outcomes of two runs: same state, related values -/
inductive OutT {σ α β : Type} (A : α → β → σ → Prop) : Outcome σ α → Outcome σ β → Prop
  | ok {a : α} {b : β} {s : σ} : A a b s → OutT A (.ok a s) (.ok b s)
  | panic (e : Panic) (s : σ) : OutT A (.panic e s) (.panic e s)
  | blocked (s : σ) : OutT A (.blocked s) (.blocked s)

theorem OutT.bind {σ α β γ δ : Type} {A : α → β → σ → Prop} {B : γ → δ → σ → Prop} {t : Prog σ α}
    {t' : Prog σ β} {f : α → Prog σ γ} {f' : β → Prog σ δ} {c : σ} (h : OutT A (t.run c) (t'.run c))
    (hf : ∀ a b s, A a b s → OutT B ((f a).run s) ((f' b).run s)) :
    OutT B ((t.bind f).run c) ((t'.bind f').run c) := by
  rw [run_bind, run_bind]
  generalize t.run c = x at h
  generalize t'.run c = y at h
  cases h with
  | ok h => exact hf _ _ _ h
  | panic e s => exact .panic e s
  | blocked s => exact .blocked s

theorem OutT.ofExcept {σ α β γ δ : Type} {A : α → β → Prop} {B : γ → δ → σ → Prop} {x : Except Panic α}
    {x' : Except Panic β} (h : ExcR A x x') {f : α → Prog σ γ} {f' : β → Prog σ δ} {c : σ}
    (hf : ∀ a b, A a b → OutT B ((f a).run c) ((f' b).run c)) :
    OutT B ((Prog.ofExcept x f).run c) ((Prog.ofExcept x' f').run c) := by
  cases h with
  | error e => exact .panic e c
  | ok h => exact hf _ _ h

theorem OutT.read {σ γ δ : Type} {B : γ → δ → σ → Prop} {k : σ → Prog σ γ} {k' : σ → Prog σ δ} {c : σ}
    (h : OutT B ((k c).run c) ((k' c).run c)) : OutT B ((Prog.read k).run c) ((Prog.read k').run c) := by
  simpa [Prog.read, Prog.run] using h

theorem OutT.act {σ γ δ : Type} {B : γ → δ → σ → Prop} {g : σ → Bool} {u : σ → σ} {k : σ → Prog σ γ}
    {u' : σ → σ} {k' : σ → Prog σ δ} {c : σ} (hu : u c = u' c)
    (h : OutT B ((k c).run (u c)) ((k' c).run (u c))) :
    OutT B ((Prog.act g u k).run c) ((Prog.act g u' k').run c) := by
  simp only [Prog.run, ← hu]
  split
  · exact h
  · exact .blocked c

/-- No NaN and no ties among the points of `U`: around each of them, equal distances belong to the same
point (and are the same float). -/
def NoTies (eval : List T → List T → F32) (U : Ref T → Prop) : Prop :=
  (∀ a b, U a → U b → (eval a.data b.data).isNaN = false) ∧ ∀ o a b, U o → U a → U b → ∀ u v, (u = eval o.data a.data ∨ u = eval a.data o.data) →
    (v = eval o.data b.data ∨ v = eval b.data o.data) → u.key = v.key → a = b ∧ u = v

theorem NoTies.from {eval : List T → List T → F32} {U : Ref T → Prop} (h : NoTies eval U) {o : Ref T}
    (ho : U o) : NoTiesFrom eval U o.data :=
  ⟨fun a ha => h.1 o a ho ha, fun a b ha hb hk => (h.2 o a b ho ha hb _ _ (Or.inl rfl) (Or.inl rfl) hk).1⟩

/-- elements that may be in a list of `o` -/
def AtLink (eval : List T → List T → F32) (U : Ref T → Prop) (o : Ref T) (x : PWO T) : Prop :=
  U x.pt ∧ (x.dist = eval o.data x.pt.data ∨ x.dist = eval x.pt.data o.data)

theorem NoTies.link {eval : List T → List T → F32} {U : Ref T → Prop} (h : NoTies eval U) {o : Ref T}
    (ho : U o) : OneKey (AtLink eval U o) := by
  constructor
  · rintro x ⟨hx, hd | hd⟩
    · rw [hd]; exact h.1 _ _ ho hx
    · rw [hd]; exact h.1 _ _ hx ho
  rintro ⟨a, x⟩ ⟨b, y⟩ ⟨ha, hx⟩ ⟨hb, hy⟩ hk
  obtain ⟨h1, h2⟩ := h.2 o a b ho ha hb x y hx hy hk
  cases h1
  cases h2
  rfl

/-- Points of a state: the lists of the points of `U` hold points of `U`. -/
def LinksIn (eval : List T → List T → F32) (U : Ref T → Prop) (c : CSt T) : Prop :=
  ∀ o, U o → ∀ l, ∀ e ∈ c.idx.nb o.pid l, AtLink eval U o e

section
variable (L : P.Lawful) (L' : P'.Lawful) {cfg : Cfg T} {U : Ref T → Prop} (N : NoTies cfg.eval U)
  (pinj : ∀ a b, U a → U b → a.pid = b.pid → a = b)
  (leg : ∀ a b, U a → U b → (cfg.eval a.data b.data).Legal)

include L L' N in
theorem loopP_ties {p : Ref T} (hp : U p) (ef l : Nat) {c : CSt T} (hc : LinksIn cfg.eval U c) :
    ∀ (n : Nat) {st : SL P} {st' : SL P'}, SLR P P' cfg.eval U p.data st st' →
    OutT (fun h h' s => s = c ∧ HR P P' (AtDist cfg.eval U p.data) h h')
      ((loopP P cfg p.data ef l n st).run c) ((loopP P' cfg p.data ef l n st').run c) := by
  intro n
  induction n with
  | zero => intros; exact .panic _ _
  | succ n ih =>
    intro st st' hst
    simp only [loopP]
    have h1 := head_ties L L' (N.from hp) none ef hst
    generalize head P ef none st = a at h1
    generalize head P' ef none st' = b at h1
    cases h1 with
    | done h => exact .ok ⟨rfl, h⟩
    | panic e => exact .panic e _
    | @expand v st st' hv hst =>
      apply OutT.read
      have h2 := scanList_ties L L' (N.from hp) none ef (c.idx.nb v.pid l) (fun e he => (hc v hv l e he).1)
        hst
      generalize scanList P cfg.eval p.data ef none (c.idx.nb v.pid l) st = x at h2
      generalize scanList P' cfg.eval p.data ef none (c.idx.nb v.pid l) st' = y at h2
      cases h2 with
      | error e => exact .panic e _
      | ok h3 =>
        cases h3 with
        | stop h => exact .ok ⟨rfl, h⟩
        | go h => exact ih h

include L L' N in
theorem searchLayerP_ties {p : Ref T} (hp : U p) (fuel ef l : Nat) {ep : Ref T} (he : U ep) {c : CSt T}
    (hc : LinksIn cfg.eval U c) :
    OutT (fun h h' s => s = c ∧ HR P P' (AtDist cfg.eval U p.data) h h')
      ((searchLayerP P cfg fuel p.data ep ef l).run c)
      ((searchLayerP P' cfg fuel p.data ep ef l).run c) := by
  unfold searchLayerP
  apply OutT.read
  cases c.idx.layers[l]? with
  | none => exact .panic _ _
  | some v =>
    cases v with
    | nil => exact .ok ⟨rfl, HR.empty L L'⟩
    | cons _ _ => exact loopP_ties L L' N hp ef l hc fuel (slInit_ties L L' (N.from hp) he)

include L L' leg in
theorem fromPositive_ties {p : Ref T} (hp : U p) {h : P.H} {h' : P'.H}
    (hh : HR P P' (AtDist cfg.eval U p.data) h h') :
    ExcR (HR P P' (AtNeg cfg.eval U p.data)) (fromPositive P (P.items h) P.empty)
      (fromPositive P' (P'.items h') P'.empty) := by
  have hl : ∀ x ∈ P.items h, x.dist.Legal := by
    intro x hx
    obtain ⟨h1, h2⟩ := hh.mem x hx
    rw [h2]
    exact leg _ _ hp h1
  obtain ⟨a, e1, p1, b1⟩ := fromPositive_ok L (P.items h) P.empty hl L.built_empty
  obtain ⟨b, e2, p2, b2⟩ := fromPositive_ok L' (P'.items h') P'.empty
    (fun x hx => hl x (hh.perm.mem_iff.2 hx)) L'.built_empty
  rw [e1, e2]
  rw [L.items_empty, List.append_nil] at p1
  rw [L'.items_empty, List.append_nil] at p2
  refine .ok ⟨p1.trans ((hh.perm.map _).trans p2.symm), ?_, b1, b2⟩
  intro x hx
  obtain ⟨y, hy, rfl⟩ := List.mem_map.1 (p1.mem_iff.1 hx)
  obtain ⟨h1, h2⟩ := hh.mem y hy
  exact ⟨h1, by simp [h2]⟩

/-- equal lists of elements at their distances -/
def EqAt (eval : List T → List T → F32) (U : Ref T → Prop) (q : List T) (v v' : List (PWO T)) : Prop :=
  v = v' ∧ ∀ x ∈ v, AtDist eval U q x

theorem EqAt.snoc {eval : List T → List T → F32} {q : List T} {v v' : List (PWO T)} (h : EqAt eval U q v v')
    {e : PWO T} (he : AtNeg eval U q e) :
    EqAt eval U q (v ++ [⟨e.pt, e.dist.neg⟩]) (v' ++ [⟨e.pt, e.dist.neg⟩]) := by
  refine ⟨by rw [h.1], ?_⟩
  intro x hx
  rcases List.mem_append.1 hx with hx | hx
  · exact h.2 x hx
  · rw [List.mem_singleton.1 hx]
    exact ⟨he.1, by simp [he.2]⟩

include L L' N in
theorem transferAll_ties {p : Ref T} (hp : U p) : ∀ (n : Nat) {h : P.H} {h' : P'.H}
    {acc acc' : List (PWO T)}, HR P P' (AtNeg cfg.eval U p.data) h h' → EqAt cfg.eval U p.data acc acc' →
    ExcR (EqAt cfg.eval U p.data) (transferAll P n h acc) (transferAll P' n h' acc') := by
  intro n
  induction n with
  | zero => intro h h' acc acc' _ ha; exact .ok ha
  | succ n ih =>
    intro h h' acc acc' hh ha
    simp only [transferAll]
    have := hh.pop L L' (N.from hp).neg
    generalize P.pop h = x at this
    generalize P'.pop h' = y at this
    cases this with
    | none => exact .ok ha
    | @some x y h1 =>
      obtain ⟨e, h2⟩ := x
      obtain ⟨e', h2'⟩ := y
      obtain ⟨h3, h4, h5⟩ := h1
      simp only at h3 h4 h5
      subst h3
      simp only
      split
      · exact .error _
      · exact ih h4 (ha.snoc h5)

include L L' N in
theorem selLoop_ties {p : Ref T} (hp : U p) (asked : Nat) (kp : Bool) : ∀ (n : Nat) {h : P.H} {h' : P'.H}
    {acc acc' : List (PWO T)} {d : P.H} {d' : P'.H}, HR P P' (AtNeg cfg.eval U p.data) h h' →
    EqAt cfg.eval U p.data acc acc' → HR P P' (AtNeg cfg.eval U p.data) d d' →
    ExcR (fun x y => EqAt cfg.eval U p.data x.1 y.1 ∧ HR P P' (AtNeg cfg.eval U p.data) x.2 y.2)
      (selLoop P cfg asked kp n h acc d) (selLoop P' cfg asked kp n h' acc' d') := by
  intro n
  induction n with
  | zero => intro h h' acc acc' d d' _ ha hd; exact .ok ⟨ha, hd⟩
  | succ n ih =>
    intro h h' acc acc' d d' hh ha hd
    obtain ⟨rfl, ha⟩ := ha
    simp only [selLoop]
    split
    · exact .ok ⟨⟨rfl, ha⟩, hd⟩
    · have := hh.pop L L' (N.from hp).neg
      generalize P.pop h = x at this
      generalize P'.pop h' = y at this
      cases this with
      | none => exact .ok ⟨⟨rfl, ha⟩, hd⟩
      | @some x y h1 =>
        obtain ⟨e, h2⟩ := x
        obtain ⟨e', h2'⟩ := y
        obtain ⟨h3, h4, h5⟩ := h1
        simp only at h3 h4 h5
        subst h3
        simp only
        split
        · exact .error _
        · split
          · exact ih h4 (EqAt.snoc ⟨rfl, ha⟩ h5) hd
          · split
            · have h3 := hd.pushC L L' (N.from hp).neg (x := ⟨e.pt, e.dist⟩) h5
              generalize P.pushC d ⟨e.pt, e.dist⟩ = x at h3
              generalize P'.pushC d' ⟨e.pt, e.dist⟩ = y at h3
              cases h3 with
              | error e => exact .error e
              | ok h3 => exact ih h4 ⟨rfl, ha⟩ h3
            · exact ih h4 ⟨rfl, ha⟩ hd

include L L' N in
theorem refill_ties {p : Ref T} (hp : U p) (asked : Nat) : ∀ (n : Nat) {h : P.H} {h' : P'.H}
    {acc acc' : List (PWO T)}, HR P P' (AtNeg cfg.eval U p.data) h h' → EqAt cfg.eval U p.data acc acc' →
    ExcR (EqAt cfg.eval U p.data) (refill P asked n h acc) (refill P' asked n h' acc') := by
  intro n
  induction n with
  | zero => intro h h' acc acc' _ ha; exact .ok ha
  | succ n ih =>
    intro h h' acc acc' hh ha
    obtain ⟨rfl, ha⟩ := ha
    simp only [refill]
    split
    · exact .ok ⟨rfl, ha⟩
    · have := hh.pop L L' (N.from hp).neg
      generalize P.pop h = x at this
      generalize P'.pop h' = y at this
      cases this with
      | none => exact .ok ⟨rfl, ha⟩
      | @some x y h1 =>
        obtain ⟨e, h2⟩ := x
        obtain ⟨e', h2'⟩ := y
        obtain ⟨h3, h4, h5⟩ := h1
        simp only at h3 h4 h5
        subst h3
        simp only
        split
        · exact .error _
        · exact ih h4 (EqAt.snoc ⟨rfl, ha⟩ h5)

include L L' N in
theorem selectFrom_ties {p : Ref T} (hp : U p) (asked : Nat) (kp : Bool) {h : P.H} {h' : P'.H}
    (hh : HR P P' (AtNeg cfg.eval U p.data) h h') :
    ExcR (EqAt cfg.eval U p.data) (selectFrom P cfg asked kp h) (selectFrom P' cfg asked kp h') := by
  unfold selectFrom
  rw [hh.len]
  have h1 := selLoop_ties L L' N hp asked kp (P'.len h') hh (acc := []) (acc' := []) ⟨rfl, by simp⟩
    (HR.empty L L')
  generalize selLoop P cfg asked kp (P'.len h') h [] P.empty = x at h1
  generalize selLoop P' cfg asked kp (P'.len h') h' [] P'.empty = y at h1
  cases h1 with
  | error e => exact .error e
  | @ok a b h1 =>
    obtain ⟨acc, d⟩ := a
    obtain ⟨acc', d'⟩ := b
    simp only
    split
    · rw [h1.2.len]
      exact refill_ties L L' N hp asked _ h1.2 h1.1
    · exact .ok h1.1

include pinj in
/-- the extension does not depend on the order in which the candidates are visited -/
theorem extendP_ties (l : Nat) {c : CSt T} (hc : LinksIn cfg.eval U c) {cands cands' w w' : List (Ref T)}
    (h1 : cands.Perm cands') (h2 : w.Perm w') (hw : ∀ r ∈ w, U r) :
    OutT (fun r r' s => s = c ∧ r.Perm r' ∧ ∀ x ∈ r, U x)
      ((extendP l cands w []).run c) ((extendP l cands' w' []).run c) := by
  obtain ⟨a, e1, n1, m1, -, k1⟩ := extendP_run l cands c w [] (by simp)
  obtain ⟨b, e2, n2, m2, -, k2⟩ := extendP_run l cands' c w' [] (by simp)
  rw [e1, e2]
  have hm : ∀ {x : Ref T} {y : List (Ref T)}, (∀ v, v ∈ cands ↔ v ∈ y) →
      (x.pid ∈ cands.map (·.pid) ↔ x.pid ∈ y.map (·.pid)) := by
    intro x y hy
    simp only [List.mem_map]
    constructor
    · rintro ⟨v, h1, h2⟩; exact ⟨v, (hy v).1 h1, h2⟩
    · rintro ⟨v, h1, h2⟩; exact ⟨v, (hy v).2 h1, h2⟩
  have ua : ∀ x ∈ a, U x := by
    intro x hx
    rcases m1 x hx with h | ⟨-, p, hp, q, hq, rfl⟩
    · cases h
    · exact (hc p (hw p hp) l q hq).1
  have ub : ∀ x ∈ b, U x := by
    intro x hx
    rcases m2 x hx with h | ⟨-, p, hp, q, hq, rfl⟩
    · cases h
    · exact (hc p (hw p (h2.mem_iff.2 hp)) l q hq).1
  refine .ok ⟨rfl, ?_, ua⟩
  rw [List.perm_ext_iff_of_nodup (List.Pairwise.of_map _ (fun a b hab heq => hab (by rw [heq])) n1)
    (List.Pairwise.of_map _ (fun a b hab heq => hab (by rw [heq])) n2)]
  intro x
  constructor
  · intro hx
    rcases m1 x hx with h | ⟨hno, p, hp, q, hq, rfl⟩
    · cases h
    · have := k2 p (h2.mem_iff.1 hp) q hq (fun h => hno ((hm (fun v => h1.mem_iff)).2 h))
      obtain ⟨y, hy, hpid⟩ := List.mem_map.1 this
      rw [← pinj y q.pt (ub y hy) (ua _ hx) hpid]
      exact hy
  · intro hx
    rcases m2 x hx with h | ⟨hno, p, hp, q, hq, rfl⟩
    · cases h
    · have := k1 p (h2.mem_iff.2 hp) q hq (fun h => hno ((hm (fun v => h1.mem_iff)).1 h))
      obtain ⟨y, hy, hpid⟩ := List.mem_map.1 this
      rw [← pinj y q.pt (ua y hy) (ub _ hx) hpid]
      exact hy

include L L' leg in
theorem pushAll_ties {p : Ref T} (hp : U p) {h : P.H} {h' : P'.H}
    (hh : HR P P' (AtNeg cfg.eval U p.data) h h') {v v' : List (PWO T)} (hv : v.Perm v')
    (hV : ∀ x ∈ v, AtNeg cfg.eval U p.data x) :
    ExcR (HR P P' (AtNeg cfg.eval U p.data)) (P.pushAll h v) (P'.pushAll h' v') := by
  have nn : ∀ x, AtNeg cfg.eval U p.data x → x.dist.isNaN = false := by
    intro x hx
    rw [hx.2, F32.isNaN_neg]
    exact (leg _ _ hp hx.1).1
  obtain ⟨a, e1, b1⟩ := pushAll_no_err L v h (fun x hx => nn x (hV x hx)) hh.built
  obtain ⟨b, e2, b2⟩ := pushAll_no_err L' v' h' (fun x hx => nn x (hV x (hv.mem_iff.2 hx)))
    hh.built'
  have p1 := pushAll_ok L v h a e1
  have p2 := pushAll_ok L' v' h' b e2
  rw [e1, e2]
  refine .ok ⟨p1.trans ((hv.append hh.perm).trans p2.symm), ?_, b1, b2⟩
  intro x hx
  rcases List.mem_append.1 (p1.mem_iff.1 hx) with hx | hx
  · exact hV x hx
  · exact hh.mem x hx

include L L' N pinj leg in
theorem selectP_ties {p : Ref T} (hp : U p) {h : P.H} {h' : P'.H}
    (hh : HR P P' (AtNeg cfg.eval U p.data) h h') (asked : Nat) (ext : Bool) (l : Nat) (kp : Bool)
    {c : CSt T} (hc : LinksIn cfg.eval U c) :
    OutT (fun v v' s => s = c ∧ EqAt cfg.eval U p.data v v') ((selectP P cfg p h asked ext l kp).run c)
      ((selectP P' cfg p h' asked ext l kp).run c) := by
  unfold selectP
  rw [hh.len]
  split
  · exact .ofExcept (transferAll_ties L L' N hp _ (acc := []) (acc' := []) hh ⟨rfl, by simp⟩)
      (fun a b h => .ok ⟨rfl, h⟩)
  · split
    · have hcp : ((P.items h).map (·.pt)).Perm ((P'.items h').map (·.pt)) := hh.perm.map _
      simp only
      refine OutT.bind (extendP_ties pinj l hc hcp
        ((L.hash_perm _ _ _ _).trans (hcp.trans (L'.hash_perm _ _ _ _).symm)) ?_) ?_
      · intro r hr
        obtain ⟨x, hx, rfl⟩ := List.mem_map.1 ((L.hash_perm _ _ _ _).mem_iff.1 hr)
        exact (hh.mem x hx).1
      · rintro news news' s ⟨rfl, hn, hU⟩
        refine OutT.ofExcept (pushAll_ties L L' leg hp hh
          (((L.hash_perm p.pid l 1 news).trans (hn.trans (L'.hash_perm p.pid l 1 news').symm)).map _) ?_)
          (fun a b hab => OutT.ofExcept (selectFrom_ties L L' N hp asked kp hab)
            (fun a b h => .ok ⟨rfl, h⟩))
        intro x hx
        obtain ⟨r, hr, rfl⟩ := List.mem_map.1 hx
        exact ⟨hU r ((L.hash_perm _ _ _ _).mem_iff.1 hr), rfl⟩
    · exact .ofExcept (selectFrom_ties L L' N hp asked kp hh) (fun a b h => .ok ⟨rfl, h⟩)

include pinj in
theorem LinksIn.setNb {c : CSt T} (hc : LinksIn cfg.eval U c) {o : Ref T} (ho : U o) (l : Nat)
    {v : List (PWO T)} (hv : ∀ x ∈ v, AtLink cfg.eval U o x) :
    LinksIn cfg.eval U { c with idx := c.idx.setNb o.pid l v } := by
  intro a ha l' e he
  simp only [Idx.setNb] at he
  split at he
  · rename_i h
    cases pinj a o ha ho h.1
    exact hv e he
  · exact hc a ha l' e he

theorem AtDist.link {p : Ref T} {x : PWO T} (h : AtDist cfg.eval U p.data x) : AtLink cfg.eval U p x :=
  ⟨h.1, Or.inl h.2⟩

include L L' N pinj in
theorem upperP_ties (fuel : Nat) {p : Ref T} (hp : U p) : ∀ (ls : List Nat) {ep : Ref T} {d : F32},
    U ep → ∀ {c : CSt T}, LinksIn cfg.eval U c →
    OutT (fun e e' s => e = e' ∧ U e ∧ LinksIn cfg.eval U s) ((upperP P cfg fuel p ls ep d).run c)
      ((upperP P' cfg fuel p ls ep d).run c) := by
  intro ls
  induction ls with
  | nil => intro ep d he c hc; exact .ok ⟨rfl, he, hc⟩
  | cons l ls ih =>
    intro ep d he c hc
    simp only [upperP]
    refine OutT.bind (searchLayerP_ties L L' N hp fuel 1 l he hc) ?_
    rintro h h' s ⟨rfl, hh⟩
    rw [hh.len]
    split
    · exact .panic _ _
    · have := hh.pop L L' (N.from hp).pos
      generalize P.pop h = x at this
      generalize P'.pop h' = y at this
      cases this with
      | none => exact ih he hc
      | @some x y h1 =>
        obtain ⟨e, h2⟩ := x
        obtain ⟨e', h2'⟩ := y
        obtain ⟨h3, h4, h5⟩ := h1
        simp only at h3 h4 h5
        subst h3
        simp only
        have hnext : ∀ {c : CSt T}, LinksIn cfg.eval U c →
            OutT (fun e e' s => e = e' ∧ U e ∧ LinksIn cfg.eval U s)
            ((if (cfg.eval p.data e.pt.data).lt d = true then
              upperP P cfg fuel p ls e.pt (cfg.eval p.data e.pt.data) else upperP P cfg fuel p ls ep d).run c)
            ((if (cfg.eval p.data e.pt.data).lt d = true then
              upperP P' cfg fuel p ls e.pt (cfg.eval p.data e.pt.data)
              else upperP P' cfg fuel p ls ep d).run c) := by
          intro c hc
          split
          · exact ih h5.1 hc
          · exact ih he hc
        apply OutT.read
        split
        · refine OutT.act rfl (hnext (hc.setNb pinj hp l ?_))
          intro x hx
          rcases List.mem_append.1 hx with hx | hx
          · exact hc p hp l x hx
          · rw [List.mem_singleton.1 hx]
            exact h5.link
        · exact hnext hc

include L L' N pinj leg in
theorem lowerP_ties (fuel : Nat) {p : Ref T} (hp : U p) : ∀ (ls : List Nat) {ep : Ref T},
    U ep → ∀ {c : CSt T}, LinksIn cfg.eval U c →
    OutT (fun _ _ s => LinksIn cfg.eval U s) ((lowerP P cfg fuel p ls ep).run c)
      ((lowerP P' cfg fuel p ls ep).run c) := by
  intro ls
  induction ls with
  | nil => intro ep he c hc; exact .ok hc
  | cons l ls ih =>
    intro ep he c hc
    simp only [lowerP]
    refine OutT.bind (searchLayerP_ties L L' N hp fuel cfg.efC l he hc) ?_
    rintro h h' s ⟨rfl, hh⟩
    refine OutT.ofExcept (fromPositive_ties L L' leg hp hh) ?_
    intro n n' hn
    simp only [hn.nil]
    split
    · exact ih he hc
    · refine OutT.bind (selectP_ties L L' N pinj leg hp hn _ _ l cfg.keepPruned hc) ?_
      rintro v v' s ⟨rfl, rfl, hv⟩
      have hs := sortC_unique L L' (N.from hp).pos hv
      rw [← hs]
      cases hx : P.sortC v with
      | error e => exact .panic e _
      | ok w =>
        have hw : ∀ x ∈ w, AtDist cfg.eval U p.data x := by
          unfold Policy.sortC at hx
          split at hx
          · cases hx
          · injection hx with hx
            subst hx
            exact fun x hx => hv x ((L.sort_perm v).mem_iff.1 hx)
        refine OutT.act rfl ?_
        have hc' := hc.setNb pinj hp l (fun x hx => (hw x hx).link)
        cases w with
        | nil => exact ih he hc'
        | cons n rest => exact ih (hw n (by simp)).1 hc'

include L L' N in
theorem revList_ties {p : Ref T} (hp : U p) {q : PWO T} (hq : AtLink cfg.eval U p q) {old : List (PWO T)}
    (ho : ∀ e ∈ old, AtLink cfg.eval U q.pt e) :
    revList P cfg p q old = revList P' cfg p q old ∧
      ∀ e ∈ (revList P cfg p q old).1, AtLink cfg.eval U q.pt e := by
  unfold revList
  split
  · exact ⟨rfl, ho⟩
  · have hpu : ∀ e ∈ old ++ [⟨p, q.dist⟩], AtLink cfg.eval U q.pt e := by
      intro e he
      rcases List.mem_append.1 he with he | he
      · exact ho e he
      · rw [List.mem_singleton.1 he]
        exact ⟨hp, hq.2.symm⟩
    have hs := sortC_unique L L' (N.link hq.1) hpu
    simp only
    rw [← hs]
    cases hx : P.sortC (old ++ [⟨p, q.dist⟩]) with
    | error e =>
      rw [L.sortC_legal (fun x hx => (N.link hq.1).1 x (hpu x hx))] at hx
      cases hx
    | ok w =>
      refine ⟨rfl, ?_⟩
      have hw : ∀ x ∈ w, AtLink cfg.eval U q.pt x := by
        unfold Policy.sortC at hx
        split at hx
        · cases hx
        · injection hx with hx
          subst hx
          exact fun x hx => hpu x ((L.sort_perm _).mem_iff.1 hx)
      simp only
      generalize (if 0 < p.pid.layer then cfg.maxNb else 2 * cfg.maxNb) = thr
      split
      · exact fun e he => hw e (List.dropLast_subset _ he)
      · exact hw

include L L' N pinj in
theorem revInner_ties {p : Ref T} (hp : U p) {k k' : Prog (CSt T) Unit}
    (hk : ∀ c, LinksIn cfg.eval U c → OutT (fun _ _ _ => True) (k.run c) (k'.run c)) :
    ∀ (qs : List (PWO T)), (∀ q ∈ qs, AtLink cfg.eval U p q) → ∀ {c : CSt T}, LinksIn cfg.eval U c →
    OutT (fun _ _ _ => True) ((revInner P cfg p k qs).run c) ((revInner P' cfg p k' qs).run c) := by
  intro qs
  induction qs with
  | nil =>
    intro _ c hc
    exact OutT.act rfl (hk _ hc)
  | cons q qs ih =>
    intro hqs c hc
    have ih' := fun {c : CSt T} (hc : LinksIn cfg.eval U c) =>
      ih (fun q hq => hqs q (List.mem_cons_of_mem _ hq)) hc
    simp only [revInner]
    split
    · exact ih' hc
    · have hq := hqs q (by simp)
      obtain ⟨h1, h2⟩ := revList_ties L L' N hp hq (hc q.pt hq.1 p.pid.layer)
      refine OutT.act (by rw [h1]) ?_
      rw [← h1]
      cases (revList P cfg p q (c.idx.nb q.pt.pid p.pid.layer)).2 with
      | some e => exact OutT.act rfl (.panic e _)
      | none => exact ih' (hc.setNb pinj hq.1 p.pid.layer h2)

include L L' N pinj in
theorem reverseP_ties {p : Ref T} (hp : U p) {k k' : Prog (CSt T) Unit}
    (hk : ∀ c, LinksIn cfg.eval U c → OutT (fun _ _ _ => True) (k.run c) (k'.run c)) :
    ∀ (ls : List Nat) (c : CSt T), LinksIn cfg.eval U c →
    OutT (fun _ _ _ => True) ((reverseP P cfg p k ls).run c) ((reverseP P' cfg p k' ls).run c) := by
  intro ls
  induction ls with
  | nil => exact hk
  | cons l ls ih =>
    intro c hc
    exact OutT.act rfl (revInner_ties L L' N pinj hp ih _ (hc p hp l) hc)

theorem OutT.same {σ α : Type} {t : Prog σ α} {c : σ} : OutT (fun a b _ => a = b) (t.run c) (t.run c) := by
  cases t.run c with
  | ok a s => exact .ok rfl
  | panic e s => exact .panic e s
  | blocked s => exact .blocked s

theorem OutT.eq {σ : Type} {A : Unit → Unit → σ → Prop} {x y : Outcome σ Unit} (h : OutT A x y) : x = y := by
  cases h <;> rfl

theorem OutT.of_eq {σ α : Type} {x y : Outcome σ α} (h : x = y) : OutT (fun _ _ _ => True) x y := by
  subst h
  cases x with
  | ok a s => exact .ok trivial
  | panic e s => exact .panic e s
  | blocked s => exact .blocked s

include L L' N pinj leg in
theorem linkP_ties (fuel : Nat) {p : Ref T} (hp : U p) (rank : Nat) {c : CSt T}
    (hc : LinksIn cfg.eval U c) (he : ∀ e, c.idx.entry = some e → U e) :
    (linkP P cfg fuel p rank).run c = (linkP P' cfg fuel p rank).run c := by
  apply OutT.eq (A := fun _ _ _ => True)
  unfold linkP
  apply OutT.read
  cases h : c.idx.entry with
  | none => exact .of_eq rfl
  | some ep =>
    simp only
    split
    · exact .of_eq rfl
    · refine OutT.bind (upperP_ties L L' N pinj fuel hp _ (he ep h) hc) ?_
      rintro e e' s ⟨rfl, he, hs⟩
      refine OutT.bind (lowerP_ties L L' N pinj leg fuel hp _ he hs) ?_
      intro _ _ s hs
      exact reverseP_ties L L' N pinj hp (fun c _ => .of_eq rfl) _ s hs

end

/-- an insertion without ties does not depend on the containers -/
theorem insert_ties (L : P.Lawful) (L' : P'.Lawful) {cfg : Cfg T} {U : Ref T → Prop} {c : CSt T}
    (x : List T × DataId) (level : Nat) (N : NoTies cfg.eval U)
    (pinj : ∀ a b, U a → U b → a.pid = b.pid → a = b)
    (leg : ∀ a b, U a → U b → (cfg.eval a.data b.data).Legal) (hc : LinksIn cfg.eval U c)
    (he : ∀ e, c.idx.entry = some e → U e) (hp : U (newRef x level c.idx)) :
    insert P cfg c x level = insert P' cfg c x level := by
  unfold insert insertP
  simp only [Prog.run, if_true]
  split
  · unfold countP
    simp only [Prog.run, if_true]
    exact linkP_ties L L' N pinj leg _ hp _ hc he
  · rfl

end Verif
