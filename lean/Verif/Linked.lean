import Verif.ImproveLemmas
import Verif.ExecLemmas

set_option autoImplicit false

/-!
# Concurrent insertions leave no point without links: lemmas

A light kind of reasoning on threads: all that is used of the other threads is `Onward`, i.e. that lists of links do
not become empty again, populated layers stay so, and the index keeps an entry point.
-/

namespace Verif
variable {T : Type} {P : Policy T} {cfg : Cfg T}

/-- what later states keep -/
structure Onward (s s' : CSt T) : Prop where
  ne : ∀ p l, s.idx.nb p l ≠ [] → s'.idx.nb p l ≠ []
  lay : ∀ l, s.idx.layer l ≠ [] → s'.idx.layer l ≠ []
  entry : s.idx.entry ≠ none → s'.idx.entry ≠ none
  count : s.idx.nbPoint ≤ s'.idx.nbPoint

theorem Onward.refl (s : CSt T) : Onward s s := ⟨fun _ _ h => h, fun _ h => h, fun h => h, Nat.le_refl _⟩

theorem Onward.trans {a b c : CSt T} (h : Onward a b) (h' : Onward b c) : Onward a c :=
  ⟨fun p l hn => h'.ne p l (h.ne p l hn), fun l hn => h'.lay l (h.lay l hn), fun hn => h'.entry (h.entry hn),
    Nat.le_trans h.count h'.count⟩

/-- if the thread returns, then with `Q` -/
def Ends {α : Type} (Q : α → CSt T → Prop) : Prog (CSt T) α → CSt T → Prop
  | .ret a, s => ∀ s', Onward s s' → Q a s'
  | .fail _, _ => True
  | .act g u k, s => ∀ s', Onward s s' → g s' = true → Onward s' (u s') → Ends Q (k s') (u s')

section
variable {α β : Type} {Q : α → CSt T → Prop} {R : β → CSt T → Prop}

theorem Ends.onward {p : Prog (CSt T) α} {s s' : CSt T} (h : Ends Q p s) (hm : Onward s s') : Ends Q p s' := by
  cases p with
  | ret a => exact fun s2 h2 => h s2 (hm.trans h2)
  | fail e => trivial
  | act g u k => exact fun s2 h2 => h s2 (hm.trans h2)

theorem Ends.bind {f : α → Prog (CSt T) β} (hf : ∀ a s, Q a s → Ends R (f a) s) :
    ∀ {p : Prog (CSt T) α} {s : CSt T}, Ends Q p s → Ends R (p.bind f) s := by
  intro p
  induction p with
  | ret a => exact fun h => hf a _ (h _ (.refl _))
  | fail e => exact fun _ => trivial
  | act g u k ih => exact fun h s' h1 h2 h3 => ih s' (h s' h1 h2 h3)

theorem Ends.frame {s0 : CSt T} : ∀ {p : Prog (CSt T) α} {s : CSt T}, Ends Q p s → Onward s0 s →
    Ends (fun a s' => Q a s' ∧ Onward s0 s') p s := by
  intro p
  induction p with
  | ret a => exact fun h h0 s' h1 => ⟨h s' h1, h0.trans h1⟩
  | fail e => exact fun _ _ => trivial
  | act g u k ih => exact fun h h0 s' h1 h2 h3 => ih s' (h s' h1 h2 h3) ((h0.trans h1).trans h3)

theorem Ends.any : ∀ (p : Prog (CSt T) α) (s : CSt T), Ends (fun _ _ => True) p s := by
  intro p
  induction p with
  | ret a => exact fun _ _ _ => trivial
  | fail e => exact fun _ => trivial
  | act g u k ih => exact fun _ s' _ _ _ => ih s' _

theorem Ends.read {k : CSt T → Prog (CSt T) α} {s : CSt T} (h : ∀ s', Onward s s' → Ends Q (k s') s') :
    Ends Q (Prog.read k) s := fun s' h1 _ _ => h s' h1

theorem Ends.ofExcept {x : Except Panic β} {f : β → Prog (CSt T) α} {s : CSt T}
    (h : ∀ b, x = .ok b → Ends Q (f b) s) : Ends Q (Prog.ofExcept x f) s := by
  cases x with
  | error e => trivial
  | ok b => exact h b rfl

end

/-! ## Searches find something -/

theorem trim_ne (L : P.Lawful) {ef : Nat} {r : P.H} (h : 2 ≤ P.len r) : P.items (trim P ef r) ≠ [] := by
  unfold trim
  split
  · cases hp : P.pop r with
    | none =>
      simp only
      intro h0
      simp [Policy.len, h0] at h
    | some z =>
      obtain ⟨x, r'⟩ := z
      have := L.len_pop hp
      simp only
      intro h0
      simp only [Policy.len, h0, List.length_nil] at this h
      omega
  · intro h0
    simp [Policy.len, h0] at h

/-- what a scan gives back -/
def ScanNe (P : Policy T) : Except Panic (Scan P) → Prop
  | .error _ => True
  | .ok (.stop r) => P.items r ≠ []
  | .ok (.go st) => P.items st.ret ≠ []

theorem scanE_some (L : P.Lawful) {q : List T} {ef : Nat} {e : Ref T} {st : SL P} (h : P.items st.ret ≠ []) :
    ScanNe P (scanE P cfg.eval q ef none e st) := by
  unfold scanE
  split
  · exact h
  split
  · exact h
  simp only
  split
  · split
    · trivial
    split
    · trivial
    · rename_i ret' hr
      obtain rfl := Policy.pushC_ok (show P.pushC st.ret ⟨e, cfg.eval q e.data⟩ = .ok ret' from hr)
      apply trim_ne L
      rw [L.len_push]
      have : P.len st.ret ≠ 0 := by
        intro h0
        exact h (List.length_eq_zero_iff.1 h0)
      omega
  · exact h

theorem scanList_some (L : P.Lawful) {q : List T} {ef : Nat} : ∀ (es : List (PWO T)) {st : SL P},
    P.items st.ret ≠ [] → ScanNe P (scanList P cfg.eval q ef none es st) := by
  intro es
  induction es with
  | nil => exact fun h => h
  | cons e es ih =>
    intro st h
    have h1 := scanE_some (cfg := cfg) L (q := q) (ef := ef) (e := e.pt) h
    unfold scanList
    split
    · trivial
    · rename_i r hr
      rw [hr] at h1
      exact h1
    · rename_i st' hr
      rw [hr] at h1
      exact ih h1

theorem loopP_ne (L : P.Lawful) {q : List T} {ef layer : Nat} : ∀ (n : Nat) {st : SL P} (s : CSt T),
    P.items st.ret ≠ [] → Ends (fun h _ => P.items h ≠ []) (loopP P cfg q ef layer n st) s := by
  intro n
  induction n with
  | zero => intro st s _; simp only [loopP]; trivial
  | succ n ih =>
    intro st s h
    unfold loopP
    cases hh : head P ef none st with
    | done r =>
      simp only
      have hr : r = st.ret := by
        unfold head at hh
        split at hh
        · cases hh; rfl
        · split at hh
          · cases hh
          · split at hh
            · cases hh
            · split at hh
              · cases hh
              · split at hh
                · cases hh; rfl
                · cases hh
      subst hr
      exact fun _ _ => h
    | panic e => simp only; trivial
    | expand c st' =>
      have hst : st'.ret = st.ret := by
        unfold head at hh
        split at hh
        · cases hh
        · split at hh
          · cases hh
          · split at hh
            · cases hh
            · split at hh
              · cases hh
              · split at hh
                · cases hh
                · cases hh; rfl
      simp only
      apply Ends.read
      intro s' _
      have h1 := scanList_some (cfg := cfg) L (q := q) (ef := ef) (s'.idx.nb c.pid layer) (st := st') (by rw [hst]; exact h)
      split
      · trivial
      · rename_i r hr
        rw [hr] at h1
        exact fun _ _ => h1
      · rename_i st2 hr
        rw [hr] at h1
        exact ih s' h1

theorem searchLayerP_ne (L : P.Lawful) {q : List T} {ep : Ref T} {ef layer fuel : Nat} {s : CSt T}
    (hne : s.idx.layer layer ≠ []) :
    Ends (fun h _ => P.items h ≠ []) (searchLayerP P cfg fuel q ep ef layer) s := by
  unfold searchLayerP
  apply Ends.read
  intro s' hm
  have := hm.lay _ hne
  unfold Idx.layer at this
  cases hl : s'.idx.layers[layer]? with
  | none => simp only; trivial
  | some x =>
    cases x with
    | nil => simp [hl] at this
    | cons a as =>
      simp only
      apply loopP_ne L
      simp [slInit, L.items_push_empty]

/-! ## Selections are not empty -/

theorem fromPositive_ne (L : P.Lawful) : ∀ (xs : List (PWO T)) (h nh : P.H), fromPositive P xs h = .ok nh →
    xs ≠ [] ∨ P.items h ≠ [] → P.items nh ≠ [] := by
  intro xs
  induction xs with
  | nil =>
    intro h nh he hor
    simp only [fromPositive] at he
    cases he
    exact hor.resolve_left (by simp)
  | cons x xs ih =>
    intro h nh he _
    simp only [fromPositive] at he
    split at he
    · cases he
    split at he
    · cases he
    · rename_i h2 hp
      refine ih _ _ he (Or.inr ?_)
      obtain rfl := Policy.pushC_ok hp
      intro h0
      have := L.len_push (h := h) (x := ⟨x.pt, x.dist.neg⟩)
      simp [Policy.len, h0] at this

theorem transferAll_ne : ∀ (n : Nat) (h : P.H) (acc v : List (PWO T)), transferAll P n h acc = .ok v →
    acc ≠ [] → v ≠ [] := by
  intro n
  induction n with
  | zero => intro h acc v he ha; simp only [transferAll] at he; cases he; exact ha
  | succ n ih =>
    intro h acc v he ha
    simp only [transferAll] at he
    split at he
    · cases he; exact ha
    · split at he
      · cases he
      · exact ih _ _ _ he (by simp)

theorem transferAll_some (L : P.Lawful) {h : P.H} {v : List (PWO T)} (hne : P.items h ≠ [])
    (he : transferAll P (P.len h) h [] = .ok v) : v ≠ [] := by
  cases hn : P.len h with
  | zero => exact absurd (List.length_eq_zero_iff.1 hn) hne
  | succ n =>
    rw [hn] at he
    simp only [transferAll] at he
    obtain ⟨x, h', hp⟩ := L.pop_isSome hne
    simp only [hp] at he
    split at he
    · cases he
    · exact transferAll_ne _ _ _ _ he (by simp)

theorem selLoop_ne {asked : Nat} {kp : Bool} : ∀ (n : Nat) (h : P.H) (acc : List (PWO T)) (disc : P.H)
    (acc' : List (PWO T)) (disc' : P.H), selLoop P cfg asked kp n h acc disc = .ok (acc', disc') →
    acc ≠ [] → acc' ≠ [] := by
  intro n
  induction n with
  | zero => intro h acc disc acc' disc' he ha; simp only [selLoop] at he; cases he; exact ha
  | succ n ih =>
    intro h acc disc acc' disc' he ha
    simp only [selLoop] at he
    split at he
    · cases he; exact ha
    split at he
    · cases he; exact ha
    split at he
    · cases he
    split at he
    · exact ih _ _ _ _ _ he (by simp)
    split at he
    · split at he
      · cases he
      · exact ih _ _ _ _ _ he ha
    · exact ih _ _ _ _ _ he ha

theorem refill_ne {asked : Nat} : ∀ (n : Nat) (disc : P.H) (acc v : List (PWO T)),
    refill P asked n disc acc = .ok v → acc ≠ [] → v ≠ [] := by
  intro n
  induction n with
  | zero => intro disc acc v he ha; simp only [refill] at he; cases he; exact ha
  | succ n ih =>
    intro disc acc v he ha
    simp only [refill] at he
    split at he
    · cases he; exact ha
    split at he
    · cases he; exact ha
    split at he
    · cases he
    · exact ih _ _ _ he (by simp)

theorem selectFrom_ne (L : P.Lawful) {asked : Nat} {kp : Bool} {cands : P.H} {v : List (PWO T)}
    (ha : 0 < asked) (hne : P.items cands ≠ []) (he : selectFrom P cfg asked kp cands = .ok v) : v ≠ [] := by
  unfold selectFrom at he
  split at he
  · cases he
  · rename_i acc disc hs
    have hacc : acc ≠ [] := by
      cases hn : P.len cands with
      | zero => exact absurd (List.length_eq_zero_iff.1 hn) hne
      | succ n =>
        rw [hn] at hs
        simp only [selLoop] at hs
        rw [if_neg (by simp; omega)] at hs
        obtain ⟨x, h', hp⟩ := L.pop_isSome hne
        simp only [hp] at hs
        split at hs
        · cases hs
        · simp only [List.any_nil, if_true] at hs
          exact selLoop_ne _ _ _ _ _ _ hs (by simp)
    split at he
    · exact refill_ne _ _ _ _ he hacc
    · cases he; exact hacc

theorem selectP_ne (L : P.Lawful) {p : Ref T} {cands : P.H} {asked layer : Nat} {ext kp : Bool} {s : CSt T}
    (ha : 0 < asked) (hne : P.items cands ≠ []) :
    Ends (fun v _ => v ≠ []) (selectP P cfg p cands asked ext layer kp) s := by
  unfold selectP
  split
  · exact Ends.ofExcept fun v hv _ _ => transferAll_some L hne hv
  split
  · refine Ends.bind ?_ (Ends.any _ _)
    intro news s' _
    refine Ends.ofExcept fun cands' hp => Ends.ofExcept fun v hv _ _ => selectFrom_ne L ha ?_ hv
    intro h0
    have := (pushAll_ok L _ _ _ hp).length_eq
    rw [h0] at this
    simp only [List.length_nil, List.length_append] at this
    exact hne (List.length_eq_zero_iff.1 (by omega))
  · exact Ends.ofExcept fun v hv _ _ => selectFrom_ne L ha hne hv

/-! ## An insertion -/

theorem lowerP_ne (L : P.Lawful) (hm : 0 < cfg.maxNb) {p : Ref T} {fuel : Nat} {K : Nat → Prop} : ∀ (ls : List Nat)
    (ep : Ref T) (s : CSt T), (∀ l, K l → s.idx.layer l ≠ []) →
    Ends (fun _ s' => ∀ l ∈ ls, K l → s'.idx.nb p.pid l ≠ []) (lowerP P cfg fuel p ls ep) s := by
  intro ls
  induction ls with
  | nil => intro ep s _ s' _; simp
  | cons l ls ih =>
    intro ep s hK
    -- once the list is written
    have hrest : ∀ (ep' : Ref T) (s2 : CSt T), Onward s s2 → (K l → s2.idx.nb p.pid l ≠ []) →
        Ends (fun _ s' => ∀ l' ∈ l :: ls, K l' → s'.idx.nb p.pid l' ≠ []) (lowerP P cfg fuel p ls ep') s2 := by
      intro ep' s2 h2 hw
      have h3 := Ends.frame (ih ep' s2 fun l hl => h2.lay l (hK l hl)) (.refl s2)
      have := Ends.bind (R := fun (_ : Unit) s' => ∀ l' ∈ l :: ls, K l' → s'.idx.nb p.pid l' ≠ [])
        (f := fun a => .ret a) (fun a s' h4 s'' h5 l' hl' hk => by
          rcases List.mem_cons.1 hl' with rfl | hl'
          · exact h5.ne _ _ (h4.2.ne _ _ (hw hk))
          · exact h5.ne _ _ (h4.1 l' hl' hk)) h3
      have hbr : ∀ q : Prog (CSt T) Unit, q.bind (fun a => .ret a) = q := by
        intro q
        induction q with
        | ret a => rfl
        | fail e => rfl
        | act g u k ih => simp only [Prog.bind, ih]
      rw [hbr] at this
      exact this
    simp only [lowerP]
    have hsl : Ends (fun h _ => K l → P.items h ≠ []) (searchLayerP P cfg fuel p.data ep cfg.efC l) s := by
      by_cases hk : K l
      · have := searchLayerP_ne (cfg := cfg) (q := p.data) (ep := ep) (ef := cfg.efC) (fuel := fuel) L (hK l hk)
        have h2 : (fun h (_ : CSt T) => K l → P.items h ≠ []) = fun h (_ : CSt T) => P.items h ≠ [] := by
          funext h s'
          simp [hk]
        rw [h2]
        exact this
      · have h2 : (fun h (_ : CSt T) => K l → P.items h ≠ []) = fun h (_ : CSt T) => True := by
          funext h s'
          simp [hk]
        rw [h2]
        exact Ends.any _ _
    refine Ends.bind ?_ (Ends.frame hsl (.refl s))
    rintro h s1 ⟨hne, h1⟩
    refine Ends.ofExcept fun nh hnh => ?_
    by_cases hnhe : P.items nh = []
    · rw [if_pos hnhe]
      refine hrest ep s1 h1 fun hk => ?_
      exact absurd hnhe (fromPositive_ne L _ _ _ hnh (Or.inl (hne hk)))
    · rw [if_neg hnhe]
      refine Ends.bind ?_ (Ends.frame (selectP_ne L (by split <;> omega) hnhe) h1)
      rintro v s2 ⟨hv, h2⟩
      refine Ends.ofExcept fun nbrs hn => ?_
      obtain rfl := Policy.sortC_ok hn
      have hvs : P.sort v ≠ [] := by
        intro h0
        have := (L.sort_perm v).length_eq
        rw [h0] at this
        exact hv (List.length_eq_zero_iff.1 this.symm)
      intro s3 h3 _ h4
      have hw : K l → (s3.idx.setNb p.pid l (P.sort v)).nb p.pid l ≠ [] := by
        intro _
        rw [setNb_nb, if_pos ⟨rfl, rfl⟩]
        exact hvs
      cases hs : P.sort v with
      | nil => exact absurd hs hvs
      | cons n ns =>
        rw [hs] at h4 hw
        exact hrest n.pt _ ((h2.trans h3).trans h4) hw

theorem linkP_ne (L : P.Lawful) (hm : 0 < cfg.maxNb) {p : Ref T} {fuel rank : Nat} {K : Nat → Prop} {s : CSt T}
    (hK : ∀ l, K l → s.idx.layer l ≠ []) (he : s.idx.entry ≠ none) (hr : rank ≠ 1) :
    Ends (fun _ s' => ∀ l ≤ p.pid.layer, K l → s'.idx.nb p.pid l ≠ []) (linkP P cfg fuel p rank) s := by
  unfold linkP
  apply Ends.read
  intro s1 h1
  cases hep : s1.idx.entry with
  | none => exact absurd hep (h1.entry he)
  | some ep =>
    simp only
    rw [if_neg hr]
    refine Ends.bind ?_ (Ends.frame (Ends.any _ _) h1)
    rintro ep' s2 ⟨-, h2⟩
    refine Ends.bind ?_ (lowerP_ne L hm _ ep' s2 fun l hl => h2.lay l (hK l hl))
    intro _ s3 h3
    have h4 := Ends.frame (Ends.any (reverseP P cfg p (checkEntryP p) (layersDown p.pid.layer 0)) s3) (.refl s3)
    have h5 : ∀ (q : Prog (CSt T) Unit) (s : CSt T), Ends (fun _ s' => True ∧ Onward s3 s') q s →
        Ends (fun _ s' => ∀ l ≤ p.pid.layer, K l → s'.idx.nb p.pid l ≠ []) q s := by
      intro q
      induction q with
      | ret a => exact fun s h s' hs l hl hk =>
          (h s' hs).2.ne _ _ (h3 l (mem_layersDown.2 ⟨Nat.zero_le _, hl⟩) hk)
      | fail e => exact fun _ _ => trivial
      | act g u k ih => exact fun s h s' a b c => ih s' _ (h s' a b c)
    exact h5 _ _ h4

/-! ## All the threads -/

/-- layers the new points are to be linked in: those populated at the start -/
abbrev Populated (c0 : CSt T) (l : Nat) : Prop := c0.idx.layer l ≠ []

/-- what is said of the thread that inserts `r` -/
def LinkThread (c0 : CSt T) (t : Prog (CSt T) Unit) (s : CSt T) (r : Ref T) : Prop :=
  Ends (fun _ s' => ∀ l ≤ r.pid.layer, Populated c0 l ∨ l = r.pid.layer → s'.idx.nb r.pid l ≠ []) t s

/-- all the threads that have created their point -/
structure LinkInv (c0 : CSt T) (s : CSt T) (ts : List (Prog (CSt T) Unit)) (ph : List (Phase T)) : Prop where
  thr : ∀ (i : Nat) a t r, ph[i]? = some a → ts[i]? = some t → a.ref = some r → LinkThread c0 t s r
  onward : Onward c0 s

variable {fuel N : Nat} {D : List T → Prop} {W : Nat → Prop} {B : Base T}

theorem sysInv_onward {s0 : CSt T} {jobs : List (Job T)} {c c' : CSt T × List (Prog (CSt T) Unit)}
    (hs : Step c c') {ph : List (Phase T)} (h : SysInvB B P cfg fuel N D W s0 jobs c.1 c.2 ph) :
    Onward c.1 c'.1 := by
  have himp : ∀ p l, c.1.idx.nb p l ≠ [] → c'.1.idx.nb p l ≠ [] := by
    intro p l hne h0
    have h1 := sysInv_len hs h p l
    rw [h0] at h1
    exact hne (List.length_eq_zero_iff.1 (Nat.le_zero.1 h1))
  cases hs with
  | mk i hi g u k hact hg =>
  rename_i s ts
  simp only at h himp ⊢
  have hti : ts[i]? = some (.act g u k) := by rw [List.getElem?_eq_getElem hi, hact]
  have hilt : i < jobs.length := h.tlen ▸ hi
  have hji : jobs[i]? = some jobs[i] := List.getElem?_eq_getElem hilt
  have hplt : i < ph.length := by rw [h.len]; exact hilt
  have hpi : ph[i]? = some ph[i] := List.getElem?_eq_getElem hplt
  generalize jobs[i] = j at hji
  generalize ph[i] = a at hpi
  have hT := h.thr i j a _ hji hpi hti
  cases a with
  | idle =>
    obtain ⟨hprog, -, hlev, -⟩ := hT
    unfold Job.prog insertP at hprog
    cases hprog
    refine ⟨himp, fun l hl => ?_, fun h => h, Nat.le_refl _⟩
    show (addPoint (j.data, j.id) j.level s.idx).layer l ≠ []
    rw [layer_addPoint _ _ _ (by rw [h.env.inv.okB.tab.len]; exact hlev)]
    split
    · simp
    · exact hl
  | added r =>
    obtain ⟨hprog, -⟩ := hT
    unfold countP at hprog
    cases hprog
    exact ⟨himp, fun _ h => h, fun h => h, Nat.le_succ _⟩
  | running r rk =>
    obtain ⟨hsafe, -⟩ := hT
    have hG := ((hsafe s h.env (Rel.refl _ _ _)).2 hg).1
    refine ⟨himp, fun l hl => ?_, fun he => ?_, Nat.le_of_eq hG.count.symm⟩
    · unfold Idx.layer at hl ⊢
      rw [hG.layers]
      exact hl
    · obtain ⟨e, he⟩ := Option.ne_none_iff_exists'.1 he
      have hne : (⟨r.pid.layer + 1, r.pid.rank⟩ : PointId) ≠ r.pid := by
        intro hh
        have := congrArg PointId.layer hh
        simp at this
      obtain ⟨e', he', -⟩ := (hG.others _ hne).entry e he
      rw [he']; simp

/-- a step of thread `i`, the phases being updated as in `sysInv_stepAt` -/
theorem linkInv_stepAt (L : P.Lawful) (hm : 0 < cfg.maxNb) {s0 : CSt T}
    (he0 : s0.idx.entry ≠ none) (hn0 : s0.idx.nbPoint ≠ 0) {jobs : List (Job T)} {s : CSt T}
    {ts : List (Prog (CSt T) Unit)} {i : Nat} (hi : i < ts.length) {g : CSt T → Bool} {u : CSt T → CSt T}
    {k : CSt T → Prog (CSt T) Unit} (hact : ts[i] = .act g u k) (hg : g s = true) {ph ph' : List (Phase T)}
    (h : SysInvB B P cfg fuel N D W s0 jobs s ts ph) (hw : LinkInv s0 s ts ph)
    (hoth : ∀ n, n ≠ i → ph'[n]? = ph[n]?)
    (hmine : ∀ a, ph[i]? = some a → ∃ a', ph'[i]? = some a' ∧
        (a.ref = none → ∃ j, jobs[i]? = some j ∧ a'.ref = some (newRef (j.data, j.id) j.level s.idx)) ∧
        (a.ref ≠ none → a'.ref = a.ref)) :
    LinkInv s0 (u s) (ts.set i (k s)) ph' := by
  have hon := sysInv_onward (.mk i hi g u k hact hg) h
  simp only at hon
  have hti : ts[i]? = some (.act g u k) := by rw [List.getElem?_eq_getElem hi, hact]
  have hilt : i < jobs.length := h.tlen ▸ hi
  have hji : jobs[i]? = some jobs[i] := List.getElem?_eq_getElem hilt
  have hplt : i < ph.length := by rw [h.len]; exact hilt
  have hpi : ph[i]? = some ph[i] := List.getElem?_eq_getElem hplt
  generalize jobs[i] = j at hji
  generalize ph[i] = a at hpi
  refine ⟨?_, hw.onward.trans hon⟩
  obtain ⟨a', ha', hidle, hsame⟩ := hmine a hpi
  intro n b t r hb ht hr
  by_cases hni : n = i
  · subst hni
    rw [ha'] at hb
    cases hb
    rw [List.getElem?_set_self hi] at ht
    cases ht
    by_cases har : a.ref = none
    · obtain ⟨j', hj', hr'⟩ := hidle har
      rw [hji] at hj'
      cases hj'
      rw [hr] at hr'
      cases hr'
      have hT := h.thr n j a _ hji hpi hti
      cases a with
      | added r => cases har
      | running r rk => cases har
      | idle =>
        obtain ⟨hprog, -, hlev, -⟩ := hT
        have hlt : j.level < s.idx.layers.length := by rw [h.env.inv.okB.tab.len]; exact hlev
        unfold Job.prog insertP at hprog
        cases hprog
        unfold LinkThread
        simp only []
        rw [if_pos hlt]
        unfold countP
        intro s1 h1 _ h2
        refine linkP_ne L hm (K := fun l => Populated s0 l ∨ l = j.level) ?_
          (h2.entry (h1.entry (hon.entry (hw.onward.entry he0)))) ?_
        · rintro l (hp | rfl)
          · exact h2.lay l (h1.lay l (hon.lay l (hw.onward.lay l hp)))
          · apply h2.lay _ (h1.lay _ _)
            show (addPoint (j.data, j.id) j.level s.idx).layer j.level ≠ []
            rw [layer_addPoint _ _ _ hlt, if_pos rfl]
            simp
        · have h3 := hw.onward.count
          have h4 := hon.count
          have h5 := h1.count
          simp only at h3 h4 h5
          omega
    · exact hw.thr n a _ r hpi hti ((hsame har).symm.trans hr) s (.refl s) hg hon
  · rw [hoth n hni] at hb
    rw [List.getElem?_set_ne (Ne.symm hni)] at ht
    exact (hw.thr n b t r hb ht hr).onward hon

theorem linkInv_step (L : P.Lawful) (hfu : N + 1 ≤ fuel) (hm : 0 < cfg.maxNb) {s0 : CSt T}
    (hB : ∀ p l e, B.link p l e → ∃ o, Stored s0.idx o ∧ o.pid = p) (he0 : s0.idx.entry ≠ none)
    (hn0 : s0.idx.nbPoint ≠ 0) {jobs : List (Job T)} {c c' : CSt T × List (Prog (CSt T) Unit)}
    (hs : Step c c') {ph : List (Phase T)} (h : SysInvB B P cfg fuel N D W s0 jobs c.1 c.2 ph)
    (hw : LinkInv s0 c.1 c.2 ph) :
    ∃ ph', SysInvB B P cfg fuel N D W s0 jobs c'.1 c'.2 ph' ∧ LinkInv s0 c'.1 c'.2 ph' := by
  cases hs with
  | mk i hi g u k hact hg =>
  obtain ⟨ph', h', hoth, -, hmine⟩ := sysInv_stepAt L hfu hB hi hact hg h
  exact ⟨ph', h', linkInv_stepAt L hm he0 hn0 hi hact hg h hw hoth hmine⟩

theorem linkInv_steps (L : P.Lawful) (hfu : N + 1 ≤ fuel) (hm : 0 < cfg.maxNb) {s0 : CSt T}
    (hB : ∀ p l e, B.link p l e → ∃ o, Stored s0.idx o ∧ o.pid = p) (he0 : s0.idx.entry ≠ none)
    (hn0 : s0.idx.nbPoint ≠ 0) {jobs : List (Job T)} {c c' : CSt T × List (Prog (CSt T) Unit)}
    (hs : Steps c c') {ph : List (Phase T)} (h : SysInvB B P cfg fuel N D W s0 jobs c.1 c.2 ph)
    (hw : LinkInv s0 c.1 c.2 ph) :
    ∃ ph', SysInvB B P cfg fuel N D W s0 jobs c'.1 c'.2 ph' ∧ LinkInv s0 c'.1 c'.2 ph' := by
  induction hs with
  | refl => exact ⟨ph, h, hw⟩
  | step _ hstep ih =>
    obtain ⟨ph1, h1, hw1⟩ := ih
    exact linkInv_step L hfu hm hB he0 hn0 hstep h1 hw1

/-- What is known of a finished batch started on an index with an entry point. -/
theorem Exec.linkedB (L : P.Lawful) (hm : 0 < cfg.maxNb) {c0 : CSt T} (h : GoodCB B cfg c0) (hB : B.Owned c0.idx)
    (he0 : c0.idx.entry ≠ none) (hn0 : c0.idx.nbPoint ≠ 0) {jobs : List (Job T)}
    (hl : ∀ j ∈ jobs, j.level < cfg.maxLayer) {c : CSt T} {ts : List (Prog (CSt T) Unit)}
    (he : Exec P cfg c0 jobs c ts) :
    ∃ refs : List (Option (Ref T)), refs.length = jobs.length ∧
      c.idx.points.Perm (c0.idx.points ++ refs.filterMap id) ∧
      ∀ (i : Nat) j t, jobs[i]? = some j → ts[i]? = some t →
        (∀ r, refs[i]? = some (some r) → IsRef j r) ∧
        (t = .ret () → ∃ r, refs[i]? = some (some r) ∧ ∀ l ≤ j.level, c0.idx.layer l ≠ [] ∨ l = j.level →
          c.idx.nb r.pid l ≠ []) := by
  have hi := sysInv_init (P := P) h.inv h.held hl (fun j hj => ⟨j, hj, rfl⟩) (D := fun _ => True) (by simp) (by simp)
    (N := c0.idx.points.length + jobs.length) (fuel := c0.idx.points.length + jobs.length + 2)
    (W := fun l => ∃ j ∈ jobs, j.level = l) (Nat.le_refl _)
  obtain ⟨ph, hS, hw⟩ := linkInv_steps (c' := (c, ts)) L (by omega) hm hB he0 hn0 he hi
    ⟨by
      intro i a t r ha _ hr
      have := List.mem_of_getElem? ha
      simp only [List.mem_map] at this
      obtain ⟨j, -, rfl⟩ := this
      exact (nomatch hr), .refl _⟩
  simp only at hS hw
  refine ⟨ph.map Phase.ref, by simp [hS.len], ?_, ?_⟩
  · rw [List.filterMap_map]
    exact hS.perm
  · intro i j t hj ht
    have hplt : i < ph.length := by rw [hS.len]; exact (List.getElem?_eq_some_iff.1 hj).1
    have hT := hS.thr i j _ _ hj (List.getElem?_eq_getElem hplt) ht
    have hw' := fun r => hw.thr i _ t r (List.getElem?_eq_getElem hplt) ht
    rw [List.getElem?_map, List.getElem?_eq_getElem hplt]
    generalize ph[i] = a at hT hw'
    cases a with
    | idle =>
      refine ⟨fun r hr => (nomatch hr), fun htr => ?_⟩
      have := hT.1
      rw [htr] at this
      unfold Job.prog insertP at this
      cases this
    | added r =>
      refine ⟨fun r' hr => (by cases hr; exact hT.2.2.1), fun htr => ?_⟩
      have := hT.1
      rw [htr] at this
      unfold countP at this
      cases this
    | running r rk =>
      refine ⟨fun r' hr => (by cases hr; exact hT.2.2), fun htr => ⟨r, rfl, fun l hlj hp => ?_⟩⟩
      have h1 := hw' r rfl
      rw [htr] at h1
      have hlv := hT.2.2.2.2
      exact h1 c (.refl c) l (by omega) (by rw [hlv]; exact hp)

end Verif
