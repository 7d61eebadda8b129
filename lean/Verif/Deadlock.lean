import Verif.ExecLemmas
import Verif.Sections

set_option autoImplicit false

/-!
# Threads that wait for each other for ever

Lemmas for `Props/Deadlock.lean`: an execution of some of the threads of a system is an execution of the
system; the bound on the iterations of the loops does not matter; and threads that wait for each other still
do after whatever the other threads have done.
-/

namespace Verif
variable {T : Type} {α β : Type}

/-- a guard that stays closed when more guards are held -/
def Closing (g : CSt T → Bool) : Prop :=
  ∀ s s' : CSt T, (∀ q ∈ s.held, q ∈ s'.held) → g s = false → g s' = false

theorem closing_true : Closing (T := T) (fun _ => true) := fun _ _ _ h => h

theorem closing_held (q : PointId) : Closing (T := T) (fun s => decide (q ∉ s.held)) := by
  intro s s' h hg
  simp only [decide_eq_false_iff_not, Classical.not_not] at hg ⊢
  exact h q hg

/-- The second program does what the first one does, unless the first one has run out of fuel; its guards
are closing. -/
def Refuel : Prog (CSt T) α → Prog (CSt T) α → Prop
  | .ret a, t => t = .ret a
  | .fail e, t => e = .fuel ∨ t = .fail e
  | .act g u k, t => Closing g ∧ ∃ k', t = .act g u k' ∧ ∀ s, Refuel (k s) (k' s)

theorem Refuel.ret (a : α) : Refuel (T := T) (.ret a) (.ret a) := rfl

theorem Refuel.fail (e : Panic) : Refuel (T := T) (α := α) (.fail e) (.fail e) := Or.inr rfl

theorem Refuel.act {g : CSt T → Bool} {u : CSt T → CSt T} {k k' : CSt T → Prog (CSt T) α} (hg : Closing g)
    (h : ∀ s, Refuel (k s) (k' s)) : Refuel (.act g u k) (.act g u k') := ⟨hg, k', rfl, h⟩

theorem Refuel.read {k k' : CSt T → Prog (CSt T) α} (h : ∀ s, Refuel (k s) (k' s)) :
    Refuel (.read k) (.read k') := .act closing_true h

theorem Refuel.ofExcept {x : Except Panic β} {f f' : β → Prog (CSt T) α} (h : ∀ b, Refuel (f b) (f' b)) :
    Refuel (.ofExcept x f) (.ofExcept x f') := by
  cases x with
  | error e => exact .fail e
  | ok b => exact h b

theorem Refuel.bind {t t' : Prog (CSt T) α} {f f' : α → Prog (CSt T) β} (ht : Refuel t t')
    (hf : ∀ a, Refuel (f a) (f' a)) : Refuel (t.bind f) (t'.bind f') := by
  induction t generalizing t' with
  | ret a =>
    cases ht
    exact hf a
  | fail e =>
    rcases ht with rfl | rfl
    · exact Or.inl rfl
    · exact .fail e
  | act g u k ih =>
    obtain ⟨h1, k', rfl, h2⟩ := ht
    exact .act h1 fun s => ih s (h2 s)

variable {P : Policy T} {cfg : Cfg T}

theorem loopP_refuel (q : List T) (ef layer n m : Nat) (hnm : n ≤ m) (st : SL P) :
    Refuel (loopP P cfg q ef layer n st) (loopP P cfg q ef layer m st) := by
  induction n generalizing st m with
  | zero => exact Or.inl rfl
  | succ n ih =>
    obtain ⟨m, rfl⟩ : ∃ m', m = m' + 1 := ⟨m - 1, by omega⟩
    unfold loopP
    cases head P ef none st with
    | panic e => exact .fail e
    | done h => exact .ret h
    | expand c st' =>
      refine .read fun s => ?_
      split
      · exact .fail _
      · exact .ret _
      · exact ih m (by omega) _

theorem searchLayerP_refuel {n m : Nat} (hnm : n ≤ m) (q : List T) (ep : Ref T) (ef layer : Nat) :
    Refuel (searchLayerP P cfg n q ep ef layer) (searchLayerP P cfg m q ep ef layer) := by
  unfold searchLayerP
  refine .read fun s => ?_
  split
  · exact .fail _
  · exact .ret _
  · exact loopP_refuel _ _ _ _ _ hnm _

theorem extendP_refuel (layer : Nat) (cands todo acc : List (Ref T)) :
    Refuel (extendP layer cands todo acc) (extendP layer cands todo acc) := by
  induction todo generalizing acc with
  | nil => exact .ret _
  | cons x xs ih =>
    unfold extendP
    exact .read fun s => ih _

theorem selectP_refuel (r : Ref T) (cands : P.H) (asked : Nat) (ext : Bool) (layer : Nat) (kp : Bool) :
    Refuel (selectP P cfg r cands asked ext layer kp) (selectP P cfg r cands asked ext layer kp) := by
  unfold selectP
  split
  · exact .ofExcept fun _ => .ret _
  · split
    · exact (extendP_refuel _ _ _ _).bind fun _ => .ofExcept fun _ => .ofExcept fun _ => .ret _
    · exact .ofExcept fun _ => .ret _

theorem upperP_refuel {n m : Nat} (hnm : n ≤ m) (r : Ref T) (ls : List Nat) (ep : Ref T) (d : F32) :
    Refuel (upperP P cfg n r ls ep d) (upperP P cfg m r ls ep d) := by
  induction ls generalizing ep d with
  | nil => exact .ret _
  | cons l ls ih =>
    unfold upperP
    refine (searchLayerP_refuel hnm _ _ _ _).bind fun h => ?_
    split
    · exact .fail _
    · split
      · exact ih _ _
      · have hn : ∀ e : PWO T, Refuel (if (cfg.eval r.data e.pt.data).lt d = true then
              upperP P cfg n r ls e.pt (cfg.eval r.data e.pt.data)
            else upperP P cfg n r ls ep d) (if (cfg.eval r.data e.pt.data).lt d = true then
              upperP P cfg m r ls e.pt (cfg.eval r.data e.pt.data)
            else upperP P cfg m r ls ep d) := by
          intro e
          split
          · exact ih _ _
          · exact ih _ _
        refine .read fun s => ?_
        split
        · exact .act (closing_held _) fun _ => hn _
        · exact hn _

theorem lowerP_refuel {n m : Nat} (hnm : n ≤ m) (r : Ref T) (ls : List Nat) (ep : Ref T) :
    Refuel (lowerP P cfg n r ls ep) (lowerP P cfg m r ls ep) := by
  induction ls generalizing ep with
  | nil => exact .ret _
  | cons l ls ih =>
    unfold lowerP
    refine (searchLayerP_refuel hnm _ _ _ _).bind fun h => .ofExcept fun nh => ?_
    split
    · exact ih _
    · refine (selectP_refuel _ _ _ _ _ _).bind fun v => .ofExcept fun nbrs => ?_
      refine .act (closing_held _) fun _ => ?_
      split
      · exact ih _
      · exact ih _

theorem revInner_refuel (r : Ref T) {k k' : Prog (CSt T) Unit} (hk : Refuel k k') (qs : List (PWO T)) :
    Refuel (revInner P cfg r k qs) (revInner P cfg r k' qs) := by
  induction qs with
  | nil =>
    unfold revInner
    exact .act closing_true fun _ => hk
  | cons q qs ih =>
    unfold revInner
    split
    · exact ih
    · refine .act (closing_held _) fun s => ?_
      split
      · exact .act closing_true fun _ => .fail _
      · exact ih

theorem reverseP_refuel (r : Ref T) {k k' : Prog (CSt T) Unit} (hk : Refuel k k') (ls : List Nat) :
    Refuel (reverseP P cfg r k ls) (reverseP P cfg r k' ls) := by
  induction ls with
  | nil => exact hk
  | cons l ls ih =>
    unfold reverseP
    exact .act closing_true fun s => revInner_refuel r ih _

theorem linkP_refuel {n m : Nat} (hnm : n ≤ m) (r : Ref T) (rank : Nat) :
    Refuel (linkP P cfg n r rank) (linkP P cfg m r rank) := by
  unfold linkP
  refine .read fun s => ?_
  have he : Refuel (checkEntryP r) (checkEntryP r) := .act closing_true fun _ => .ret ()
  split
  · exact he
  · split
    · exact .ret _
    · exact (upperP_refuel hnm _ _ _ _).bind fun _ => (lowerP_refuel hnm _ _ _).bind fun _ =>
        reverseP_refuel r he _

/-- the bound on the iterations of the loops does not matter -/
theorem insertP_refuel {n m : Nat} (hnm : n ≤ m) (j : Job T) :
    Refuel (j.prog P cfg n) (j.prog P cfg m) := by
  unfold Job.prog insertP
  refine .act closing_true fun s => ?_
  split
  · unfold countP
    exact .act closing_true fun s => linkP_refuel hnm _ _
  · exact .fail _

/-! ## Some of the threads of a system -/

theorem StepsBy.head {σ α : Type} {is : List Nat} {s : σ} {ts : List (Prog σ α)} {c : σ × List (Prog σ α)}
    {i : Nat} (hi : i < ts.length) {g u k} (ha : ts[i] = .act g u k) (hg : g s = true)
    (h : StepsBy is (u s, ts.set i (k s)) c) : StepsBy (i :: is) (s, ts) c := by
  generalize hx : (u s, ts.set i (k s)) = x at h
  induction h with
  | refl c =>
    subst hx
    exact StepsBy.step (is := []) i hi g u k (.refl _) ha hg
  | step j hj g' u' k' _ ha' hg' ih => exact .step (is := i :: _) j hj g' u' k' (ih hx) ha' hg'

/-- a schedule of the first system is a schedule of the second one, where thread `f n` is what thread `n`
is in the first one -/
theorem runSched_embed {f : Nat → Nat} {is : List Nat} {s : CSt T} {us ts : List (Prog (CSt T) α)}
    (hf : ∀ a < us.length, ∀ b < us.length, f a = f b → a = b)
    (hm : ∀ n t, us[n]? = some t → ∃ t', ts[f n]? = some t' ∧ Refuel t t')
    {s' : CSt T} {us' : List (Prog (CSt T) α)} (h : runSched is (s, us) = some (s', us')) :
    us'.length = us.length ∧ (∀ i ∈ is, i < us.length) ∧
    ∃ ts', StepsBy (is.map f) (s, ts) (s', ts') ∧
      ∀ n t, us'[n]? = some t → ∃ t', ts'[f n]? = some t' ∧ Refuel t t' := by
  induction is generalizing s us ts with
  | nil =>
    cases h
    exact ⟨rfl, by simp, ts, .refl _, hm⟩
  | cons i is ih =>
    unfold runSched at h
    cases hi : us[i]? with
    | none => rw [hi] at h; cases h
    | some t =>
      rw [hi] at h
      cases t with
      | ret a => cases h
      | fail e => cases h
      | act g u k =>
        simp only at h
        split at h
        · rename_i hg
          obtain ⟨t', ht', -, k', rfl, hk⟩ := hm i _ hi
          have hil := (List.getElem?_eq_some_iff.1 hi).1
          obtain ⟨hfl, hfe⟩ := List.getElem?_eq_some_iff.1 ht'
          obtain ⟨h1, h2, ts', h3, h4⟩ := ih (us := us.set i (k s)) (ts := ts.set (f i) (k' s))
            (by simpa using hf) (by
              intro n t hn
              rcases getElem?_set_cases hn with ⟨rfl, rfl, -⟩ | ⟨hne, hn⟩
              · exact ⟨_, List.getElem?_set_self hfl, hk s⟩
              · obtain ⟨t', h1, h2⟩ := hm n t hn
                refine ⟨t', ?_, h2⟩
                rw [List.getElem?_set_ne]
                · exact h1
                · intro he
                  exact hne (hf _ hil _ (List.getElem?_eq_some_iff.1 hn).1 he).symm) h
          simp only [List.length_set] at h1 h2
          refine ⟨h1, ?_, ts', .head hfl hfe hg h3, h4⟩
          intro j hj
          rcases List.mem_cons.1 hj with rfl | hj
          · exact hil
          · exact h2 j hj
        · cases h

/-! ## Waiting for ever -/

variable {B : Base T} {fuel N : Nat} {D : List T → Prop} {W : Nat → Prop}

/-- what stays as it is when some threads do not move -/
theorem sysInv_stepsBy (L : P.Lawful) (hfu : N + 1 ≤ fuel) {s0 : CSt T}
    (hB : ∀ p l e, B.link p l e → ∃ o, Stored s0.idx o ∧ o.pid = p) {jobs : List (Job T)} {is : List Nat}
    {c c' : CSt T × List (Prog (CSt T) Unit)} (hs : StepsBy is c c') {ph : List (Phase T)}
    (h : SysInvB B P cfg fuel N D W s0 jobs c.1 c.2 ph) :
    ∃ ph', SysInvB B P cfg fuel N D W s0 jobs c'.1 c'.2 ph' ∧
      (∀ n, n ∉ is → ph'[n]? = ph[n]? ∧ c'.2[n]? = c.2[n]?) ∧
      ∀ n r rk, n ∉ is → ph[n]? = some (.running r rk) → r.pid ∈ c.1.held → r.pid ∈ c'.1.held := by
  induction hs with
  | refl c => exact ⟨ph, h, fun _ _ => ⟨rfl, rfl⟩, fun _ _ _ _ _ h => h⟩
  | @step is a s ts i hi g u k _ ha hg ih =>
    obtain ⟨ph1, h1, h2, h3⟩ := ih h
    obtain ⟨ph2, i1, i2, i3, -⟩ := sysInv_stepAt L hfu hB hi ha hg h1
    refine ⟨ph2, i1, ?_, ?_⟩
    · intro n hn
      simp only [List.mem_append, List.mem_singleton, not_or] at hn
      refine ⟨(i2 n hn.2).trans (h2 n hn.1).1, ?_⟩
      simp only
      rw [List.getElem?_set_ne (Ne.symm hn.2)]
      exact (h2 n hn.1).2
    · intro n r rk hn hp hr
      simp only [List.mem_append, List.mem_singleton, not_or] at hn
      refine i3 _ (h3 n r rk hn.1 hp hr) fun r' rk' hp' => ?_
      exact h1.dist i n _ _ r' r (Ne.symm hn.2) hp' ((h2 n hn.1).1.trans hp) rfl rfl

/-- Some threads wait, the others have not begun: then an execution leads to a state where no thread can go
on although these are not finished. -/
theorem stuck_of_blocked (L : P.Lawful) {c0 : CSt T} (h : GoodCB B cfg c0) (hB : B.Owned c0.idx)
    {jobs : List (Job T)} (hl : ∀ j ∈ jobs, j.level < cfg.maxLayer) {c : CSt T}
    {ts : List (Prog (CSt T) Unit)} {is : List Nat}
    (he : StepsBy is (c0, jobs.map (Job.prog P cfg (c0.idx.points.length + jobs.length + 2))) (c, ts))
    (hne : is ≠ [])
    (hb : ∀ n ∈ is, ∃ g u k, ts[n]? = some (.act g u k) ∧ g c = false ∧ Closing g) :
    ∃ c' ts', Exec P cfg c0 jobs c' ts' ∧ (∃ t ∈ ts', ¬ t.Finished) ∧ ¬ ∃ x, Step (c', ts') x := by
  have h0 := sysInv_init (P := P) (fuel := c0.idx.points.length + jobs.length + 2)
    (W := fun l => ∃ j ∈ jobs, j.level = l) (D := fun _ => True) h.inv h.held hl
    (fun j hj => ⟨j, hj, rfl⟩) (fun _ _ => trivial) (fun _ _ => trivial) (Nat.le_refl _)
  obtain ⟨ph, hS, hph, -⟩ := sysInv_stepsBy L (by omega) hB he h0
  -- the guards belong to the waiting threads
  have hown : ∀ q ∈ c.held, ∃ n ∈ is, ∃ r rk, ph[n]? = some (.running r rk) ∧ r.pid = q := by
    intro q hq
    obtain ⟨n, r, rk, hn, hr⟩ := hS.held q hq
    refine ⟨n, Classical.byContradiction fun hni => ?_, r, rk, hn, hr⟩
    rw [(hph n hni).1, List.getElem?_map] at hn
    cases hj : jobs[n]? <;> rw [hj] at hn <;> cases hn
  have key : ∀ x : CSt T × List (Prog (CSt T) Unit), Exec P cfg c0 jobs x.1 x.2 →
      (∃ js, (∀ n ∈ is, n ∉ js) ∧ StepsBy js (c, ts) x) →
      ∃ c' ts', Exec P cfg c0 jobs c' ts' ∧ (∃ t ∈ ts', ¬ t.Finished) ∧ ¬ ∃ x, Step (c', ts') x := by
    intro x
    induction x using step_wf.induction with
    | h x ih =>
      rintro hx ⟨js, hjs, hby⟩
      obtain ⟨ph', -, h2, h3⟩ := sysInv_stepsBy L (by omega) hB hby hS
      have hwait : ∀ n ∈ is, ∃ g u k, x.2[n]? = some (.act g u k) ∧ g x.1 = false := by
        intro n hn
        obtain ⟨g, u, k, h4, h5, h6⟩ := hb n hn
        refine ⟨g, u, k, (h2 n (hjs n hn)).2.trans h4, h6 c x.1 (fun q hq => ?_) h5⟩
        obtain ⟨m, hm, r, rk, hr, rfl⟩ := hown q hq
        exact h3 m r rk (hjs m hm) hr hq
      by_cases hst : ∃ y, Step x y
      · obtain ⟨y, hy⟩ := hst
        refine ih y hy (Steps.step hx hy) ?_
        cases hy with
        | mk i hi g u k ha hg =>
          refine ⟨js ++ [i], ?_, .step i hi g u k hby ha hg⟩
          intro n hn hm
          rcases List.mem_append.1 hm with hm | hm
          · exact hjs n hn hm
          · obtain rfl := List.mem_singleton.1 hm
            obtain ⟨g', u', k', h4, h5⟩ := hwait n hn
            simp only at h4 h5
            rw [List.getElem?_eq_getElem hi, ha] at h4
            cases h4
            rw [hg] at h5
            cases h5
      · refine ⟨x.1, x.2, hx, ?_, hst⟩
        obtain ⟨n, hn⟩ := List.exists_mem_of_ne_nil _ hne
        obtain ⟨g, u, k, h4, -⟩ := hwait n hn
        exact ⟨_, List.mem_of_getElem? h4, id⟩
  exact key (c, ts) he.steps ⟨[], by simp, .refl _⟩

end Verif
