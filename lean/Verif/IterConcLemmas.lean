import Verif.IterConc
import Verif.AccessLemmas
import Verif.DumpConcLemmas
import Verif.DumpFiles

set_option autoImplicit false

/-! # An iteration running at the same time as insertions: lemmas -/

namespace Verif
variable {T : Type} {P : Policy T} {cfg : Cfg T}

/-- the insertions are not influenced by the iteration -/
theorem ISteps.steps {a b : ISys T} (h : ISteps a b) : Steps (a.st, a.ins) (b.st, b.ins) := by
  induction h with
  | refl => exact .refl _
  | step _ hs ih =>
    cases hs with
    | ins h _ => exact .step ih h
    | _ => exact ih

theorem ISteps.trans {a b c : ISys T} (h : ISteps a b) (h' : ISteps b c) : ISteps a c := by
  induction h' with
  | refl => exact h
  | step _ hs ih => exact .step ih hs

theorem IExec.exec {c0 : CSt T} {jobs : List (Job T)} {m : ISys T} (h : IExec P cfg c0 jobs m) :
    Exec P cfg c0 jobs m.st m.ins := ISteps.steps h

/-- the level of the entry point never decreases -/
theorem sysInv_entry {B : Base T} {fuel N : Nat} {D : List T → Prop} {W : Nat → Prop} {s0 : CSt T} {jobs : List (Job T)}
    {c c' : CSt T × List (Prog (CSt T) Unit)} (hs : Step c c') {ph : List (Phase T)}
    (h : SysInvB B P cfg fuel N D W s0 jobs c.1 c.2 ph) {e : Ref T} (he : c.1.idx.entry = some e) :
    ∃ e', c'.1.idx.entry = some e' ∧ e.pid.layer ≤ e'.pid.layer := by
  cases hs with
  | mk i hi g u k hact hg =>
  rename_i s ts
  simp only at h he ⊢
  have hti : ts[i]? = some (.act g u k) := by rw [List.getElem?_eq_getElem hi, hact]
  have hilt : i < jobs.length := h.tlen ▸ hi
  have hji : jobs[i]? = some jobs[i] := List.getElem?_eq_getElem hilt
  have hplt : i < ph.length := by rw [h.len]; exact hilt
  have hpi : ph[i]? = some ph[i] := List.getElem?_eq_getElem hplt
  generalize jobs[i] = j at hji
  generalize ph[i] = a at hpi
  have hT := h.thr i j a _ hji hpi hti
  cases a with
  | idle =>
    obtain ⟨hprog, -, hlev, -⟩ := hT
    unfold Job.prog insertP at hprog
    cases hprog
    exact ⟨e, he, Nat.le_refl _⟩
  | added r =>
    obtain ⟨hprog, -⟩ := hT
    unfold countP at hprog
    cases hprog
    exact ⟨e, he, Nat.le_refl _⟩
  | running r rk =>
    obtain ⟨hsafe, -⟩ := hT
    obtain ⟨hG, -⟩ := (hsafe s h.env (Rel.refl _ _ _)).2 hg
    exact (hG.others ⟨r.pid.layer + 1, r.pid.rank⟩ (by
      intro hh
      have := congrArg PointId.layer hh
      simp at this)).entry e he

/-- one call of `next`, for any entry point of the table -/
theorem iterNext_any {s : Idx T} {m : Nat} (ht : TableOK m s) {e : Ref T} (he : s.entry = some e)
    (hel : e.pid.layer < s.layers.length) {pos : IterPos}
    {l r : Nat} (hp : pos.getD (0, 0) = (l, r)) (hl : l < s.layers.length) :
    (∃ p ps l' r', remaining s l r = p :: ps ∧ iterNext s pos = .ok (some p, some (l', r')) ∧
      l' < s.layers.length ∧ remaining s l' r' = ps) ∨
    (∃ pos', iterNext s pos = .ok (none, pos') ∧ ∀ p ∈ remaining s l r, e.pid.layer < p.pid.layer) := by
  have hlay : s.layers[l]? = some (s.layer l) := by
    unfold Idx.layer; rw [List.getElem?_eq_getElem hl]; rfl
  have hnext : ∀ o, (s.layer l)[r]? = o → iterNext s pos = (match o with
      | some p => .ok (some p, some (l, r + 1))
      | none => match skipEmpty s (e.pid.layer + 1 - (l + 1)) (l + 1) with
        | .error x => .error x
        | .ok l' =>
          if l' ≤ e.pid.layer then
            match s.layers[l']? with
            | none => .error .index
            | some layer' =>
              match layer'[0]? with
              | none => .error .index
              | some p => .ok (some p, some (l', 1))
          else .ok (none, some (l', 0))) := by
    intro o ho
    unfold iterNext
    rw [hp]
    simp only [hlay, ho, he]
    cases o <;> rfl
  have habove : ∀ k, e.pid.layer < k → ∀ p ∈ (s.layers.drop k).flatten, e.pid.layer < p.pid.layer := by
    intro k hk x hx
    obtain ⟨v, hv, hx⟩ := List.mem_flatten.1 hx
    obtain ⟨i, hi⟩ := List.getElem?_of_mem hv
    rw [List.getElem?_drop] at hi
    obtain ⟨j, hj⟩ := List.getElem?_of_mem hx
    have h2 := ht.ids (k + i) j x (by unfold Idx.layer; rw [hi]; exact hj)
    rw [h2]
    show e.pid.layer < k + i
    omega
  cases hr : (s.layer l)[r]? with
  | some p0 =>
    have hlt := (List.getElem?_eq_some_iff.1 hr).1
    have hrem : remaining s l r = p0 :: remaining s l (r + 1) := by
      unfold remaining
      rw [List.drop_eq_getElem_cons hlt, (List.getElem?_eq_some_iff.1 hr).2]
      rfl
    exact .inl ⟨p0, _, l, r + 1, hrem, by rw [hnext _ hr], hl, rfl⟩
  | none =>
    have hge : (s.layer l).length ≤ r := by simpa using hr
    have hrem : remaining s l r = (s.layers.drop (l + 1)).flatten := by
      unfold remaining; rw [List.drop_eq_nil_of_le hge]; rfl
    by_cases hle : l + 1 ≤ e.pid.layer + 1
    · obtain ⟨l', h1, h2, h3, h4, h5⟩ := skipEmpty_spec s (e.pid.layer + 1 - (l + 1)) (l + 1)
        (by omega)
      by_cases hl' : l' ≤ e.pid.layer
      · have hne := h5 (by omega)
        have hlt' : l' < s.layers.length := by omega
        have hly : s.layers[l']? = some (s.layer l') := by
          unfold Idx.layer; rw [List.getElem?_eq_getElem hlt']; rfl
        cases hv : s.layer l' with
        | nil => exact absurd hv hne
        | cons a as =>
          have hrem' : remaining s l r = a :: remaining s l' 1 := by
            rw [hrem, h4, List.drop_eq_getElem_cons hlt']
            have : s.layers[l'] = a :: as := by
              rw [List.getElem?_eq_getElem hlt', hv] at hly
              exact Option.some.inj hly
            rw [this]
            unfold remaining
            rw [hv]
            rfl
          refine .inl ⟨a, _, l', 1, hrem', ?_, hlt', rfl⟩
          rw [hnext _ hr]
          simp only [h1, if_pos hl', hly, hv]
          rfl
      · right
        refine ⟨some (l', 0), ?_, ?_⟩
        · rw [hnext _ hr]
          simp only [h1, if_neg hl']
        · rw [hrem, h4]; exact habove l' (by omega)
    · have h0 : e.pid.layer + 1 - (l + 1) = 0 := by omega
      right
      refine ⟨some (l + 1, 0), ?_, ?_⟩
      · rw [hnext _ hr, h0]
        simp only [skipEmpty]
        rw [if_neg (by omega)]
      · rw [hrem]; exact habove _ (by omega)

theorem remaining_layers {s s' : Idx T} (h : s'.layers = s.layers) (l r : Nat) :
    remaining s' l r = remaining s l r := by
  unfold remaining Idx.layer
  rw [h]

/-- without an entry point `next` does not return `None`, and yields the points of layer 0 in order -/
theorem iterNext_none {s : Idx T} (he : s.entry = none) {pos : IterPos}
    {l r : Nat} (hp : pos.getD (0, 0) = (l, r)) (hl : l < s.layers.length) :
    (∃ p ps l' r', remaining s l r = p :: ps ∧ iterNext s pos = .ok (some p, some (l', r')) ∧
      l' < s.layers.length ∧ remaining s l' r' = ps) ∨
    iterNext s pos = .error .unwrapNone := by
  have hlay : s.layers[l]? = some (s.layer l) := by
    unfold Idx.layer; rw [List.getElem?_eq_getElem hl]; rfl
  cases hr : (s.layer l)[r]? with
  | some p0 =>
    have hlt := (List.getElem?_eq_some_iff.1 hr).1
    have hrem : remaining s l r = p0 :: remaining s l (r + 1) := by
      unfold remaining
      rw [List.drop_eq_getElem_cons hlt, (List.getElem?_eq_some_iff.1 hr).2]
      rfl
    refine .inl ⟨p0, _, l, r + 1, hrem, ?_, hl, rfl⟩
    unfold iterNext
    rw [hp]
    simp only [hlay, hr]
  | none =>
    right
    unfold iterNext
    rw [hp]
    simp only [hlay, hr, he]

/-- invariant of an iteration -/
def IterOK (c0 : CSt T) (m : ISys T) : Prop :=
  match m.it with
  | .start => True
  | .live s0 pos out => m.st.idx.layers = s0.layers ∧ (∀ p, Stored c0.idx p → Stored s0 p) ∧
      (∀ e, c0.idx.entry = some e → ∃ e', s0.entry = some e' ∧ e.pid.layer ≤ e'.pid.layer) ∧
      (∀ e, s0.entry = some e → ∃ e', m.st.idx.entry = some e' ∧ e.pid.layer ≤ e'.pid.layer) ∧
      (s0.points.map (·.pid)).Nodup ∧
      ∃ l r, pos.getD (0, 0) = (l, r) ∧ l < s0.layers.length ∧ out ++ remaining s0 l r = s0.points
  | .ended s0 out => (∀ p, Stored c0.idx p → Stored s0 p) ∧
      (∀ e, c0.idx.entry = some e → ∃ e', s0.entry = some e' ∧ e.pid.layer ≤ e'.pid.layer) ∧
      (s0.points.map (·.pid)).Nodup ∧ (∀ p, Stored s0 p → Stored m.st.idx p) ∧
      ∃ rest, out ++ rest = s0.points ∧
        ∀ e, s0.entry = some e → ∀ p ∈ rest, e.pid.layer < p.pid.layer
  | .failed _ => c0.idx.entry = none

theorem iterOKB {B : Base T} (L : P.Lawful) {c0 : CSt T} (h : GoodCB B cfg c0) (hB : B.Owned c0.idx) (hm : 0 < cfg.maxLayer) {jobs : List (Job T)}
    (hl : ∀ j ∈ jobs, j.level < cfg.maxLayer) {m : ISys T} (he : IExec P cfg c0 jobs m) :
    IterOK c0 m := by
  unfold IExec at he
  generalize hm0 : (⟨c0, jobs.map (Job.prog P cfg (c0.idx.points.length + jobs.length + 2)), .start⟩ :
    ISys T) = m0 at he
  induction he with
  | refl => subst hm0; trivial
  | @step b c hb hs ih =>
    have hex : Exec P cfg c0 jobs b.st b.ins := IExec.exec (m := b) (by rw [IExec, hm0]; exact hb)
    have hf := Exec.factsB L h hB hl hex (fun _ => True) (fun _ _ => trivial) (fun _ _ => trivial)
    cases hs with
    | @ins s s' ts ts' i hst hlay =>
      obtain ⟨ph, hi⟩ := Exec.invB L h hB hl hex (fun _ => True) (fun _ _ => trivial) (fun _ _ => trivial)
      have hmono := (sysInv_mono (c := (s, ts)) (c' := (s', ts')) hst hi).stored
      cases i with
      | start => trivial
      | live s0 pos out =>
        obtain ⟨i1, i2, i3, i4, i5⟩ := ih
        refine ⟨(hlay rfl).trans i1, i2, i3, ?_, i5⟩
        intro e hee
        obtain ⟨e1, h1, h2⟩ := i4 e hee
        obtain ⟨e2, h3, h4⟩ := sysInv_entry (c := (s, ts)) (c' := (s', ts')) hst hi h1
        exact ⟨e2, h3, by omega⟩
      | ended s0 out =>
        obtain ⟨i1, i2, i3, i4, i5⟩ := ih
        exact ⟨i1, i2, i3, fun p hp => hmono p (i4 p hp), i5⟩
      | failed e => exact ih
    | @new s ts =>
      refine ⟨rfl, hf.old, hf.entry, fun e he => ⟨e, he, Nat.le_refl _⟩, pids_points_nodup hf.ok.tab, 0, 0, rfl, ?_, ?_⟩
      · rw [hf.ok.tab.len]; exact hm
      · have h0 : 0 < s.idx.layers.length := by rw [hf.ok.tab.len]; exact hm
        unfold remaining Idx.layer Idx.points
        generalize s.idx.layers = ls at h0
        cases ls with
        | nil => cases h0
        | cons a as => simp
    | @yield s ts s0 pos pos' out p hn =>
      obtain ⟨i1, i2, i3, i4, i5, l, r, i6, i7, i8⟩ := ih
      refine ⟨i1, i2, i3, i4, i5, ?_⟩
      have hl' : l < s.idx.layers.length := by rw [i1]; exact i7
      have key : ∃ p ps l' r', remaining s.idx l r = p :: ps ∧
          iterNext s.idx pos = .ok (some p, some (l', r')) ∧
          l' < s.idx.layers.length ∧ remaining s.idx l' r' = ps := by
        cases hent : s.idx.entry with
        | none =>
          rcases iterNext_none hent i6 hl' with hk | hk
          · exact hk
          · rw [hk] at hn; cases hn
        | some e =>
          have hel : e.pid.layer < s.idx.layers.length := by
            rw [hf.ok.tab.len]; exact hf.ok.tab.layer_lt (hf.ok.entry e hent)
          rcases iterNext_any hf.ok.tab hent hel i6 hl' with hk | ⟨q, hk, -⟩
          · exact hk
          · rw [hk] at hn; cases hn
      obtain ⟨p', ps, l', r', k1, k2, k3, k4⟩ := key
      rw [k2] at hn
      cases hn
      rw [remaining_layers i1] at k1 k4
      refine ⟨l', r', rfl, by rw [← i1]; exact k3, ?_⟩
      rw [← i8, k1, k4, List.append_assoc]
      rfl
    | @stop s ts s0 pos pos' out hn =>
      obtain ⟨i1, i2, i3, i4, i5, l, r, i6, i7, i8⟩ := ih
      refine ⟨i2, i3, i5, fun p hp => (stored_layers i1 p).2 hp, _, i8, ?_⟩
      intro e hee p hp
      obtain ⟨e', h1, h2⟩ := i4 e hee
      have hl' : l < s.idx.layers.length := by rw [i1]; exact i7
      have hel : e'.pid.layer < s.idx.layers.length := by
        rw [hf.ok.tab.len]; exact hf.ok.tab.layer_lt (hf.ok.entry e' h1)
      rcases iterNext_any hf.ok.tab h1 hel i6 hl' with ⟨_, _, _, _, -, hk, -⟩ | ⟨q, -, hk⟩
      · rw [hk] at hn; cases hn
      · have := hk p (by rw [remaining_layers i1]; exact hp)
        omega
    | @fail s ts s0 pos out e hn =>
      obtain ⟨i1, i2, i3, i4, i5, l, r, i6, i7, i8⟩ := ih
      show c0.idx.entry = none
      cases h0 : c0.idx.entry with
      | none => rfl
      | some e0 =>
        obtain ⟨e1, h1, -⟩ := i3 e0 h0
        obtain ⟨e2, h2, -⟩ := i4 e1 h1
        have hl' : l < s.idx.layers.length := by rw [i1]; exact i7
        have hel : e2.pid.layer < s.idx.layers.length := by
          rw [hf.ok.tab.len]; exact hf.ok.tab.layer_lt (hf.ok.entry e2 h2)
        rcases iterNext_any hf.ok.tab h2 hel i6 hl' with ⟨_, _, _, _, -, hk, -⟩ | ⟨q, hk, -⟩
        · rw [hk] at hn; cases hn
        · rw [hk] at hn; cases hn

theorem iterOK (L : P.Lawful) {c0 : CSt T} (h : GoodC cfg c0) (hm : 0 < cfg.maxLayer) {jobs : List (Job T)}
    (hl : ∀ j ∈ jobs, j.level < cfg.maxLayer) {m : ISys T} (he : IExec P cfg c0 jobs m) :
    IterOK c0 m := iterOKB L h (Base.owned_none _) hm hl he

/-! ## Running a schedule -/

/-- the next action of the iteration -/
def iterAct (s : CSt T) : IterSt T → Option (IterSt T)
  | .start => some (.live s.idx none [])
  | .live s0 pos out =>
    match iterNext s.idx pos with
    | .ok (some p, pos') => some (.live s0 pos' (out ++ [p]))
    | .ok (none, _) => some (.ended s0 out)
    | .error e => some (.failed e)
  | .ended .. => none
  | .failed _ => none

theorem iterAct_step {s : CSt T} {ts : List (Prog (CSt T) Unit)} {i i' : IterSt T} (h : iterAct s i = some i') :
    IStep ⟨s, ts, i⟩ ⟨s, ts, i'⟩ := by
  cases i with
  | start => cases h; exact .new
  | live s0 pos out =>
    simp only [iterAct] at h
    split at h
    · rename_i hn; cases h; exact .yield hn
    · rename_i hn; cases h; exact .stop hn
    · rename_i hn; cases h; exact .fail hn
  | ended => cases h
  | failed => cases h

/-- run a schedule: `none` is the iteration, `some i` the insertion `i` -/
def runIter [DecidableEq T] : List (Option Nat) → ISys T → Option (ISys T)
  | [], m => some m
  | none :: is, m => (iterAct m.st m.it).bind fun i => runIter is ⟨m.st, m.ins, i⟩
  | some i :: is, m =>
    match runSched [i] (m.st, m.ins) with
    | some (s, ts) =>
      if m.it.holds = true → s.idx.layers = m.st.idx.layers then runIter is ⟨s, ts, m.it⟩ else none
    | none => none

theorem runIter_steps [DecidableEq T] : ∀ (is : List (Option Nat)) (m m' : ISys T),
    runIter is m = some m' → ISteps m m' := by
  intro is
  induction is with
  | nil => intro m m' h; cases h; exact .refl _
  | cons x is ih =>
    intro m m' h
    obtain ⟨s0, ts0, d0⟩ := m
    cases x with
    | none =>
      simp only [runIter, Option.bind_eq_some_iff] at h
      obtain ⟨d, hd, h⟩ := h
      exact (ISteps.step (.refl _) (iterAct_step hd)).trans (ih _ _ h)
    | some i =>
      simp only [runIter] at h
      split at h
      · rename_i s ts hr
        split at h
        · rename_i hl
          exact (ISteps.step (.refl _) (.ins (runSched_one hr) hl)).trans (ih _ _ h)
        · cases h
      · cases h

end Verif
