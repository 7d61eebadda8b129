import Verif.SearchConc
import Verif.Examples

set_option autoImplicit false

/-!
# Executions with searches: lemmas and concrete cases
-/

namespace Verif
variable {T : Type} {P : Policy T} {cfg : Cfg T}

/-! ## Concrete mixed executions -/

/-- run a schedule: `(true, i)` is a step of insertion thread `i`, `(false, i)` of search thread `i` -/
def runMixed : List (Bool × Nat) → Mixed T → Option (Mixed T)
  | [], m => some m
  | (b, i) :: is, m =>
    if b then
      match runSched [i] (m.st, m.ins) with
      | some (s, ts) => runMixed is ⟨s, ts, m.srch⟩
      | none => none
    else
      match runSched [i] (m.st, m.srch) with
      | some (s, us) => runMixed is ⟨s, m.ins, us⟩
      | none => none

theorem runSched_one {σ α : Type} {i : Nat} {c c' : σ × List (Prog σ α)}
    (h : runSched [i] c = some c') : Step c c' := by
  obtain ⟨s, ts⟩ := c
  simp only [runSched] at h
  split at h
  · rename_i g u k hk
    obtain ⟨hi, hk⟩ := List.getElem?_eq_some_iff.1 hk
    split at h
    · cases h
      exact .mk i hi g u k hk (by assumption)
    · cases h
  · cases h

theorem MSteps.trans {a b c : Mixed T} (h : MSteps a b) (h' : MSteps b c) : MSteps a c := by
  induction h' with
  | refl => exact h
  | step _ hs ih => exact .step ih hs

theorem runMixed_steps : ∀ (is : List (Bool × Nat)) (m m' : Mixed T), runMixed is m = some m' →
    MSteps m m' := by
  intro is
  induction is with
  | nil => intro m m' h; cases h; exact .refl _
  | cons x is ih =>
    intro m m' h
    obtain ⟨b, i⟩ := x
    obtain ⟨s0, ts0, us0⟩ := m
    simp only [runMixed] at h
    split at h
    · split at h
      · rename_i s ts hr
        exact (MSteps.step (.refl _) (.ins (runSched_one hr))).trans (ih _ _ h)
      · cases h
    · split at h
      · rename_i s ts hr
        exact (MSteps.step (.refl _) (.srch (runSched_one hr))).trans (ih _ _ h)
      · cases h

/-- ids answered by a search thread that has returned -/
def answered : Prog (CSt Nat) (List Neighbour) → Option (List Nat)
  | .ret ns => some (ns.map (·.dId.toNat))
  | _ => none

/-- the state reached by a schedule of the insertions `jobs` and the searches `reqs` -/
def exMixed (c0 : CSt Nat) (m : Nat) (jobs : List (Job Nat)) (reqs : List (Req Nat))
    (sched : List (Bool × Nat)) : Option (Mixed Nat) :=
  runMixed sched ⟨c0,
    jobs.map (Job.prog (listPolicy Nat) (exCfg m) (c0.idx.points.length + jobs.length + 2)),
    reqs.map (Req.prog (listPolicy Nat) (exCfg m) (c0.idx.points.length + jobs.length + 2))⟩

theorem exMixed_exec {c0 : CSt Nat} {k : Nat} {jobs : List (Job Nat)} {reqs : List (Req Nat)}
    {sched : List (Bool × Nat)} {m : Mixed Nat} (h : exMixed c0 k jobs reqs sched = some m) :
    MExec (listPolicy Nat) (exCfg k) c0 jobs reqs m := runMixed_steps _ _ _ h

/-- an index of four points, two of them linked to 14 in the bottom layer -/
def exQuad : CSt Nat := exSt (exCfg 1) [(14, 0), (4, 0), (3, 0), (24, 0)]

theorem exQuad_reach : ReachC (listPolicy Nat) (exCfg 1) exQuad := exSt_reach _ _ (by decide)

/-- a search in the middle of which 13 is inserted -/
def exOverlap : List (Bool × Nat) :=
  List.replicate 5 (false, 0) ++ List.replicate 14 (true, 0) ++ List.replicate 4 (false, 0)

/-- the state reached by that execution -/
def exOverlapEnd : Option (Mixed Nat) :=
  exMixed exQuad 1 [⟨[13], 13, 0⟩] [⟨[11], 6, 6, none⟩] exOverlap

theorem exOverlap_answer :
    exOverlapEnd.map (fun m => (m.srch.map answered, m.ins.map isRet)) =
      some ([some [13, 14, 4, 3, 24]], [true]) := by decide +kernel

/-! ## Invariants -/

/-- the vectors an execution deals with -/
def Dealt (c0 : CSt T) (jobs : List (Job T)) (d : List T) : Prop :=
  (∃ v, Stored c0.idx v ∧ v.data = d) ∨ ∃ j ∈ jobs, j.data = d

theorem mexec_inv (L : P.Lawful) (hml : cfg.maxLayer ≤ 256) {c0 : CSt T} (h : ReachC P cfg c0)
    (ext kp : Bool) {jobs : List (Job T)} {reqs : List (Req T)}
    (hl : ∀ j ∈ jobs, j.level < cfg.maxLayer) {m : Mixed T}
    (he : MExec P (cfg.withFlags ext kp) c0 jobs reqs m) :
    (∃ ph, SysInv P (cfg.withFlags ext kp) (c0.idx.points.length + jobs.length + 2)
      (c0.idx.points.length + jobs.length) (Dealt c0 jobs) (fun l => ∃ j ∈ jobs, j.level = l) c0 jobs
      m.st m.ins ph) ∧
    SrchOK Base.none (cfg.withFlags ext kp) (c0.idx.points.length + jobs.length) (Dealt c0 jobs) c0 reqs m.srch
      m.st :=
  MExec.inv (cfg := cfg.withFlags ext kp) L hml (goodC_flags.2 (h.goodC L)) hl he _ (fun v hv => Or.inl ⟨v, hv, rfl⟩)
    (fun j hj => Or.inr ⟨j, hj, rfl⟩)

theorem mexec_answers (L : P.Lawful) (hml : cfg.maxLayer ≤ 256) {c0 : CSt T} (h : ReachC P cfg c0)
    (ext kp : Bool) {jobs : List (Job T)} {reqs : List (Req T)}
    (hl : ∀ j ∈ jobs, j.level < cfg.maxLayer) {m : Mixed T}
    (he : MExec P (cfg.withFlags ext kp) c0 jobs reqs m) {i : Nat} {r : Req T} {ns : List Neighbour}
    (hr : reqs[i]? = some r) (hn : m.srch[i]? = some (.ret ns)) :
    Answers (cfg.withFlags ext kp) (Dealt c0 jobs) r ns m.st ∧ (c0.idx.entry ≠ none →
        Fine (cfg.withFlags ext kp) (Dealt c0 jobs) r.query (max r.ef r.knbn) r.filt →
        1 ≤ r.knbn → ns ≠ []) := by
  obtain ⟨⟨ph, hS⟩, -, hU⟩ := mexec_inv L hml h ext kp hl he
  exact (hU i r _ hr hn).2 m.st hS.env (Mono.refl _)

/-! ## Termination -/

/-- every step shortens a program -/
theorem mstep_wf : WellFounded (fun (b a : Mixed T) => MStep a b) := by
  constructor
  rintro ⟨s, ts, us⟩
  induction ts using (step_list_wf (σ := CSt T) (α := Unit)).induction generalizing s us with
  | h ts iht =>
  induction us using (step_list_wf (σ := CSt T) (α := List Neighbour)).induction generalizing s with
  | h us ihu =>
  constructor
  intro b hb
  cases hb with
  | ins hs => exact iht _ ⟨_, _, hs⟩ _ _
  | srch hs => exact ihu _ ⟨_, _, hs⟩ _

/-! ## A thread running alone -/

/-- one action of a thread running alone -/
def advance {σ α : Type} : σ × Prog σ α → σ × Prog σ α
  | (s, .act g u k) => if g s then (u s, k s) else (s, .act g u k)
  | (s, t) => (s, t)

/-- the states of a thread running alone, `n` of them after the first -/
def advances {σ α : Type} : Nat → σ × Prog σ α → List (σ × Prog σ α)
  | 0, c => [c]
  | n + 1, c => c :: advances n (advance c)

/-- the last of these states, `n` actions after the first -/
def advanced {σ α : Type} : Nat → σ × Prog σ α → σ × Prog σ α
  | 0, c => c
  | n + 1, c => advanced n (advance c)

/-- no action is left -/
def stopped {σ α : Type} : Prog σ α → Bool
  | .act .. => false
  | _ => true

theorem advance_mem {σ α : Type} {n : Nat} {c : σ × Prog σ α}
    (hst : stopped (advanced n c).2 = true) {x : σ × Prog σ α} (hx : x ∈ advances n c) :
    advance x ∈ advances n c := by
  induction n generalizing c with
  | zero =>
    simp only [advances, List.mem_singleton] at hx
    subst hx
    obtain ⟨s, t⟩ := x
    cases t with
    | act => cases hst
    | ret a => simp [advance, advances]
    | fail e => simp [advance, advances]
  | succ n ih =>
    simp only [advances, List.mem_cons] at hx
    rcases hx with rfl | hx
    · simp only [advances, List.mem_cons]
      right
      cases n <;> simp [advances]
    · exact List.mem_cons_of_mem _ (ih hst hx)

/-- the executions of a single thread go through these states only -/
theorem steps_alone {σ α : Type} {n : Nat} {s0 : σ} {t0 : Prog σ α} {c : σ × List (Prog σ α)}
    (h : Steps (s0, [t0]) c) (hst : stopped (advanced n (s0, t0)).2 = true) :
    ∃ t, c.2 = [t] ∧ (c.1, t) ∈ advances n (s0, t0) := by
  generalize hc0 : (s0, [t0]) = c0 at h
  induction h with
  | refl => subst hc0; exact ⟨t0, rfl, by cases n <;> simp [advances]⟩
  | step _ hs ih =>
    obtain ⟨t, ht, hm⟩ := ih
    cases hs with
    | mk i hi g u k hact hg =>
      rename_i s ts _
      simp only at ht hm
      subst ht
      have h0 : i = 0 := by simp at hi; exact hi
      subst h0
      simp only [List.getElem_cons_zero] at hact
      subst hact
      have := advance_mem hst hm
      simp only [advance, hg, if_true] at this
      exact ⟨k s, by simp, this⟩

/-- the ids answered by a search alone on the index, `[]` if it panics -/
def soloIds (c : CSt Nat) : List Nat :=
  match searchFilter (listPolicy Nat) (exCfg 1) c.idx [11] 6 6 none with
  | .ok ns => ns.map (·.dId.toNat)
  | .error _ => []

/-! ## Task-fair locks -/

/-- the thread waits for a lock -/
def Blocked {α : Type} (s : CSt T) : Prog (CSt T) α → Prop
  | .act g _ _ => g s = false
  | _ => False

/-- A step that is possible even if no read lock is granted as long as some thread waits for a write lock.
(`parking_lot` refuses them only for the very lock that is waited for, so that it allows more.) -/
inductive FairStep : Mixed T → Mixed T → Prop
  | ins {m : Mixed T} (i : Nat) {g u k} (hi : m.ins[i]? = some (.act g u k)) (hg : g m.st = true)
      (hd : Delayable g u → ∀ t ∈ m.ins, ¬ Blocked m.st t) :
      FairStep m ⟨u m.st, m.ins.set i (k m.st), m.srch⟩
  | srch {m : Mixed T} (i : Nat) {g u k} (hi : m.srch[i]? = some (.act g u k)) (hg : g m.st = true)
      (hd : Delayable g u → ∀ t ∈ m.ins, ¬ Blocked m.st t) :
      FairStep m ⟨u m.st, m.ins, m.srch.set i (k m.st)⟩

/-- any number of them -/
inductive FairSteps : Mixed T → Mixed T → Prop
  | refl (m) : FairSteps m m
  | step {a b c} : FairStep a b → FairSteps b c → FairSteps a c

theorem FairStep.mstep {m m' : Mixed T} (h : FairStep m m') : MStep m m' := by
  cases h with
  | ins i hi hg =>
    obtain ⟨h1, h2⟩ := List.getElem?_eq_some_iff.1 hi
    exact .ins (.mk i h1 _ _ _ h2 hg)
  | srch i hi hg =>
    obtain ⟨h1, h2⟩ := List.getElem?_eq_some_iff.1 hi
    exact .srch (.mk i h1 _ _ _ h2 hg)

end Verif
