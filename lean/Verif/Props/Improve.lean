import Verif.ImproveLemmas
import Verif.ExecLemmas
import Verif.Examples

set_option autoImplicit false

/-!
# The lists of links as time passes (C110)
-/

namespace Verif
variable {T : Type} {P : Policy T} {cfg : Cfg T}

/-- **C110** Between any two moments of an execution of insertions in parallel, whatever the schedule, and
whether or not some of them panic: no list gets shorter, the k-th nearest link of a list never gets farther,
and a link disappears only from a full list without farther links. -/
theorem C110_lists (L : P.Lawful) {c0 : CSt T} (h : ReachC P cfg c0) (ext kp : Bool)
    {jobs : List (Job T)} (hl : ∀ j ∈ jobs, j.level < cfg.maxLayer) {c1 c2 : CSt T}
    {ts1 ts2 : List (Prog (CSt T) Unit)} (he : Exec P (cfg.withFlags ext kp) c0 jobs c1 ts1)
    (hs : Steps (c1, ts1) (c2, ts2)) (p : PointId) (l : Nat) :
    Improves (if l = 0 then 2 * cfg.maxNb else cfg.maxNb) (c1.idx.nb p l) (c2.idx.nb p l) := by
  have hG : GoodC (cfg.withFlags ext kp) c0 := goodC_flags.2 (h.goodC L)
  obtain ⟨ph, hS⟩ := Exec.inv (cfg := cfg.withFlags ext kp) L hG hl he (fun _ => True) (by simp) (by simp)
  exact (steps_improves L (by omega) (Base.owned_none _) hs hS p l).resolve_left id

/-- `c` is a later state of the index that was in state `c0`: after batches of insertions in parallel (one
for a single insertion), with the settings of the moment, and reloads. -/
inductive Later (P : Policy T) (cfg : Cfg T) (c0 : CSt T) : CSt T → Prop
  | now : Later P cfg c0 c0
  | batch {c c' : CSt T} (ext kp : Bool) (jobs : List (Job T)) {ts : List (Prog (CSt T) Unit)} :
      Later P cfg c0 c → (∀ j ∈ jobs, j.level < cfg.maxLayer) →
      Exec P (cfg.withFlags ext kp) c jobs c' ts → (∀ t ∈ ts, t.Finished) → Later P cfg c0 c'
  | reload {c : CSt T} : Later P cfg c0 c → Later P cfg c0 { c with idx := c.idx.resort P }

theorem Later.reachC {c0 c : CSt T} (h : Later P cfg c0 c) (h0 : ReachC P cfg c0) : ReachC P cfg c := by
  induction h with
  | now => exact h0
  | batch ext kp jobs _ hl he hf ih => exact .batch ext kp jobs ih hl he hf
  | reload _ ih => exact .reload ih

theorem Later.insert (L : P.Lawful) {c0 c : CSt T} (h0 : ReachC P cfg c0) (h : Later P cfg c0 c) (ext kp : Bool)
    (j : Job T) (hl : j.level < cfg.maxLayer) :
    Later P cfg c0 (Verif.insert P (cfg.withFlags ext kp) c (j.data, j.id) j.level).state := by
  obtain ⟨c', t, he, hf, ho⟩ := insert_exec (cfg := cfg.withFlags ext kp) L
    (goodC_flags.2 ((h.reachC h0).goodC L)) hl
  have : (Verif.insert P (cfg.withFlags ext kp) c (j.data, j.id) j.level).state = c' := by
    rcases ho with ⟨h1, -⟩ | ⟨e, h1, -⟩ <;> rw [h1] <;> rfl
  rw [this]
  exact .batch ext kp [j] h (by simpa using hl) he (by simpa using hf)

/-- **C110** The same over the whole life of an index. -/
theorem C110_history (L : P.Lawful) {c0 c : CSt T} (h0 : ReachC P cfg c0) (h : Later P cfg c0 c)
    (p : PointId) (l : Nat) :
    Improves (if l = 0 then 2 * cfg.maxNb else cfg.maxNb) (c0.idx.nb p l) (c.idx.nb p l) := by
  induction h with
  | now => exact .refl _ _
  | batch ext kp jobs hL hl he hf ih =>
    exact ih.trans (C110_lists L (hL.reachC h0) ext kp hl (.refl _) he p l)
  | reload hL ih =>
    have hok := ((hL.reachC h0).goodC L).inv.ok
    exact ih.trans (.of_perm (hok.sorted p l)
      (L.sort_sorted _ fun y hy => (hok.legal p l y hy).1) (L.sort_perm _))

/-- the list of 10 in layer 0 before and after the insertion of 7 and of 12, for lists of at most two links:
the links to 0 and 20 are lost, one after the other -/
example :
    ((exIdx (exCfg 1) [(10, 0), (0, 0), (20, 0)]).nb ⟨0, 0⟩ 0).map (fun e => (e.pt.data, e.dist.key)) =
      [([0], 10), ([20], 10)] ∧
    ((exIdx (exCfg 1) [(10, 0), (0, 0), (20, 0), (7, 0)]).nb ⟨0, 0⟩ 0).map
      (fun e => (e.pt.data, e.dist.key)) = [([7], 3), ([0], 10)] ∧
    ((exIdx (exCfg 1) [(10, 0), (0, 0), (20, 0), (7, 0), (12, 0)]).nb ⟨0, 0⟩ 0).map
      (fun e => (e.pt.data, e.dist.key)) = [([12], 2), ([7], 3)] := by decide +kernel

/-- **C110** The same for a single call of `insert`, whether it panics or not. -/
theorem C110_insert (L : P.Lawful) {c0 : CSt T} (h0 : ReachC P cfg c0) (ext kp : Bool) (j : Job T)
    (hl : j.level < cfg.maxLayer) (p : PointId) (l : Nat) :
    Improves (if l = 0 then 2 * cfg.maxNb else cfg.maxNb) (c0.idx.nb p l)
      ((Verif.insert P (cfg.withFlags ext kp) c0 (j.data, j.id) j.level).state.idx.nb p l) :=
  C110_history L h0 (.insert L h0 .now ext kp j hl) p l

/-- two calls after the three first points, with the lists of above -/
example : ∃ c, Later (listPolicy Nat) (exCfg 1) (exSt (exCfg 1) [(10, 0), (0, 0), (20, 0)]) c ∧
    (c.idx.nb ⟨0, 0⟩ 0).map (fun e => (e.pt.data, e.dist.key)) = [([12], 2), ([7], 3)] := by
  have h0 := exSt_reach (exCfg 1) [(10, 0), (0, 0), (20, 0)] (by decide)
  exact ⟨_, ((Later.now).insert listPolicy_lawful h0 false false ⟨[7], 7, 0⟩ (by decide)).insert
    listPolicy_lawful h0 false false ⟨[12], 12, 0⟩ (by decide), by decide +kernel⟩

end Verif
