import Verif.Basic

set_option autoImplicit false

/-!
# Programs made of atomic lock sections

A thread is a tree of atomic actions on the shared state.  One action is one lock section of the
Rust code (everything done between taking and releasing a lock).  A guard that stays alive while
other locks are taken is represented explicitly in the state (`CSt.held`).
The same program is run alone (`Prog.run`) or interleaved with others (`Sys.Step`).
-/

namespace Verif

/-- A program over a shared state `σ`.  `act g u k`: wait until `g` holds, then atomically read
the state `s`, replace it by `u s` and continue as `k s`. -/
inductive Prog (σ α : Type) where
  | ret (a : α)
  | fail (e : Panic)
  | act (g : σ → Bool) (u : σ → σ) (k : σ → Prog σ α)

namespace Prog
variable {σ α β : Type}

/-- sequential composition -/
def bind : Prog σ α → (α → Prog σ β) → Prog σ β
  | ret a, f => f a
  | fail e, _ => fail e
  | act g u k, f => act g u (fun s => bind (k s) f)

/-- read the shared state -/
def read (k : σ → Prog σ α) : Prog σ α := act (fun _ => true) id k

/-- continue with a computation that may panic -/
def ofExcept : Except Panic β → (β → Prog σ α) → Prog σ α
  | .error e, _ => fail e
  | .ok b, f => f b

end Prog

/-- Outcome of running a program alone. After a panic the state reached so far stays. -/
inductive Outcome (σ α : Type) where
  | ok (a : α) (s : σ)
  | panic (e : Panic) (s : σ)
  | blocked (s : σ)

/-- the state left by a run -/
def Outcome.state {σ α : Type} : Outcome σ α → σ
  | .ok _ s => s
  | .panic _ s => s
  | .blocked s => s

/-- Sequential execution (no other thread). -/
def Prog.run {σ α : Type} : Prog σ α → σ → Outcome σ α
  | .ret a, s => .ok a s
  | .fail e, s => .panic e s
  | .act g u k, s => if g s = true then (k s).run (u s) else .blocked s

/-- One step of a system of threads sharing `σ`: some thread performs its next action. -/
inductive Step {σ α : Type} : σ × List (Prog σ α) → σ × List (Prog σ α) → Prop
  | mk {s : σ} {ts : List (Prog σ α)} (i : Nat) (hi : i < ts.length) (g u k)
      (hact : ts[i] = .act g u k) (hg : g s = true) :
      Step (s, ts) (u s, ts.set i (k s))

/-- any number of steps, any schedule -/
inductive Steps {σ α : Type} : σ × List (Prog σ α) → σ × List (Prog σ α) → Prop
  | refl (c) : Steps c c
  | step {a b c} : Steps a b → Step b c → Steps a c

/-- a thread that has nothing more to do -/
def Prog.Finished {σ α : Type} : Prog σ α → Prop
  | .act .. => False
  | _ => True

end Verif
