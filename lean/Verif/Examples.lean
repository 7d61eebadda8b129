import Verif.Reach
import Verif.Concrete

set_option autoImplicit false

/-!
# Concrete indexes

Indexes built by actual insertions, used to exhibit cases meeting the hypotheses of the theorems
and to refute false claims.
-/

namespace Verif

theorem reach_insertAll {T : Type} {P : Policy T} (L : P.Lawful) {cfg : Cfg T} :
    ∀ (items : List ((List T × DataId) × Nat)) {s s' : CSt T}, ReachC P cfg s →
      (∀ x ∈ items, x.2 < cfg.maxLayer) → insertAll P cfg s items = some s' → ReachC P cfg s' := by
  intro items
  induction items with
  | nil => intro s s' h _ hs; simp [insertAll] at hs; exact hs ▸ h
  | cons x xs ih =>
    intro s s' h hl hs
    obtain ⟨it, l⟩ := x
    simp only [insertAll] at hs
    split at hs
    · rename_i a c hc
      refine ih ?_ (fun y hy => hl y (List.mem_cons_of_mem _ hy)) hs
      have := h.insert L cfg.extend cfg.keepPruned (j := ⟨it.1, it.2, l⟩) (hl (it, l) (by simp))
      have hcfg : cfg.withFlags cfg.extend cfg.keepPruned = cfg := rfl
      simp only [hcfg] at this
      rw [hc] at this
      exact this
    · cases hs

/-- the state obtained by inserting `(value, level)` pairs of one dimensional points whose id is their
value -/
def exSt (cfg : Cfg Nat) (items : List (Nat × Nat)) : CSt Nat :=
  (insertAll (listPolicy Nat) cfg (CSt.new cfg.maxLayer)
    (items.map fun x => (item x.1, x.2))).getD (CSt.new cfg.maxLayer)

/-- its index -/
def exIdx (cfg : Cfg Nat) (items : List (Nat × Nat)) : Idx Nat := (exSt cfg items).idx

theorem exSt_reach (cfg : Cfg Nat) (items : List (Nat × Nat)) (h : ∀ x ∈ items, x.2 < cfg.maxLayer) :
    ReachC (listPolicy Nat) cfg (exSt cfg items) := by
  unfold exSt
  cases hs : insertAll (listPolicy Nat) cfg (CSt.new cfg.maxLayer)
    (items.map fun x => (item x.1, x.2)) with
  | none => exact .new
  | some s =>
    refine reach_insertAll listPolicy_lawful _ .new ?_ hs
    intro x hx
    obtain ⟨y, hy, rfl⟩ := List.mem_map.1 hx
    exact h y hy

theorem exIdx_reach (cfg : Cfg Nat) (items : List (Nat × Nat)) (h : ∀ x ∈ items, x.2 < cfg.maxLayer) :
    Reach (listPolicy Nat) cfg (exIdx cfg items) := ⟨_, exSt_reach cfg items h, rfl⟩

theorem absDist_legalOn (s : Idx Nat) (q : List Nat) : LegalOn absDist s q :=
  fun _ _ => absDist_legal _ _

/-- four points, three of them at level 0, one at level 1 -/
def ex4 : Idx Nat := exIdx (exCfg 3) [(10, 0), (20, 1), (30, 0), (25, 0)]

theorem ex4_reach : Reach (listPolicy Nat) (exCfg 3) ex4 :=
  exIdx_reach _ _ (by decide)

theorem ex4_points : ex4.points.map (fun p => (p.pid, p.data)) =
    [(⟨0, 0⟩, [10]), (⟨0, 1⟩, [30]), (⟨0, 2⟩, [25]), (⟨1, 0⟩, [20])] := by decide +kernel

/-- the history of the examples: five insertions on three layers -/
def exJobs : List (Job Nat) :=
  [⟨[10], 10, 0⟩, ⟨[20], 20, 1⟩, ⟨[30], 30, 0⟩, ⟨[25], 25, 2⟩, ⟨[10], 10, 0⟩]

theorem seqReach_insertAll {T : Type} {P : Policy T} {cfg : Cfg T} {jobs0 : List (Job T)} : ∀ (jobs : List (Job T)) {jobs1 : List (Job T)}
    {c0 c : CSt T}, SeqReach P cfg jobs1 c0 → (∀ j ∈ jobs, j.level < cfg.maxLayer) →
    insertAll P cfg c0 (jobs.map fun j => ((j.data, j.id), j.level)) = some c → jobs0 = jobs1 ++ jobs →
    SeqReach P cfg jobs0 c := by
  intro jobs
  induction jobs with
  | nil =>
    intro jobs1 c0 c h _ hs he
    simp [insertAll] at hs
    subst hs
    rw [he]
    simpa using h
  | cons j jobs ih =>
    intro jobs1 c0 c h hl hs he
    simp only [List.map_cons, insertAll] at hs
    split at hs
    · rename_i a c1 hc
      refine ih (jobs1 := jobs1 ++ [j]) ?_ (fun j' hj' => hl j' (List.mem_cons_of_mem _ hj')) hs
        (by rw [he]; simp)
      exact SeqReach.insert cfg.extend cfg.keepPruned j h (hl j (by simp)) hc
    · cases hs

/-- the resulting state -/
def exHist (cfg : Cfg Nat) (jobs : List (Job Nat)) : CSt Nat :=
  (insertAll (listPolicy Nat) cfg (CSt.new cfg.maxLayer)
    (jobs.map fun j => ((j.data, j.id), j.level))).getD (CSt.new cfg.maxLayer)

theorem exHist_seqReach (cfg : Cfg Nat) (jobs : List (Job Nat))
    (h : ∀ j ∈ jobs, j.level < cfg.maxLayer)
    (hs : (insertAll (listPolicy Nat) cfg (CSt.new cfg.maxLayer)
      (jobs.map fun j => ((j.data, j.id), j.level))).isSome = true) :
    SeqReach (listPolicy Nat) cfg jobs (exHist cfg jobs) := by
  obtain ⟨c, hc⟩ := Option.isSome_iff_exists.1 hs
  unfold exHist
  rw [hc]
  exact seqReach_insertAll jobs .new h hc (by simp)

theorem exHist_ok : SeqReach (listPolicy Nat) (exCfg 3) exJobs (exHist (exCfg 3) exJobs) :=
  exHist_seqReach _ _ (by decide) (by decide +kernel)

end Verif
