import Verif.LevelLinks
import Verif.Props.Insert

set_option autoImplicit false

/-!
# Levels of the neighbours (C23)

`C23_refuted` (Props/Insert.lean) shows a list of layer 1 that leads to a point of level 0: the point
was the entry point when a point of level 1 arrived.  The theorems below say that nothing else can
happen.
-/

namespace Verif
variable {T : Type} {P : Policy T} {cfg : Cfg T}

/-- **C23**, part that holds for every history, also at any moment of a parallel insertion: the
points that are in a list of a layer above their own level are not above the entry point, and there is at
most one of them for each level in the whole index.  The layer of such a list is not above both its
owner and the entry point. -/
theorem C23_exceptions_partial (L : P.Lawful) {c0 : CSt T} (h : ReachC P cfg c0) (ext kp : Bool)
    {jobs : List (Job T)} {c : CSt T} {ts : List (Prog (CSt T) Unit)}
    (he : Exec P (cfg.withFlags ext kp) c0 jobs c ts)
    (p : Ref T) (l : Nat) (ns : List Neighbour)
    (hns : (getNeighborhoodId c.idx p)[l]? = some ns) (n : Neighbour) (hn : n ∈ ns)
    (hlow : n.pId.layer < l) :
    (∃ ep, c.idx.entry = some ep ∧ n.pId.layer ≤ ep.pid.layer ∧
      (l ≤ ep.pid.layer ∨ l ≤ p.pid.layer)) ∧
    ∀ (p' : Ref T) (l' : Nat) (ns' : List Neighbour),
      (getNeighborhoodId c.idx p')[l']? = some ns' → ∀ n' ∈ ns', n'.pId.layer < l' →
      n'.pId.layer = n.pId.layer → n'.pId = n.pId := by
  obtain ⟨E0, hE0⟩ := reachC_levInv L h
  obtain ⟨E, -, hE⟩ := exec_levInv L he hE0
  have key : ∀ (p : Ref T) (l : Nat) (ns : List Neighbour),
      (getNeighborhoodId c.idx p)[l]? = some ns → ∀ n ∈ ns, n.pId.layer < l →
      n.pId ∈ E ∧ (l ≤ p.pid.layer ∨ ∃ a ∈ E, l ≤ a.layer) := by
    intro p l ns hns n hn hlow
    rw [neighborhood_get hns] at hn
    obtain ⟨e, he, rfl⟩ := List.mem_map.1 hn
    rcases hE.link p.pid l e he with h1 | h1
    · exact absurd hlow (Nat.not_lt.2 h1)
    · exact h1
  obtain ⟨hin, hl⟩ := key p l ns hns n hn hlow
  refine ⟨?_, ?_⟩
  · have hhd := hE.entry
    have hd := hE.dec
    cases hEE : E with
    | nil => rw [hEE] at hin; cases hin
    | cons a as =>
      rw [hEE] at hhd hd hin hl
      cases hent : c.idx.entry with
      | none => rw [hent] at hhd; simp at hhd
      | some ep =>
        rw [hent] at hhd
        simp only [List.head?_cons, Option.map_some, Option.some.injEq] at hhd
        have hle : ∀ x ∈ a :: as, x.layer ≤ ep.pid.layer := by
          intro x hx
          rw [← hhd]
          rcases List.mem_cons.1 hx with rfl | hx
          · exact Nat.le_refl _
          · exact Nat.le_of_lt ((List.pairwise_cons.1 hd).1 x hx)
        refine ⟨ep, rfl, hle _ hin, ?_⟩
        rcases hl with hl | ⟨b, hb, hl⟩
        · exact Or.inr hl
        · exact Or.inl (Nat.le_trans hl (hle b hb))
  · intro p' l' ns' hns' n' hn' hlow' heq
    have hin' := (key p' l' ns' hns' n' hn' hlow').1
    obtain ⟨i, hi, hgi⟩ := List.getElem_of_mem hin
    obtain ⟨k, hk, hgk⟩ := List.getElem_of_mem hin'
    have hd := List.pairwise_iff_getElem.1 hE.dec
    rcases Nat.lt_trichotomy i k with hik | hik | hik
    · have := hd i k hi hk hik
      rw [hgi, hgk] at this
      omega
    · subst hik
      rw [← hgi, ← hgk]
    · have := hd k i hk hi hik
      rw [hgi, hgk] at this
      omega

/-- the point 10 of level 0 in the layer 1 list of the point 20 -/
example : ReachC (listPolicy Nat) (exCfg 3) (exSt (exCfg 3) [(10, 0), (20, 1), (30, 0), (25, 0)]) ∧
    Exec (listPolicy Nat) ((exCfg 3).withFlags false false)
      (exSt (exCfg 3) [(10, 0), (20, 1), (30, 0), (25, 0)]) []
      (exSt (exCfg 3) [(10, 0), (20, 1), (30, 0), (25, 0)]) [] ∧
    ((getNeighborhoodId ex4 ⟨⟨1, 0⟩, 20, [20]⟩)[1]?).map (·.map (·.pId)) = some [⟨0, 0⟩] :=
  ⟨exSt_reach _ _ (by decide), .refl _, by decide +kernel⟩

/-- **C23** holds in full, at any moment of any parallel insertion, when no point is inserted above
the level of the very first one (whose insertion returned before the others started). -/
theorem C23_top_first_partial (L : P.Lawful) {m : Nat} {c0 : CSt T} (h : TopFirst P cfg m c0)
    (ext kp : Bool) {jobs : List (Job T)} (hj : ∀ j ∈ jobs, j.level ≤ m) {c : CSt T}
    {ts : List (Prog (CSt T) Unit)} (he : Exec P (cfg.withFlags ext kp) c0 jobs c ts)
    (p : Ref T) (l : Nat) (ns : List Neighbour)
    (hns : (getNeighborhoodId c.idx p)[l]? = some ns) : ∀ n ∈ ns, l ≤ n.pId.layer := by
  intro n hn
  rw [neighborhood_get hns] at hn
  obtain ⟨e, hee, rfl⟩ := List.mem_map.1 hn
  have hG : GoodC (cfg.withFlags ext kp) c0 := goodC_flags.2 ((h.reachC L).goodC L)
  have hl : ∀ j ∈ jobs, j.level < (cfg.withFlags ext kp).maxLayer :=
    fun j hj' => Nat.lt_of_le_of_lt (hj j hj') h.lt
  obtain ⟨ph, hS⟩ := he.inv L hG hl (fun _ => True) (fun _ _ => trivial) (fun _ _ => trivial)
  exact (exec_oneTop L hG hl hj he (h.oneTop L)).levels hS.env.inv.ok hee

/-- The same for successive calls of `insert`. -/
theorem C23_sequence_partial (L : P.Lawful) {j0 : Job T} {jobs : List (Job T)} {c : CSt T}
    (h : SeqReach P cfg (j0 :: jobs) c) (hj : ∀ j ∈ jobs, j.level ≤ j0.level)
    (p : Ref T) (l : Nat) (ns : List Neighbour)
    (hns : (getNeighborhoodId c.idx p)[l]? = some ns) : ∀ n ∈ ns, l ≤ n.pId.layer :=
  C23_top_first_partial L (topFirst_of_seqReach L h rfl hj) false false (jobs := []) (by simp)
    (Steps.refl _) p l ns hns

/-- a history that starts with the highest level -/
def topJobs : List (Job Nat) :=
  [⟨[10], 10, 2⟩, ⟨[20], 20, 1⟩, ⟨[30], 30, 0⟩, ⟨[25], 25, 1⟩, ⟨[40], 40, 2⟩]

theorem topJobs_seqReach : SeqReach (listPolicy Nat) (exCfg 3) topJobs (exHist (exCfg 3) topJobs) :=
  exHist_seqReach _ _ (by decide) (by decide +kernel)

example : (∀ j ∈ topJobs.tail, j.level ≤ 2) ∧
    ((getNeighborhoodId (exHist (exCfg 3) topJobs).idx ⟨⟨1, 1⟩, 25, [25]⟩)[1]?).map
      (·.map (·.pId)) = some [⟨1, 0⟩, ⟨2, 0⟩] ∧
    ((getNeighborhoodId (exHist (exCfg 3) topJobs).idx ⟨⟨2, 1⟩, 40, [40]⟩)[2]?).map
      (·.map (·.pId)) = some [⟨2, 0⟩] := by decide +kernel

example : TopFirst (listPolicy Nat) (exCfg 3) 2 (exHist (exCfg 3) topJobs) :=
  topFirst_of_seqReach listPolicy_lawful topJobs_seqReach rfl (by decide)

end Verif
