import Verif.SearchNav
import Verif.SearchMono
import Verif.Examples

set_option autoImplicit false

/-!
# Two searches compared (C91, C92)

The index `s` is any index that can be obtained.
-/

namespace Verif
variable {T : Type} {P : Policy T} {cfg : Cfg T} {s : Idx T}

/-- containers made of lists where, among equals, the last pushed is popped first -/
def lifoPolicy (T : Type) : Policy T := { listPolicy T with pop := fun h => popL h.reverse }

theorem lifoPolicy_lawful : (lifoPolicy T).Lawful where
  items_empty := rfl
  items_push _ _ := List.Perm.refl _
  pop_none h := by
    exact (popL_none _).trans List.reverse_eq_nil_iff
  pop_perm h _ _ hp := (List.reverse_perm h).symm.trans (popL_perm hp)
  pop_max h _ _ _ hp := fun y hy => popL_max hp y (List.mem_reverse.2 hy)
  intoSorted_perm h := sortAsc_perm h
  intoSorted_sorted h _ := sortAsc_sorted h
  sort_perm := sortAsc_perm
  sort_sorted l _ := sortAsc_sorted l
  push_ok _ _ _ _ := rfl
  intoSorted_ok _ _ := rfl
  sort_ok _ _ := rfl
  hash_perm _ _ _ _ := List.Perm.refl _

/-- a distance where the point 100 is at distances 0, 5, 10, 5, 4, 3 of the points 0 to 5, which are on
a line -/
def tieDist (a b : List Nat) : F32 :=
  if 100 ≤ a.headD 0 then ⟨false, Fin.ofNat (2 ^ 31) ([0, 5, 10, 5, 4, 3].getD (b.headD 0) 20)⟩
  else absDist a b

theorem tieDist_legal (a b : List Nat) : (tieDist a b).Legal := by
  unfold tieDist
  split
  · generalize b.headD 0 = n
    match n with
    | 0 => decide
    | 1 => decide
    | 2 => decide
    | 3 => decide
    | 4 => decide
    | 5 => decide
    | n + 6 => simp; decide
  · exact absDist_legal a b

def tieCfg : Cfg Nat := { exCfg 1 with eval := tieDist }

/-- the points 2, 1, 0, 3, 4, 5 inserted in this order -/
def tieSt : CSt Nat :=
  (insertAll (lifoPolicy Nat) tieCfg (CSt.new 16)
    ([2, 1, 0, 3, 4, 5].map fun x => (item x, 0))).getD (CSt.new 16)

theorem tieSt_reach : ReachC (lifoPolicy Nat) tieCfg tieSt := by
  unfold tieSt
  cases hs : insertAll (lifoPolicy Nat) tieCfg (CSt.new 16)
    ([2, 1, 0, 3, 4, 5].map fun x => (item x, 0)) with
  | none => exact .new (cfg := tieCfg)
  | some s =>
    refine reach_insertAll lifoPolicy_lawful _ (.new (cfg := tieCfg)) ?_ hs
    intro x hx
    obtain ⟨y, hy, rfl⟩ := List.mem_map.1 hx
    show 0 < 16
    decide

/-- **C91** Asking for more never makes an answer worse: with larger `knbn` and `ef`, there are at least
as many answers, and the answer at each rank is at most as far, if the stored points are at different
distances from the query. -/
theorem C91_larger_ef (L : P.Lawful) (hr : Reach P cfg s) (q : List T) (hL : LegalOn cfg.eval s q)
    (hT : ∀ p ∈ s.points, ∀ p' ∈ s.points,
      (cfg.eval q p.data).key = (cfg.eval q p'.data).key → p = p')
    (knbn efArg knbn' efArg' : Nat) (hk : knbn ≤ knbn') (he : efArg ≤ efArg')
    (ns ns' : List Neighbour) (h : search P cfg s q knbn efArg = .ok ns)
    (h' : search P cfg s q knbn' efArg' = .ok ns') :
    ns.length ≤ ns'.length ∧ ∀ (i : Nat) (a b : Neighbour), ns[i]? = some a → ns'[i]? = some b →
      b.distance.key ≤ a.distance.key :=
  nav91_larger_ef L (hr.good L).nav q hL hT knbn efArg knbn' efArg' hk he ns ns' h h'

/-- the hypotheses hold: the points of `ex4` are at different distances from 26, and the two answers
differ -/
example : (∀ p ∈ ex4.points, ∀ p' ∈ ex4.points,
      ((exCfg 3).eval [26] p.data).key = ((exCfg 3).eval [26] p'.data).key → p = p') ∧
    ∃ ns ns', search (listPolicy Nat) (exCfg 3) ex4 [26] 1 1 = .ok ns ∧
      search (listPolicy Nat) (exCfg 3) ex4 [26] 3 10 = .ok ns' ∧ ns.map (·.dId) = [25] ∧
      ns'.map (·.dId) = [25, 30, 20] :=
  ⟨by decide +kernel, _, _, rfl, rfl, by decide +kernel, by decide +kernel⟩

/-- The condition on distances cannot be dropped: with two points at the same distance, a search with
`ef = 2` may return a point farther than the one returned with `ef = 1`. -/
theorem C91_ties_needed : ∃ (P : Policy Nat) (cfg : Cfg Nat) (s : Idx Nat) (q : List Nat)
    (ns ns' : List Neighbour), P.Lawful ∧ Reach P cfg s ∧ LegalOn cfg.eval s q ∧
    search P cfg s q 1 1 = .ok ns ∧ search P cfg s q 1 2 = .ok ns' ∧
    ∃ a b, ns = [a] ∧ ns' = [b] ∧ a.distance.key < b.distance.key :=
  ⟨lifoPolicy Nat, tieCfg, tieSt.idx, [100], _, _, lifoPolicy_lawful, ⟨_, tieSt_reach, rfl⟩,
    fun _ _ => tieDist_legal _ _, rfl, rfl, ⟨0, ⟨false, 0⟩, ⟨0, 2⟩⟩, ⟨5, ⟨false, 3⟩, ⟨0, 5⟩⟩,
    by decide +kernel, by decide +kernel, by decide +kernel⟩

/-- **C92** Only the values of the filter on the ids of the stored points matter. -/
theorem C92_extensional (L : P.Lawful) (hr : Reach P cfg s) (φ ψ : DataId → Bool)
    (h : ∀ p ∈ s.points, φ p.origin = ψ p.origin) (q : List T) (knbn efArg : Nat) :
    searchFilter P cfg s q knbn efArg (some φ) = searchFilter P cfg s q knbn efArg (some ψ) :=
  nav92_extensional L (hr.good L).nav φ ψ h q knbn efArg

/-- two filters that differ only on ids that are not stored -/
example : (∀ p ∈ ex4.points, (fun i : DataId => i != 25) p.origin =
      (fun i : DataId => i == 10 || i == 20 || i == 30) p.origin) ∧
    ∃ ns, searchFilter (listPolicy Nat) (exCfg 3) ex4 [26] 3 10 (some fun i => i != 25) = .ok ns ∧
      ns.map (·.dId) = [30, 20, 10] :=
  ⟨by decide +kernel, _, rfl, by decide +kernel⟩

/-- **C92** A filter that accepts the ids of all stored points changes nothing, when no distance between
the query and a stored point is a NaN.  Missing: NaN. -/
theorem C92_accept_all_partial (L : P.Lawful) (hr : Reach P cfg s) (φ : DataId → Bool)
    (h : ∀ p ∈ s.points, φ p.origin = true) (q : List T)
    (hN : ∀ p ∈ s.points, (cfg.eval q p.data).isNaN = false) (knbn efArg : Nat) :
    searchFilter P cfg s q knbn efArg (some φ) = search P cfg s q knbn efArg :=
  nav92_accept_all_partial L (hr.good L).nav φ h q hN knbn efArg

/-- a filter that accepts the stored ids and rejects others -/
example : (∀ p ∈ ex4.points, (fun i : DataId => i % 5 == 0) p.origin = true) ∧
    ∃ ns, search (listPolicy Nat) (exCfg 3) ex4 [26] 2 2 = .ok ns ∧ ns.map (·.dId) = [25, 30] :=
  ⟨by decide +kernel, _, rfl, by decide +kernel⟩

end Verif
