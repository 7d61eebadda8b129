import Verif.SearchNav
import Verif.Examples

set_option autoImplicit false

/-!
# Properties of searches (C01 - C10, C13, C26)

The index `s` is any index that can be obtained (`Reach`), the distance function is arbitrary,
unless legality (`LegalOn`: no NaN, no negative value) is explicitly assumed.
-/

namespace Verif
variable {T : Type} {P : Policy T} {cfg : Cfg T} {s : Idx T}

theorem reach_entry_none (L : P.Lawful) (hr : Reach P cfg s) (h : s.points = []) : s.entry = none :=
  nav_entry_none (hr.good L).nav h

theorem search_empty (L : P.Lawful) (hr : Reach P cfg s) (h : s.points = []) (q : List T)
    (knbn efArg : Nat) (filt : Option (DataId → Bool)) :
    searchFilter P cfg s q knbn efArg filt = .ok [] :=
  nav_search_empty (hr.good L).nav h q knbn efArg filt

/-- **C01** (number) There are at most `knbn` answers, whatever the distances. -/
theorem C01_bounded (L : P.Lawful) (hr : Reach P cfg s) (q : List T) (knbn efArg : Nat)
    (filt : Option (DataId → Bool)) (ns : List Neighbour)
    (h : searchFilter P cfg s q knbn efArg filt = .ok ns) : ns.length ≤ knbn :=
  nav01_bounded L (hr.good L).nav q knbn efArg filt ns h

/-- **C01** Answers are sorted by distance and there are at most `knbn` of them, when no distance
between the query and a stored point is a NaN.  Missing: distances that are NaN, with which the order is
lost (`C01_sorted_refuted`). -/
theorem C01_sorted_bounded_partial (L : P.Lawful) (hr : Reach P cfg s) (q : List T)
    (hN : ∀ p ∈ s.points, (cfg.eval q p.data).isNaN = false) (knbn efArg : Nat)
    (filt : Option (DataId → Bool)) (ns : List Neighbour)
    (h : searchFilter P cfg s q knbn efArg filt = .ok ns) :
    SortedAnswers ns ∧ ns.length ≤ knbn :=
  nav01_sorted_bounded_partial L (hr.good L).nav q hN knbn efArg filt ns h

example : ∃ ns, searchFilter (listPolicy Nat) (exCfg 3) ex4 [26] 3 10 (some fun i => i != 25) = .ok ns ∧
    ns.map (·.dId) = [30, 20, 10] :=
  ⟨_, rfl, by decide +kernel⟩

/-- **C02** Each answer is the record (`answer`: origin id, exact distance, internal id) of a stored
point. -/
theorem C02_true_answers (L : P.Lawful) (hr : Reach P cfg s) (q : List T) (knbn efArg : Nat)
    (filt : Option (DataId → Bool)) (ns : List Neighbour)
    (h : searchFilter P cfg s q knbn efArg filt = .ok ns) :
    ∀ n ∈ ns, ∃ p, p ∈ s.points ∧ n = ⟨p.origin, cfg.eval q p.data, p.pid⟩ :=
  nav02_true_answers L (hr.good L).nav q knbn efArg filt ns h

example : ∃ ns, search (listPolicy Nat) (exCfg 3) ex4 [26] 3 10 = .ok ns ∧
    ns = [⟨25, ⟨false, 1⟩, ⟨0, 2⟩⟩, ⟨30, ⟨false, 4⟩, ⟨0, 1⟩⟩, ⟨20, ⟨false, 6⟩, ⟨1, 0⟩⟩] :=
  ⟨_, rfl, by decide +kernel⟩

/-- **C03** No point is returned twice. -/
theorem C03_distinct (L : P.Lawful) (hr : Reach P cfg s) (q : List T) (knbn efArg : Nat)
    (filt : Option (DataId → Bool)) (ns : List Neighbour)
    (h : searchFilter P cfg s q knbn efArg filt = .ok ns) :
    (ns.map (·.pId)).Nodup :=
  nav03_distinct L (hr.good L).nav q knbn efArg filt ns h

example : ∃ ns, search (listPolicy Nat) (exCfg 3) ex4 [12] 4 4 = .ok ns ∧
    ns.map (·.pId) = [⟨0, 0⟩, ⟨1, 0⟩, ⟨0, 2⟩, ⟨0, 1⟩] :=
  ⟨_, rfl, by decide +kernel⟩

/-- **C04** An empty index answers nothing; a non empty one answers something to an unfiltered search
with `knbn ≥ 1`. -/
theorem C04_empty_nonempty (L : P.Lawful) (hr : Reach P cfg s) (q : List T) (knbn efArg : Nat) :
    (s.points = [] → ∀ filt, searchFilter P cfg s q knbn efArg filt = .ok []) ∧
    (s.points ≠ [] → 1 ≤ knbn → LegalOn cfg.eval s q →
      ∃ n ns, search P cfg s q knbn efArg = .ok (n :: ns)) :=
  nav04_empty_nonempty L (hr.good L).nav q knbn efArg

/-- **C04** (any distances) An unfiltered search with `knbn ≥ 1` in an index that has points never returns
normally without an answer, even if distances are NaN or negative. -/
theorem C04_returned (L : P.Lawful) (hr : Reach P cfg s) (q : List T) (knbn efArg : Nat)
    (hne : s.points ≠ []) (hk : 1 ≤ knbn) (ns : List Neighbour)
    (h : search P cfg s q knbn efArg = .ok ns) : ns ≠ [] :=
  nav04_returned L (hr.good L).nav q knbn efArg hne hk ns h

example : Reach (listPolicy Nat) (exCfg 3) ex4 ∧ ex4.points ≠ [] ∧
    LegalOn (exCfg 3).eval ex4 [12] :=
  ⟨ex4_reach, by decide +kernel, absDist_legalOn _ _⟩

/-- **C05** Unfiltered searches terminate without panic when the distances from the query to the
stored points are legal. -/
theorem C05_no_panic (L : P.Lawful) (hr : Reach P cfg s) (q : List T) (hL : LegalOn cfg.eval s q)
    (knbn efArg : Nat) : ∃ ns, search P cfg s q knbn efArg = .ok ns :=
  nav05_no_panic L (hr.good L).nav q hL knbn efArg

/-- **C05** (filtered searches) The same holds with a filter as soon as `ef` or `knbn` is positive. -/
theorem C05_no_panic_filter (L : P.Lawful) (hr : Reach P cfg s) (q : List T)
    (hL : LegalOn cfg.eval s q) (knbn efArg : Nat) (hk : 1 ≤ max efArg knbn) (φ : DataId → Bool) :
    ∃ ns, searchFilter P cfg s q knbn efArg (some φ) = .ok ns :=
  nav05_no_panic_filter L (hr.good L).nav q hL knbn efArg hk φ

/-- **C05** (negative distances) When no distance from the query to a stored point is a NaN, an unfiltered
search returns, or stops in the assertion on the sign of the distances, and then some stored point is at a
negative distance. -/
theorem C05_only_negative (L : P.Lawful) (hr : Reach P cfg s) (q : List T)
    (hN : ∀ p ∈ s.points, (cfg.eval q p.data).isNaN = false) (knbn efArg : Nat) :
    (∃ ns, search P cfg s q knbn efArg = .ok ns) ∨
    (search P cfg s q knbn efArg = .error .assertion ∧ ∃ p ∈ s.points, ¬ (cfg.eval q p.data).Legal) :=
  nav05_only_negative L (hr.good L).nav q hN knbn efArg

/-- **C05** (termination alone) For any distance function, the iteration budget of the model is never
exhausted: a search always terminates. -/
theorem C05_terminates (L : P.Lawful) (hr : Reach P cfg s) (q : List T) (knbn efArg : Nat)
    (filt : Option (DataId → Bool)) : searchFilter P cfg s q knbn efArg filt ≠ .error .fuel :=
  nav05_terminates L (hr.good L).nav q knbn efArg filt

example : ∃ ns, search (listPolicy Nat) (exCfg 3) ex4 [26] 0 0 = .ok ns := ⟨_, rfl⟩

/-- **C06** Local optimality: in the searched layer (the lowest non empty one), a neighbour of a
returned point is returned or is at least as far as every returned point, when no distance is a NaN.
Missing: distances that are NaN (`C06_local_refuted`). -/
theorem C06_local_optimum_partial (L : P.Lawful) (hr : Reach P cfg s) (q : List T)
    (hNN : ∀ p ∈ s.points, (cfg.eval q p.data).isNaN = false) (knbn efArg : Nat) (ns : List Neighbour)
    (h : search P cfg s q knbn efArg = .ok ns) (l : Nat) (hl : IsLowest s l) :
    ∀ n ∈ ns, ∀ e ∈ s.nb n.pId l,
      answer cfg.eval q e.pt ∈ ns ∨ ∀ m ∈ ns, m.distance.key ≤ (cfg.eval q e.pt.data).key :=
  nav06_local_optimum_partial L (hr.good L).nav q hNN knbn efArg ns h l hl

example : ∃ ns, search (listPolicy Nat) (exCfg 3) ex4 [26] 1 1 = .ok ns ∧ ns.map (·.dId) = [25] ∧
    (ex4.nb ⟨0, 2⟩ 0).map (·.pt.data) = [[30], [20], [10]] ∧ IsLowest ex4 0 :=
  ⟨_, rfl, by decide +kernel, by decide +kernel, by decide +kernel, by simp⟩

/-- a distance where the point 100 is at distances 1, 5, 6, 7, -1 of the points 0 to 4 -/
def negDist (a b : List Nat) : F32 :=
  if 100 ≤ a.headD 0 then
    [⟨false, 1⟩, ⟨false, 5⟩, ⟨false, 6⟩, ⟨false, 7⟩, ⟨true, 1⟩].getD (b.headD 0) ⟨false, 20⟩
  else absDist a b

/-- the hypotheses of `C06_local_optimum_partial` when a stored point is at a negative distance: a search that
does not meet it returns, one that meets it panics -/
example :
    let cfg := { exCfg 1 with eval := negDist }
    let s := exIdx cfg [(0, 0), (1, 0), (2, 0), (3, 0), (4, 0)]
    (∀ p ∈ s.points, (negDist [100] p.data).isNaN = false) ∧
    (∃ p ∈ s.points, ¬ (negDist [100] p.data).Legal) ∧ IsLowest s 0 ∧
    (∃ ns, search (listPolicy Nat) cfg s [100] 1 1 = .ok ns ∧ ns.map (·.dId) = [0]) ∧
    search (listPolicy Nat) cfg s [100] 5 5 = .error .assertion :=
  ⟨by decide +kernel, by simp only [F32.Legal]; decide +kernel, ⟨by decide +kernel, by simp⟩,
    ⟨_, rfl, by decide +kernel⟩, rfl⟩

/-- **C07** Exactness: if `ef` or `knbn` is at least the number of points, an unfiltered search returns
the `knbn` nearest of the points that can be reached, through the links of the searched layer, from
the pivot reached by the greedy descent, when it returns and no distance is a NaN.
Missing: distances that are NaN (`C07_exact_refuted`). -/
theorem C07_exact_partial (L : P.Lawful) (hr : Reach P cfg s) (hne : s.points ≠ []) (q : List T)
    (hNN : ∀ p ∈ s.points, (cfg.eval q p.data).isNaN = false) (knbn efArg : Nat)
    (hef : s.points.length ≤ max efArg knbn) (ns : List Neighbour)
    (h : search P cfg s q knbn efArg = .ok ns) :
    ∃ (ep pivot : Ref T) (ps : List (Ref T)) (l : Nat),
      s.entry = some ep ∧ Descent cfg.eval q s ep.pid.layer ep (ps ++ [pivot]) ∧ IsLowest s l ∧
      IsKNearest cfg.eval q knbn (Reaches (links s l) pivot) ns :=
  nav07_exact_partial L (hr.good L).nav hne q hNN knbn efArg hef ns h

/-- **C07** (legal distances) With legal distances such a search does return. -/
theorem C07_exact (L : P.Lawful) (hr : Reach P cfg s) (hne : s.points ≠ []) (q : List T)
    (hL : LegalOn cfg.eval s q) (knbn efArg : Nat) (hef : s.points.length ≤ max efArg knbn) :
    ∃ (ep pivot : Ref T) (ps : List (Ref T)) (l : Nat) (ns : List Neighbour),
      s.entry = some ep ∧ Descent cfg.eval q s ep.pid.layer ep (ps ++ [pivot]) ∧ IsLowest s l ∧
      search P cfg s q knbn efArg = .ok ns ∧
      IsKNearest cfg.eval q knbn (Reaches (links s l) pivot) ns :=
  nav07_exact L (hr.good L).nav hne q hL knbn efArg hef

example : Reach (listPolicy Nat) (exCfg 3) ex4 ∧ ex4.points ≠ [] ∧
    LegalOn (exCfg 3).eval ex4 [26] ∧ ex4.points.length ≤ max 4 2 ∧
    ∃ ns, search (listPolicy Nat) (exCfg 3) ex4 [26] 2 4 = .ok ns ∧ ns.map (·.dId) = [25, 30] :=
  ⟨ex4_reach, by decide +kernel, absDist_legalOn _ _, by decide +kernel, _, rfl, by decide +kernel⟩

/-- **C08** The first answer is at most as far as the entry point and as every pivot of the descent,
when the search returns and no distance is a NaN.  (With NaN it is false: `C08_worse_refuted`.) -/
theorem C08_not_worse_partial (L : P.Lawful) (hr : Reach P cfg s) (hne : s.points ≠ [])
    (q : List T) (hNN : ∀ p ∈ s.points, (cfg.eval q p.data).isNaN = false) (knbn efArg : Nat)
    (hk : 1 ≤ knbn) (ns : List Neighbour) (h : search P cfg s q knbn efArg = .ok ns) :
    ∃ (ep : Ref T) (ps : List (Ref T)) (n : Neighbour) (ns' : List Neighbour),
      s.entry = some ep ∧ Descent cfg.eval q s ep.pid.layer ep ps ∧ ep ∈ ps ∧
      ns = n :: ns' ∧
      ∀ p ∈ ps, n.distance.key ≤ (cfg.eval q p.data).key :=
  nav08_not_worse_partial L (hr.good L).nav hne q hNN knbn efArg hk ns h

/-- **C08** (legal distances) With legal distances such a search does return. -/
theorem C08_not_worse_than_pivots (L : P.Lawful) (hr : Reach P cfg s) (hne : s.points ≠ [])
    (q : List T) (hL : LegalOn cfg.eval s q) (knbn efArg : Nat) (hk : 1 ≤ knbn) :
    ∃ (ep : Ref T) (ps : List (Ref T)) (n : Neighbour) (ns : List Neighbour),
      s.entry = some ep ∧ Descent cfg.eval q s ep.pid.layer ep ps ∧ ep ∈ ps ∧
      search P cfg s q knbn efArg = .ok (n :: ns) ∧
      ∀ p ∈ ps, n.distance.key ≤ (cfg.eval q p.data).key :=
  nav08_not_worse_than_pivots L (hr.good L).nav hne q hL knbn efArg hk

example : ex4.entry = some ⟨⟨1, 0⟩, 20, [20]⟩ ∧
    ∃ ns, search (listPolicy Nat) (exCfg 3) ex4 [26] 1 1 = .ok ns ∧ ns.map (·.distance) = [⟨false, 1⟩] :=
  ⟨by decide +kernel, _, rfl, by decide +kernel⟩

/-- **C09** is false: a filtered search may return a rejected id, here in a one point index. -/
theorem C09_refuted : ∃ (s : Idx Nat) (q : List Nat) (φ : DataId → Bool) (ns : List Neighbour),
    Reach (listPolicy Nat) (exCfg 3) s ∧
    searchFilter (listPolicy Nat) (exCfg 3) s q 1 10 (some φ) = .ok ns ∧
    ∃ n ∈ ns, φ n.dId = false :=
  ⟨exIdx (exCfg 3) [(10, 0)], [12], fun i => i != 10, _, exIdx_reach _ _ (by decide), rfl,
    by decide +kernel⟩

/-- **C09** (what holds) Either every answer is accepted by the filter, or the answer is a single
rejected point; the latter only happens, when `ef ≥ 2`, if no accepted point is reachable from the
pivot in the searched layer.
Missing: in that last case the code should answer nothing; distances that are NaN. -/
theorem C09_filter_partial (L : P.Lawful) (hr : Reach P cfg s) (q : List T)
    (hNN : ∀ p ∈ s.points, (cfg.eval q p.data).isNaN = false) (knbn efArg : Nat) (hk : 1 ≤ max efArg knbn) (φ : DataId → Bool)
    (ns : List Neighbour) (h : searchFilter P cfg s q knbn efArg (some φ) = .ok ns) :
    (∀ n ∈ ns, φ n.dId = true) ∨
    ∃ (ep pivot : Ref T) (ps : List (Ref T)) (l : Nat),
      s.entry = some ep ∧ Descent cfg.eval q s ep.pid.layer ep (ps ++ [pivot]) ∧ IsLowest s l ∧
      ns = [answer cfg.eval q pivot] ∧ φ pivot.origin = false ∧
      (2 ≤ max efArg knbn → ∀ p, Reaches (links s l) pivot p → φ p.origin = false) :=
  nav09_filter_partial L (hr.good L).nav q hNN knbn efArg hk φ ns h

example : ∃ ns, searchFilter (listPolicy Nat) (exCfg 3) ex4 [26] 3 10 (some fun i => i != 25) = .ok ns ∧
    ns.map (·.dId) = [30, 20, 10] ∧ 1 ≤ max 10 3 :=
  ⟨_, rfl, by decide +kernel, by decide⟩

/-- **C10** Filtered search with large `ef`: if `ef ≥ 2` is at least the number of points and some
accepted point is reachable, the answers are the `knbn` nearest among the accepted reachable points,
when the search returns and no distance is a NaN.  Missing: distances that are NaN (`C10_exact_refuted`). -/
theorem C10_exact_partial (L : P.Lawful) (hr : Reach P cfg s) (hne : s.points ≠ []) (q : List T)
    (hNN : ∀ p ∈ s.points, (cfg.eval q p.data).isNaN = false) (knbn efArg : Nat)
    (hef : s.points.length ≤ max efArg knbn) (hef2 : 2 ≤ max efArg knbn) (φ : DataId → Bool)
    (ns : List Neighbour) (h : searchFilter P cfg s q knbn efArg (some φ) = .ok ns) :
    ∃ (ep pivot : Ref T) (ps : List (Ref T)) (l : Nat),
      s.entry = some ep ∧ Descent cfg.eval q s ep.pid.layer ep (ps ++ [pivot]) ∧ IsLowest s l ∧
      ((∃ p, Reaches (links s l) pivot p ∧ φ p.origin = true) →
        IsKNearest cfg.eval q knbn (fun p => Reaches (links s l) pivot p ∧ φ p.origin = true) ns) :=
  nav10_exact_partial L (hr.good L).nav hne q hNN knbn efArg hef hef2 φ ns h

/-- **C10** (legal distances) With legal distances such a search does return. -/
theorem C10_filter_exact (L : P.Lawful) (hr : Reach P cfg s) (hne : s.points ≠ []) (q : List T)
    (hL : LegalOn cfg.eval s q) (knbn efArg : Nat) (hef : s.points.length ≤ max efArg knbn)
    (hef2 : 2 ≤ max efArg knbn) (φ : DataId → Bool) :
    ∃ (ep pivot : Ref T) (ps : List (Ref T)) (l : Nat) (ns : List Neighbour),
      s.entry = some ep ∧ Descent cfg.eval q s ep.pid.layer ep (ps ++ [pivot]) ∧ IsLowest s l ∧
      searchFilter P cfg s q knbn efArg (some φ) = .ok ns ∧
      ((∃ p, Reaches (links s l) pivot p ∧ φ p.origin = true) →
        IsKNearest cfg.eval q knbn (fun p => Reaches (links s l) pivot p ∧ φ p.origin = true) ns) :=
  nav10_filter_exact L (hr.good L).nav hne q hL knbn efArg hef hef2 φ

example : ex4.points.length ≤ max 10 2 ∧
    ∃ ns, searchFilter (listPolicy Nat) (exCfg 3) ex4 [26] 2 10 (some fun i => i != 25) = .ok ns ∧
    ns.map (·.dId) = [30, 20] :=
  ⟨by decide +kernel, _, rfl, by decide +kernel⟩

/-- **C13** is false: with `knbn = 0`, `ef = 0` and a filter the search panics (`unwrap` of `peek` on an
empty heap). -/
theorem C13_refuted : ∃ (s : Idx Nat) (q : List Nat) (φ : DataId → Bool),
    Reach (listPolicy Nat) (exCfg 3) s ∧ LegalOn (exCfg 3).eval s q ∧
    searchFilter (listPolicy Nat) (exCfg 3) s q 0 0 (some φ) = .error .unwrapNone :=
  ⟨ex4, [31], fun i => i != 30, ex4_reach, absDist_legalOn _ _, by rfl⟩

/-- **C13** (what holds) `knbn = 0` gives the empty answer without panic when there is no filter or
`ef ≥ 1`. Missing: `ef = 0` with a filter. -/
theorem C13_knbn_zero_partial (L : P.Lawful) (hr : Reach P cfg s) (q : List T)
    (hL : LegalOn cfg.eval s q) (efArg : Nat) (filt : Option (DataId → Bool))
    (hf : filt = none ∨ 1 ≤ efArg) : searchFilter P cfg s q 0 efArg filt = .ok [] :=
  nav13_knbn_zero_partial L (hr.good L).nav q hL efArg filt hf

example : searchFilter (listPolicy Nat) (exCfg 3) ex4 [26] 0 3 (some fun _ => true) = .ok [] := by rfl

/-- **C26** (searches) When no distance between the query and a stored point is a NaN, a search never
reports a negative distance, nor a NaN, even if the distance function returns negative values.  Missing:
distances that are NaN, which a search may report (`C26_search_refuted`). -/
theorem C26_search_partial (L : P.Lawful) (hr : Reach P cfg s) (q : List T)
    (hN : ∀ p ∈ s.points, (cfg.eval q p.data).isNaN = false) (knbn efArg : Nat)
    (filt : Option (DataId → Bool)) (ns : List Neighbour)
    (h : searchFilter P cfg s q knbn efArg filt = .ok ns) : ∀ n ∈ ns, n.distance.Legal :=
  nav26_search_partial L (hr.good L).nav q hN knbn efArg filt ns h

/-- **C67** The number of answers: an unfiltered search returns exactly `min knbn r` answers, where `r`
is the number of points that can be reached from the pivot in the searched layer. This holds for every
`ef`, small or large. -/
theorem C67_count (L : P.Lawful) (hr : Reach P cfg s) (hne : s.points ≠ []) (q : List T)
    (hL : LegalOn cfg.eval s q) (knbn efArg : Nat) :
    ∃ (ep pivot : Ref T) (ps : List (Ref T)) (l : Nat) (ns : List Neighbour),
      s.entry = some ep ∧ Descent cfg.eval q s ep.pid.layer ep (ps ++ [pivot]) ∧ IsLowest s l ∧
      search P cfg s q knbn efArg = .ok ns ∧
      ∀ R : List (Ref T), R.Nodup → (∀ p, p ∈ R ↔ Reaches (links s l) pivot p) →
        ns.length = min knbn R.length :=
  nav67_count L (hr.good L).nav hne q hL knbn efArg

/-- **C67** (filtered searches) With a filter and `2 ≤ max ef knbn`, if some accepted point is reachable
the number of answers is `min knbn a`, where `a` is the number of accepted reachable points. -/
theorem C67_filter_count (L : P.Lawful) (hr : Reach P cfg s) (hne : s.points ≠ []) (q : List T)
    (hL : LegalOn cfg.eval s q) (knbn efArg : Nat) (hef2 : 2 ≤ max efArg knbn) (φ : DataId → Bool) :
    ∃ (ep pivot : Ref T) (ps : List (Ref T)) (l : Nat) (ns : List Neighbour),
      s.entry = some ep ∧ Descent cfg.eval q s ep.pid.layer ep (ps ++ [pivot]) ∧ IsLowest s l ∧
      searchFilter P cfg s q knbn efArg (some φ) = .ok ns ∧
      ∀ R : List (Ref T), R.Nodup →
        (∀ p, p ∈ R ↔ Reaches (links s l) pivot p ∧ φ p.origin = true) → R ≠ [] →
        ns.length = min knbn R.length :=
  nav67_filter_count L (hr.good L).nav hne q hL knbn efArg hef2 φ

/-- **C67** does not extend to `max ef knbn = 1` with a filter: the search stops at the pivot although an
accepted point is its neighbour. -/
theorem C67_filter_refuted : ∃ (s : Idx Nat) (q : List Nat) (φ : DataId → Bool) (ns : List Neighbour),
    Reach (listPolicy Nat) (exCfg 3) s ∧ LegalOn (exCfg 3).eval s q ∧
    searchFilter (listPolicy Nat) (exCfg 3) s q 1 1 (some φ) = .ok ns ∧
    (∀ n ∈ ns, φ n.dId = false) ∧ ns ≠ [] ∧
    ∃ e ep, s.entry = some ep ∧ e ∈ links s 0 ep.pid ∧ φ e.pt.origin = true ∧ ep.pid.layer = 0 :=
  ⟨exIdx (exCfg 3) [(10, 0), (20, 0)], [10], fun i => i != 10, _, exIdx_reach _ _ (by decide),
    absDist_legalOn _ _, rfl, by decide +kernel, by decide +kernel,
    ⟨⟨⟨⟨0, 1⟩, 20, [20]⟩, ⟨false, 10⟩⟩, ⟨⟨0, 0⟩, 10, [10]⟩, by decide +kernel, by decide +kernel,
      by decide, rfl⟩⟩

example : Reach (listPolicy Nat) (exCfg 3) ex4 ∧ ex4.points ≠ [] ∧
    (∃ ns, search (listPolicy Nat) (exCfg 3) ex4 [26] 2 0 = .ok ns ∧ ns.length = 2) ∧
    (∃ ns, searchFilter (listPolicy Nat) (exCfg 3) ex4 [26] 2 0 (some fun i => i != 25) = .ok ns ∧
      ns.length = 2) :=
  ⟨ex4_reach, by decide +kernel, ⟨_, rfl, by decide +kernel⟩, ⟨_, rfl, by decide +kernel⟩⟩

/-- **C68** Local optimality of filtered searches, for `2 ≤ max ef knbn`: in the searched layer, a
neighbour accepted by the filter of a returned point is returned or is at least as far as every returned
point. -/
theorem C68_filter_local_optimum (L : P.Lawful) (hr : Reach P cfg s) (q : List T)
    (hNN : ∀ p ∈ s.points, (cfg.eval q p.data).isNaN = false) (knbn efArg : Nat) (hef2 : 2 ≤ max efArg knbn) (φ : DataId → Bool)
    (ns : List Neighbour) (h : searchFilter P cfg s q knbn efArg (some φ) = .ok ns) (l : Nat)
    (hl : IsLowest s l) :
    ∀ n ∈ ns, ∀ e ∈ s.nb n.pId l, φ e.pt.origin = true →
      answer cfg.eval q e.pt ∈ ns ∨ ∀ m ∈ ns, m.distance.key ≤ (cfg.eval q e.pt.data).key :=
  nav68_filter_local_optimum L (hr.good L).nav q hNN knbn efArg hef2 φ ns h l hl

example : (∃ ns, searchFilter (listPolicy Nat) (exCfg 3) ex4 [26] 2 2 (some fun i => i != 25) = .ok ns ∧
      ns.map (·.dId) = [30, 20]) ∧ IsLowest ex4 0 :=
  ⟨⟨_, rfl, by decide +kernel⟩, by decide +kernel, by simp⟩

end Verif
