import Verif.StdHeap
import Verif.Examples
import Verif.Props.AnyBytes
import Verif.Props.Select
import Verif.Props.AnyInsert

set_option autoImplicit false

/-!
# NaN, and the containers of the standard library

`BinaryHeap` and `sort_unstable` compare with `<`, `<=`, `>=`, i.e. with `partial_cmp`, and never reach the panic
of `cmp` (/repo/src/hnsw.rs 289-297).  A heap that has received a NaN goes on, disordered.
-/

namespace Verif

/-! ## C105 -/

/-- **C105** `BinaryHeap` and insertion sort, as they are written in the standard library, obey the laws
assumed of the containers (`Policy.Lawful`): nothing is lost, and without NaN the heap gives a maximum, both
sorts sort and nothing panics. -/
theorem C105_std_lawful (T : Type) : (stdPolicy T).Lawful := stdPolicy_lawful

/-- a point of the examples below -/
def nanPt (n : Nat) : Ref Nat := ⟨⟨0, n⟩, UInt64.ofNat n, [n]⟩

/-- a NaN -/
def nan32 : F32 := ⟨false, Fin.ofNat _ 0x7fc00000⟩

/-- the heap after pushing distances 2, 7, 4, 9, 1, and its sorted content -/
example :
    let h := [2, 7, 4, 9, 1].foldl (fun h d => heapPush h ⟨nanPt 0, ⟨false, d⟩⟩) []
    (stdPolicy Nat).Built h ∧ h.map (·.dist.key) = [9, 7, 4, 2, 1] ∧
    (heapPop h).map (fun x => (x.1.dist.key, x.2.map (·.dist.key))) = some (9, [7, 2, 4, 1]) ∧
    ((stdPolicy Nat).intoSorted h).map (·.dist.key) = [1, 2, 4, 7, 9] := by
  refine ⟨?_, by decide +kernel, by decide +kernel, by decide +kernel⟩
  have h0 : (stdPolicy Nat).Built ([] : List (PWO Nat)) := .nil rfl
  have h : ∀ (l : List (Fin (2 ^ 31))) (h : (stdPolicy Nat).H), (stdPolicy Nat).Built h →
      (∀ d ∈ l, (⟨false, d⟩ : F32).isNaN = false) →
      (stdPolicy Nat).Built (l.foldl (fun h d => heapPush h ⟨nanPt 0, ⟨false, d⟩⟩) h) := by
    intro l
    induction l with
    | nil => intro h hb _; exact hb
    | cons d l ih =>
      intro h hb hl
      exact ih _ (Policy.Built.push (P := stdPolicy Nat) hb (hl d List.mem_cons_self))
        (fun d hd => hl d (List.mem_cons_of_mem _ hd))
  refine h _ _ h0 ?_
  intro d hd
  simp only [List.mem_cons, List.not_mem_nil, or_false] at hd
  rcases hd with rfl | rfl | rfl | rfl | rfl <;> rfl

/-- a heap in which 5, NaN and 3 have been pushed, in this order -/
def nanHeap : List (PWO Nat) :=
  heapPush (heapPush (heapPush [] ⟨nanPt 0, ⟨false, 5⟩⟩) ⟨nanPt 1, nan32⟩) ⟨nanPt 2, ⟨false, 3⟩⟩

/-- **C105** the condition on NaN is needed: of 5, NaN and 3, pushed in this order, the heap gives 3 as the
maximum; `into_sorted_vec` then gives 5 before 3, and insertion sort leaves 5, NaN, 3 as it is. -/
theorem C105_nan_needed :
    (∃ h', heapPop nanHeap = some (⟨nanPt 2, ⟨false, 3⟩⟩, h')) ∧ ⟨nanPt 0, ⟨false, 5⟩⟩ ∈ nanHeap ∧
    ((stdPolicy Nat).intoSorted nanHeap).map (·.dist) = [⟨false, 5⟩, nan32, ⟨false, 3⟩] ∧
    ((stdPolicy Nat).sort [⟨nanPt 0, ⟨false, 5⟩⟩, ⟨nanPt 1, nan32⟩, ⟨nanPt 2, ⟨false, 3⟩⟩]).map (·.dist) =
      [⟨false, 5⟩, nan32, ⟨false, 3⟩] := by
  refine ⟨⟨_, rfl⟩, by decide +kernel, by decide +kernel, by decide +kernel⟩

/-! ## Searches -/

/-- a distance where the point 100 is at distances NaN, 5, 3, 4, 1 of the points 0 to 4, which are on
a line -/
def nanDist (a b : List Nat) : F32 :=
  if 100 ≤ a.headD 0 then [nan32, ⟨false, 5⟩, ⟨false, 3⟩, ⟨false, 4⟩, ⟨false, 1⟩].getD (b.headD 0) ⟨false, 20⟩
  else absDist a b

def nanCfg : Cfg Nat := { exCfg 1 with eval := nanDist }

/-- the points 1, 0, 2, 3, 4 inserted in this order -/
def nanSt : CSt Nat :=
  (insertAll (stdPolicy Nat) nanCfg (CSt.new 16) ([1, 0, 2, 3, 4].map fun x => (item x, 0))).getD (CSt.new 16)

theorem nanSt_reach : ReachC (stdPolicy Nat) nanCfg nanSt := by
  unfold nanSt
  cases hs : insertAll (stdPolicy Nat) nanCfg (CSt.new 16)
    ([1, 0, 2, 3, 4].map fun x => (item x, 0)) with
  | none => exact .new
  | some s =>
    refine reach_insertAll stdPolicy_lawful _ .new ?_ hs
    intro x hx
    obtain ⟨y, _, rfl⟩ := List.mem_map.1 hx
    exact (by decide : 0 < 16)

/-- what the code answers to the query 100 with `knbn = 5`, `ef = 10`, once the five points have been
inserted -/
theorem nan_search : search (stdPolicy Nat) nanCfg nanSt.idx [100] 5 10 =
    .ok [⟨3, ⟨false, 4⟩, ⟨0, 3⟩⟩, ⟨0, nan32, ⟨0, 1⟩⟩, ⟨1, ⟨false, 5⟩, ⟨0, 0⟩⟩, ⟨2, ⟨false, 3⟩, ⟨0, 2⟩⟩] := rfl

/-- **C01** is false as soon as one distance is a NaN, with the heap of the standard library: a search may
return normally with an answer nearer than the one before it.  (Its first answer is not the nearest one, and
the nearest point is not found.) -/
theorem C01_sorted_refuted : ∃ (cfg : Cfg Nat) (s : Idx Nat) (q : List Nat) (ns : List Neighbour),
    Reach (stdPolicy Nat) cfg s ∧ search (stdPolicy Nat) cfg s q 5 10 = .ok ns ∧
    ∃ a b c : Neighbour, [a, b, c].Sublist ns ∧ c.distance.lt b.distance = true ∧
      c.distance.lt a.distance = true ∧ ∃ p ∈ s.points, (cfg.eval q p.data).lt c.distance = true :=
  ⟨nanCfg, nanSt.idx, [100], _, ⟨_, nanSt_reach, rfl⟩, nan_search,
    ⟨3, ⟨false, 4⟩, ⟨0, 3⟩⟩, ⟨1, ⟨false, 5⟩, ⟨0, 0⟩⟩, ⟨2, ⟨false, 3⟩, ⟨0, 2⟩⟩, by decide +kernel,
    by decide +kernel, by decide +kernel, by decide +kernel⟩

/-- a distance where the point 100 is at distances 1, 6, 3, NaN, NaN, NaN, 5, 2 of the points 0 to 7; the
point 0 is at distance `i` of the point `i`, and the others at distance 20 of each other -/
def starDist (a b : List Nat) : F32 :=
  if 100 ≤ a.headD 0 then
    [⟨false, 1⟩, ⟨false, 6⟩, ⟨false, 3⟩, nan32, nan32, nan32, ⟨false, 5⟩, ⟨false, 2⟩].getD (b.headD 0) ⟨false, 20⟩
  else if a.headD 0 = 0 ∨ b.headD 0 = 0 then absDist a b
  else if a.headD 0 = b.headD 0 then F32.zero
  else ⟨false, 20⟩

def starCfg : Cfg Nat := { exCfg 4 with eval := starDist }

/-- the points 0 to 7 inserted in this order: the first one is linked to all the others -/
def starSt : CSt Nat :=
  (insertAll (stdPolicy Nat) starCfg (CSt.new 16) ((List.range 8).map fun x => (item x, 0))).getD (CSt.new 16)

theorem starSt_reach : ReachC (stdPolicy Nat) starCfg starSt := by
  unfold starSt
  cases hs : insertAll (stdPolicy Nat) starCfg (CSt.new 16)
    ((List.range 8).map fun x => (item x, 0)) with
  | none => exact .new
  | some s =>
    refine reach_insertAll stdPolicy_lawful _ .new ?_ hs
    intro x hx
    obtain ⟨y, _, rfl⟩ := List.mem_map.1 hx
    exact (by decide : 0 < 16)

/-- **C08** is false as soon as distances are NaN, with the heap of the standard library: asked for one
neighbour, a search may return normally a point that is farther than the entry point, whose distance is a
number, as is that of the answer. -/
theorem C08_worse_refuted : ∃ (cfg : Cfg Nat) (s : Idx Nat) (q : List Nat) (n : Neighbour) (ep : Ref Nat),
    Reach (stdPolicy Nat) cfg s ∧ search (stdPolicy Nat) cfg s q 1 7 = .ok [n] ∧ s.entry = some ep ∧
    (cfg.eval q ep.data).lt n.distance = true :=
  ⟨starCfg, starSt.idx, [100], ⟨2, ⟨false, 3⟩, ⟨0, 2⟩⟩, ⟨⟨0, 0⟩, 0, [0]⟩, ⟨_, starSt_reach, rfl⟩, rfl,
    by decide +kernel, by decide +kernel⟩

/-- **C06** is false as soon as one distance is a NaN: a search may return normally although a neighbour, in the
searched layer, of an answer is nearer than this answer and is not returned. -/
theorem C06_local_refuted : ∃ (cfg : Cfg Nat) (s : Idx Nat) (q : List Nat) (ns : List Neighbour),
    Reach (stdPolicy Nat) cfg s ∧ search (stdPolicy Nat) cfg s q 5 10 = .ok ns ∧ IsLowest s 0 ∧
    ∃ n ∈ ns, ∃ e ∈ s.nb n.pId 0, e.pt.pid ∉ ns.map (·.pId) ∧
      (cfg.eval q e.pt.data).lt n.distance = true :=
  ⟨nanCfg, nanSt.idx, [100], _, ⟨_, nanSt_reach, rfl⟩, nan_search, ⟨by decide +kernel, by simp⟩,
    ⟨3, ⟨false, 4⟩, ⟨0, 3⟩⟩, by decide +kernel, by decide +kernel⟩

/-- **C07** is false as soon as one distance is a NaN: with `knbn` equal to the number of points and `ef` larger, a
search may return normally without the nearest point, although it is linked to the entry point (which is the pivot:
all levels are 0). -/
theorem C07_exact_refuted : ∃ (cfg : Cfg Nat) (s : Idx Nat) (q : List Nat) (ns : List Neighbour) (ep p : Ref Nat),
    Reach (stdPolicy Nat) cfg s ∧ search (stdPolicy Nat) cfg s q 5 10 = .ok ns ∧ s.points.length = 5 ∧
    IsLowest s 0 ∧ s.entry = some ep ∧ ep.pid.layer = 0 ∧ Reaches (links s 0) ep p ∧
    p.pid ∉ ns.map (·.pId) ∧ (∀ n ∈ ns, n.distance.lt (cfg.eval q p.data) = false) ∧ ns.length = 4 := by
  refine ⟨nanCfg, nanSt.idx, [100], _, ⟨⟨0, 0⟩, 1, [1]⟩, ⟨⟨0, 4⟩, 4, [4]⟩, ⟨_, nanSt_reach, rfl⟩, nan_search,
    by decide +kernel, ⟨by decide +kernel, by simp⟩, by decide +kernel, rfl, ?_, by decide +kernel,
    by decide +kernel, rfl⟩
  have h1 : Reaches (links nanSt.idx 0) (⟨⟨0, 0⟩, 1, [1]⟩ : Ref Nat) ⟨⟨0, 2⟩, 2, [2]⟩ :=
    Reaches.refl.step (e := ⟨⟨⟨0, 2⟩, 2, [2]⟩, ⟨false, 1⟩⟩) (by decide +kernel)
  have h2 : Reaches (links nanSt.idx 0) (⟨⟨0, 0⟩, 1, [1]⟩ : Ref Nat) ⟨⟨0, 3⟩, 3, [3]⟩ :=
    h1.step (e := ⟨⟨⟨0, 3⟩, 3, [3]⟩, ⟨false, 1⟩⟩) (by decide +kernel)
  exact h2.step (e := ⟨⟨⟨0, 4⟩, 4, [4]⟩, ⟨false, 1⟩⟩) (by decide +kernel)

/-- a distance where the point 100 is at distances 7, NaN, 3, 6 of the points 0 to 3, which are on a line -/
def nanDist2 (a b : List Nat) : F32 :=
  if 100 ≤ a.headD 0 then [⟨false, 7⟩, nan32, ⟨false, 3⟩, ⟨false, 6⟩].getD (b.headD 0) ⟨false, 20⟩
  else absDist a b

def nanCfg2 : Cfg Nat := { exCfg 3 with eval := nanDist2 }

/-- the points 0, 1, 2, 3 inserted in this order -/
def nanSt2 : CSt Nat :=
  (insertAll (stdPolicy Nat) nanCfg2 (CSt.new 16) ([0, 1, 2, 3].map fun x => (item x, 0))).getD (CSt.new 16)

theorem nanSt2_reach : ReachC (stdPolicy Nat) nanCfg2 nanSt2 := by
  unfold nanSt2
  cases hs : insertAll (stdPolicy Nat) nanCfg2 (CSt.new 16)
    ([0, 1, 2, 3].map fun x => (item x, 0)) with
  | none => exact .new
  | some s =>
    refine reach_insertAll stdPolicy_lawful _ .new ?_ hs
    intro x hx
    obtain ⟨y, _, rfl⟩ := List.mem_map.1 hx
    exact (by decide : 0 < 16)

/-- **C10** is false as soon as one distance is a NaN: a search with a filter that accepts everything and `ef`
equal to the number of points may return normally three points of four without the nearest one, which is linked to
the entry point. -/
theorem C10_exact_refuted : ∃ (cfg : Cfg Nat) (s : Idx Nat) (q : List Nat) (ns : List Neighbour) (ep p : Ref Nat),
    Reach (stdPolicy Nat) cfg s ∧ searchFilter (stdPolicy Nat) cfg s q 3 4 (some fun _ => true) = .ok ns ∧
    s.points.length = 4 ∧ IsLowest s 0 ∧ s.entry = some ep ∧ ep.pid.layer = 0 ∧ Reaches (links s 0) ep p ∧
    p.pid ∉ ns.map (·.pId) ∧ ∃ n ∈ ns, (cfg.eval q p.data).lt n.distance = true := by
  refine ⟨nanCfg2, nanSt2.idx, [100], _, ⟨⟨0, 0⟩, 0, [0]⟩, ⟨⟨0, 2⟩, 2, [2]⟩, ⟨_, nanSt2_reach, rfl⟩, rfl,
    by decide +kernel, ⟨by decide +kernel, by simp⟩, by decide +kernel, rfl, ?_, by decide +kernel,
    by decide +kernel⟩
  exact Reaches.refl.step (e := ⟨⟨⟨0, 2⟩, 2, [2]⟩, ⟨false, 2⟩⟩) (by decide +kernel)

/-- **C26** is false for searches as soon as one distance is a NaN: a search may report it. -/
theorem C26_search_refuted : ∃ (cfg : Cfg Nat) (s : Idx Nat) (q : List Nat) (ns : List Neighbour),
    Reach (stdPolicy Nat) cfg s ∧ search (stdPolicy Nat) cfg s q 5 10 = .ok ns ∧
    ∃ n ∈ ns, n.distance.isNaN = true :=
  ⟨nanCfg, nanSt.idx, [100], _, ⟨_, nanSt_reach, rfl⟩, nan_search, ⟨0, nan32, ⟨0, 1⟩⟩,
    by decide +kernel, by decide +kernel⟩

/-- **C92** is false as soon as one distance is a NaN: a search panics with a filter that accepts
everything and does not without filter. -/
theorem C92_accept_all_refuted : ∃ (cfg : Cfg Nat) (s : Idx Nat) (q : List Nat) (ns : List Neighbour),
    Reach (stdPolicy Nat) cfg s ∧ search (stdPolicy Nat) cfg s q 5 10 = .ok ns ∧
    searchFilter (stdPolicy Nat) cfg s q 5 10 (some fun _ => true) = .error .assertion :=
  ⟨nanCfg, nanSt.idx, [100], _, ⟨_, nanSt_reach, rfl⟩, nan_search, rfl⟩

/-- **C102** is false as soon as one distance is a NaN: in an index where all distances are different, a
search answers with the heap of the standard library and panics with another lawful one. -/
theorem C102_search_refuted : ∃ (cfg : Cfg Nat) (s : Idx Nat) (q : List Nat) (ns : List Neighbour),
    Reach (stdPolicy Nat) cfg s ∧ (listPolicy Nat).Lawful ∧
    (s.points.map fun p => cfg.eval q p.data).Nodup ∧
    search (stdPolicy Nat) cfg s q 5 10 = .ok ns ∧ search (listPolicy Nat) cfg s q 5 10 = .error .assertion :=
  ⟨nanCfg, nanSt.idx, [100], _, ⟨_, nanSt_reach, rfl⟩, listPolicy_lawful, by decide +kernel, nan_search, rfl⟩

/-! ## Selection of neighbours -/

/-- a distance where 100 is at 1 of the point 0, NaN of 1, 5 of 2, and 4 is at NaN of 5 -/
def nanDist3 (a b : List Nat) : F32 :=
  if a.headD 0 = 100 then [⟨false, 1⟩, nan32, ⟨false, 5⟩, ⟨false, 3⟩, ⟨false, 4⟩, ⟨false, 6⟩].getD (b.headD 0)
    ⟨false, 20⟩
  else if a.headD 0 = 5 ∧ b.headD 0 = 4 then nan32
  else absDist a b

def nanCfg3 : Cfg Nat := { exCfg 3 with eval := nanDist3 }

/-- the negated distances from 100 of some points, in a heap of the standard library -/
def nanCands (l : List Nat) : List (PWO Nat) :=
  l.foldl (fun h n => heapPush h ⟨nanPt n, (nanDist3 [100] [n]).neg⟩) []

/-- **C24** is false with a NaN between two candidates: 4 and 5, at distances 4 and 6 of the new point and NaN of
each other, are both selected, so that 5 is not nearer to the new point than to 4. -/
theorem C24_diversified_refuted : ∃ (v : List (PWO Nat)) (c' : CSt Nat),
    (selectP (stdPolicy Nat) nanCfg3 ⟨⟨0, 9⟩, 9, [100]⟩ (nanCands [4, 5, 2]) 2 false 0 false).run (CSt.new 16) =
      .ok v c' ∧
    ∃ d e, [d, e].Sublist v ∧ e.dist.lt (nanCfg3.eval e.pt.data d.pt.data) = false :=
  ⟨_, _, rfl, ⟨nanPt 4, ⟨false, 4⟩⟩, ⟨nanPt 5, ⟨false, 6⟩⟩, by decide +kernel, by decide +kernel⟩

/-- an index where the point 0 has the neighbours 1 and 2 -/
def nanSt3 : CSt Nat :=
  { (CSt.new 16 : CSt Nat) with idx := (Idx.new 16).setNb ⟨0, 0⟩ 0 ([1, 2].map fun n => ⟨nanPt n, ⟨false, 1⟩⟩) }

/-- **C24** is false with a NaN among the extended candidates: the only candidate 0, at distance 1, is extended by
its neighbours 1 and 2 at distances NaN and 5; one is asked, and 2 is selected, not the nearest one. -/
theorem C24_nearest_refuted : ∃ (v : List (PWO Nat)) (c' : CSt Nat),
    (selectP (stdPolicy Nat) nanCfg3 ⟨⟨0, 9⟩, 9, [100]⟩ (nanCands [0]) 1 true 0 false).run nanSt3 = .ok v c' ∧
    v.map (·.pt.pid) = [⟨0, 2⟩] ∧
    ∃ x ∈ candidates (stdPolicy Nat) (nanCands [0]), ∀ y ∈ v, x.dist.lt y.dist = true :=
  ⟨_, _, rfl, by decide +kernel, ⟨nanPt 0, ⟨false, 1⟩⟩, by decide +kernel, by decide +kernel⟩

/-! ## Reloads -/

/-- the dump of `io4`, some bytes of the graph file changed -/
def damagedAt (l : List (Nat × UInt8)) : Dir := fun n =>
  match fileDump u8Ty io4 (fun _ => none) "a" [] with
  | some (fs, _) =>
    if n = "a.hnsw.graph" then (fs n).map fun g => l.foldl (fun g c => g.set c.1 c.2) g else fs n
  | none => none

/-- does the reload of a file succeed and give an index with this property? -/
def loadsWith (P : Policy UInt8) (dist : Dist UInt8) (fs : Dir) (f : Hnsw UInt8 → Bool) : Bool :=
  match ((HnswIo.new "a" .default).loadHnsw P u8Ty exScale dist fs).2 with
  | .ok x => f x.hnsw
  | .error _ => false

theorem loadsWith_iff {P : Policy UInt8} {dist : Dist UInt8} {fs : Dir} {f : Hnsw UInt8 → Bool}
    (h : loadsWith P dist fs f = true) : ∃ io' x,
      (HnswIo.new "a" .default).loadHnsw P u8Ty exScale dist fs = (io', .ok x) ∧ f x.hnsw = true := by
  unfold loadsWith at h
  generalize (HnswIo.new "a" .default).loadHnsw P u8Ty exScale dist fs = r at h ⊢
  obtain ⟨io', r⟩ := r
  cases r with
  | ok x => exact ⟨io', x, rfl, h⟩
  | error e => simp at h

/-- **C73** A list with a NaN needs not be sorted after a reload: the file with one distance changed to a NaN and
another one to 200 is accepted, and its list comes as 200, NaN, 15. -/
theorem C73_sorted_refuted : ∃ (fs : Dir) (io' : HnswIo) (x : Loaded UInt8),
    (HnswIo.new "a" .default).loadHnsw (stdPolicy UInt8) u8Ty exScale u8Dist fs = (io', .ok x) ∧
    ∃ p l, (x.hnsw.idx.nb p l).map (·.dist) =
      [⟨false, 200⟩, ⟨false, Fin.ofNat _ 0x7fc00005⟩, ⟨false, 15⟩] := by
  have h : loadsWith (stdPolicy UInt8) u8Dist (damagedAt [(787, 200), (806, 0xc0), (807, 0x7f)])
    (fun x => (x.idx.nb ⟨2, 0⟩ 0).map (·.dist) ==
      [⟨false, 200⟩, ⟨false, Fin.ofNat _ 0x7fc00005⟩, ⟨false, 15⟩]) = true := by decide +kernel
  obtain ⟨io', x, h1, h2⟩ := loadsWith_iff h
  exact ⟨_, io', x, h1, ⟨2, 0⟩, 0, by simpa using h2⟩

/-- five points on a line, inserted in the order 1, 0, 2, 3, 4 -/
def nanIo : Hnsw UInt8 :=
  ioH exScale 1 16 u8Dist ([1, 0, 2, 3, 4].map fun x => (([x], UInt64.ofNat x.toNat), 0))

/-- its dump -/
def nanFiles : Dir :=
  match fileDump u8Ty nanIo (fun _ => none) "a" [] with
  | some (fs, _) => fs
  | none => fun _ => none

/-- a distance with a NaN -/
def nanDist8 : Dist UInt8 where
  name := u8Dist.name
  eval a b := nanDist (a.map UInt8.toNat) (b.map UInt8.toNat)

/-- **C74** The answers of a search in a reloaded index need not be sorted if one distance is a NaN. -/
theorem C74_sorted_refuted : ∃ (fs : Dir) (io' : HnswIo) (x : Loaded UInt8) (ns : List Neighbour),
    (HnswIo.new "a" .default).loadHnsw (stdPolicy UInt8) u8Ty exScale nanDist8 fs = (io', .ok x) ∧
    search (stdPolicy UInt8) x.hnsw.cfg x.hnsw.idx [100] 5 10 = .ok ns ∧
    ns.map (·.distance) = [⟨false, 4⟩, nan32, ⟨false, 5⟩, ⟨false, 3⟩] := by
  have h : loadsWith (stdPolicy UInt8) nanDist8 nanFiles
    (fun x => match search (stdPolicy UInt8) x.cfg x.idx [100] 5 10 with
      | .ok ns => ns.map (·.distance) == [⟨false, 4⟩, nan32, ⟨false, 5⟩, ⟨false, 3⟩]
      | .error _ => false) = true := by decide +kernel
  obtain ⟨io', x, h1, h2⟩ := loadsWith_iff h
  cases hs : search (stdPolicy UInt8) x.hnsw.cfg x.hnsw.idx [100] 5 10 with
  | error e => rw [hs] at h2; simp at h2
  | ok ns =>
    rw [hs] at h2
    exact ⟨_, io', x, ns, h1, hs, by simpa using h2⟩

/-! ## Insertions after a reload -/

/-- containers whose sort panics on two elements or more if one is a NaN: "May panic if the implementation of `Ord` for `T`
does not implement a total order" (documentation of `sort_unstable`) -/
def frailPolicy (T : Type) : Policy T :=
  { stdPolicy T with sortPanics := fun l => decide (1 < l.length) && l.any (·.dist.isNaN) }

theorem frailPolicy_lawful {T : Type} : (frailPolicy T).Lawful :=
  have L := stdPolicy_lawful (T := T)
  have hB : ∀ h, (frailPolicy T).Built h → (stdPolicy T).Built h := by
    intro h hb
    induction hb with
    | nil h => exact .nil h
    | push _ hx ih => exact .push ih hx
    | pop _ hp ih => exact .pop ih hp
  { items_empty := L.items_empty
    items_push := L.items_push
    pop_none := L.pop_none
    pop_perm := L.pop_perm
    pop_max := fun h hb => L.pop_max h (hB h hb)
    intoSorted_perm := L.intoSorted_perm
    intoSorted_sorted := fun h hb => L.intoSorted_sorted h (hB h hb)
    sort_perm := L.sort_perm
    sort_sorted := L.sort_sorted
    hash_perm := L.hash_perm
    push_ok := fun _ _ _ _ => rfl
    intoSorted_ok := fun _ _ => rfl
    sort_ok := fun l hl => by
      have : l.any (·.dist.isNaN) = false := by
        rw [List.any_eq_false]
        intro e he
        rw [hl e he]
        decide
      simp only [frailPolicy, this, Bool.and_false] }

/-- **C111 is false** if a link of the files is a NaN: the file with the distance of the only link of a point changed to a NaN
is accepted, all the distances of vectors are legal, and an insertion that links the new point to this one may panic when
it sorts the list; the list keeps the link pushed. (`C73_sorted_refuted`: with the sort of the standard library the lists
can be out of order.) -/
theorem C111_nan_refuted : ∃ (P : Policy UInt8) (fs : Dir) (x : Loaded UInt8), P.Lawful ∧
    LoadsOk P u8Ty exScale u8Dist (HnswIo.new "a" .default) fs x ∧ x.hnsw.idx.layers.length = 16 ∧
    (∀ a ∈ [11, 1] :: x.hnsw.idx.points.map (·.data), ∀ b ∈ [11, 1] :: x.hnsw.idx.points.map (·.data),
      (u8Dist.eval a b).Legal) ∧
    ∃ c, insert P (x.hnsw.cfg.withFlags true false) (CSt.ofIdx x.hnsw.idx) ([11, 1], 3) 0 = .panic .nan c ∧
      (x.hnsw.idx.nb ⟨0, 0⟩ 0).length = 1 ∧ (c.idx.nb ⟨0, 0⟩ 0).length = 2 := by
  have h : loadsWith (frailPolicy UInt8) u8Dist (damagedAt [(143, 0xc0), (144, 0x7f)]) (fun x =>
    x.idx.layers.length == 16 &&
    (([11, 1] :: x.idx.points.map (·.data)).all fun a => ([11, 1] :: x.idx.points.map (·.data)).all fun b =>
      decide ((u8Dist.eval a b).Legal)) &&
    (x.idx.nb ⟨0, 0⟩ 0).length == 1 &&
    match insert (frailPolicy UInt8) (x.cfg.withFlags true false) (CSt.ofIdx x.idx) ([11, 1], 3) 0 with
    | .panic .nan c => (c.idx.nb ⟨0, 0⟩ 0).length == 2
    | _ => false) = true := by decide +kernel
  obtain ⟨io', x, h1, h2⟩ := loadsWith_iff h
  simp only [Bool.and_eq_true, beq_iff_eq, List.all_eq_true, decide_eq_true_eq] at h2
  obtain ⟨⟨⟨h3, h4⟩, h5⟩, h6⟩ := h2
  refine ⟨_, _, x, frailPolicy_lawful, Or.inl (by rw [h1]), h3, h4, ?_⟩
  split at h6
  · rename_i c hc
    exact ⟨c, hc, h5, by simpa using h6⟩
  · cases h6

end Verif
