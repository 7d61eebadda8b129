import Verif.IterConcLemmas
import Verif.Props.Concurrent

set_option autoImplicit false

/-!
# C108: iterating over the points during insertions
-/

namespace Verif
variable {T : Type} {P : Policy T} {cfg : Cfg T}

/-- **C108** (what is yielded, at any moment) The points an iteration has yielded while insertions are running are the
first ones of the table as it was when the iterator was made, each one once; all the points stored before
the insertions started are in this table. -/
theorem C108_prefix (L : P.Lawful) {c0 : CSt T} (h : ReachC P cfg c0) (hm : 0 < cfg.maxLayer) (ext kp : Bool)
    {jobs : List (Job T)} (hl : ∀ j ∈ jobs, j.level < cfg.maxLayer) {m : ISys T}
    (he : IExec P (cfg.withFlags ext kp) c0 jobs m) {s0 : Idx T} {out : List (Ref T)}
    (hi : (∃ pos, m.it = .live s0 pos out) ∨ m.it = .ended s0 out) :
    out <+: s0.points ∧ (out.map (·.pid)).Nodup ∧ (∀ p ∈ c0.idx.points, p ∈ s0.points) ∧
      ∀ p ∈ out, p ∈ m.st.idx.points := by
  have ok := iterOK L ((goodC_flags (e := ext) (k := kp)).2 (h.goodC L)) hm hl he
  rcases hi with ⟨pos, hi⟩ | hi
  · simp only [IterOK, hi] at ok
    obtain ⟨i1, i2, i3, i4, i5, l, r, i6, i7, i8⟩ := ok
    have hpre : out <+: s0.points := ⟨_, i8⟩
    exact ⟨hpre, (hpre.map _).sublist.nodup i5, i2,
      fun p hp => (stored_layers i1 p).2 (hpre.subset hp)⟩
  · simp only [IterOK, hi] at ok
    obtain ⟨i1, i2, i3, i4, rest, i5, i6⟩ := ok
    have hpre : out <+: s0.points := ⟨_, i5⟩
    exact ⟨hpre, (hpre.map _).sublist.nodup i3, i1, fun p hp => i4 p (hpre.subset hp)⟩

/-- **C108** (partial: the points up to the level of the entry point at the moment the iterator is made) An iteration
that comes to its end has yielded each point of the table that was not above the entry point when the iterator
was made.  Missing: a point whose insertion has not yet changed the entry point can be left out
(`C108_refuted`). -/
theorem C108_complete_partial (L : P.Lawful) {c0 : CSt T} (h : ReachC P cfg c0) (hm : 0 < cfg.maxLayer)
    (ext kp : Bool) {jobs : List (Job T)} (hl : ∀ j ∈ jobs, j.level < cfg.maxLayer) {m : ISys T}
    (he : IExec P (cfg.withFlags ext kp) c0 jobs m) {s0 : Idx T} {out : List (Ref T)}
    (hi : m.it = .ended s0 out) {e : Ref T} (hent : s0.entry = some e) {p : Ref T} (hp : p ∈ s0.points)
    (hle : p.pid.layer ≤ e.pid.layer) : p ∈ out := by
  have ok := iterOK L ((goodC_flags (e := ext) (k := kp)).2 (h.goodC L)) hm hl he
  simp only [IterOK, hi] at ok
  obtain ⟨i1, i2, i3, i4, rest, i5, i6⟩ := ok
  rw [← i5] at hp
  rcases List.mem_append.1 hp with hp | hp
  · exact hp
  · have := i6 e hent p hp
    omega

/-- **C108** (old points) If the entry point was on the highest layer in use before the insertions (as after a
sequence of insertions, `C19_entry_top`), an iteration that comes to its end during the insertions has yielded all
the points of that time. -/
theorem C108_old_points (L : P.Lawful) {c0 : CSt T} (h : ReachC P cfg c0) (ht : TopEntry c0.idx)
    (ext kp : Bool) {jobs : List (Job T)} (hl : ∀ j ∈ jobs, j.level < cfg.maxLayer) {m : ISys T}
    (he : IExec P (cfg.withFlags ext kp) c0 jobs m) {s0 : Idx T} {out : List (Ref T)}
    (hi : m.it = .ended s0 out) {p : Ref T} (hp : p ∈ c0.idx.points) : p ∈ out := by
  have hg := h.goodC L
  obtain ⟨e, hee, hes, htop⟩ := ht
  have hm : 0 < cfg.maxLayer := Nat.lt_of_le_of_lt (Nat.zero_le _) (hg.good.ok.tab.layer_lt hes)
  have ok := iterOK L ((goodC_flags (e := ext) (k := kp)).2 hg) hm hl he
  simp only [IterOK, hi] at ok
  obtain ⟨e', h1, h2⟩ := ok.2.1 e hee
  exact C108_complete_partial L h hm ext kp hl he hi h1 (ok.1 p hp) (Nat.le_trans (htop p hp) h2)

/-- **C108** (partial: the index was not empty) An iteration during insertions does not panic. -/
theorem C108_no_panic_partial (L : P.Lawful) {c0 : CSt T} (h : ReachC P cfg c0) (hm : 0 < cfg.maxLayer)
    (ext kp : Bool) {jobs : List (Job T)} (hl : ∀ j ∈ jobs, j.level < cfg.maxLayer) {m : ISys T}
    (he : IExec P (cfg.withFlags ext kp) c0 jobs m) (hc0 : c0.idx.entry ≠ none) (x : Panic) :
    m.it ≠ .failed x := by
  intro hi
  have ok := iterOK L ((goodC_flags (e := ext) (k := kp)).2 (h.goodC L)) hm hl he
  simp only [IterOK, hi] at ok
  exact hc0 ok

/-! ## Concrete executions -/

/-- run insertions and an iteration on the index of the examples -/
def exIter (items : List (Nat × Nat)) (jobs : List (Job Nat)) (is : List (Option Nat)) : Option (ISys Nat) :=
  let c0 := exSt (exCfg 3) items
  runIter is ⟨c0, jobs.map (Job.prog (listPolicy Nat) (exCfg 3) (c0.idx.points.length + jobs.length + 2)), .start⟩

theorem exIter_exec {items : List (Nat × Nat)} {jobs : List (Job Nat)} {is : List (Option Nat)}
    {q : ISys Nat → Bool} (h : (exIter items jobs is).any q = true) :
    ∃ m, IExec (listPolicy Nat) (exCfg 3) (exSt (exCfg 3) items) jobs m ∧ q m = true := by
  rw [Option.any_eq_true] at h
  obtain ⟨m, hm, hq⟩ := h
  exact ⟨m, runIter_steps _ _ _ hm, hq⟩

/-- points of the table of the iterator and points yielded, at the end -/
def iterSeen (m : ISys Nat) : Option (List (List Nat) × List (List Nat)) :=
  match m.it with
  | .ended s0 out => some (s0.points.map (·.data), out.map (·.data))
  | _ => none

/-- **C108 is false** in general: the iteration starts when the point of an insertion at level 2 is in the table but
not yet the entry point; it ends without this point, although the table had it all the time. -/
theorem C108_refuted : ∃ m s0 out, IExec (listPolicy Nat) (exCfg 3) (exSt (exCfg 3) [(10, 0), (20, 1)]) [⟨[30], 30, 2⟩] m ∧
    m.it = .ended s0 out ∧ s0.points.map (·.data) = [[10], [20], [30]] ∧ out.map (·.data) = [[10], [20]] := by
  obtain ⟨m, he, hq⟩ := exIter_exec (items := [(10, 0), (20, 1)]) (jobs := [⟨[30], 30, 2⟩])
    (is := some 0 :: List.replicate 4 none)
    (q := fun m => iterSeen m == some ([[10], [20], [30]], [[10], [20]])) (by decide +kernel)
  have hq := beq_iff_eq.1 hq
  unfold iterSeen at hq
  split at hq
  · rename_i s0 out hi
    simp only [Option.some.injEq, Prod.mk.injEq] at hq
    exact ⟨m, s0, out, he, hi, hq.1, hq.2⟩
  · cases hq

/-- and an iteration panics during the first insertion, after it has yielded its point -/
theorem C108_panic_refuted : ∃ m, IExec (listPolicy Nat) (exCfg 3) (exSt (exCfg 3) []) [⟨[30], 30, 0⟩] m ∧
    m.st.idx.points.map (·.data) = [[30]] ∧ m.it = .failed .unwrapNone := by
  obtain ⟨m, he, hq⟩ := exIter_exec (items := []) (jobs := [⟨[30], 30, 0⟩])
    (is := some 0 :: List.replicate 3 none)
    (q := fun m => decide (m.st.idx.points.map (·.data) = [[30]]) &&
      match m.it with | .failed .unwrapNone => true | _ => false) (by decide +kernel)
  rw [Bool.and_eq_true] at hq
  refine ⟨m, he, of_decide_eq_true hq.1, ?_⟩
  have := hq.2
  split at this
  · assumption
  · cases this

/-- an iteration that yields the new point, its insertion becoming visible on the way: the iterator is made when the
point of level 2 is in the table, `next` is called twice, the insertion ends, and `next` is called until `None` -/
example : ∃ m s0 out, IExec (listPolicy Nat) (exCfg 3) (exSt (exCfg 3) [(10, 0), (20, 1)]) [⟨[30], 30, 2⟩] m ∧
    m.it = .ended s0 out ∧ out.map (·.data) = [[10], [20], [30]] ∧ (∀ p ∈ (exSt (exCfg 3) [(10, 0), (20, 1)]).idx.points, p ∈ out) := by
  obtain ⟨m, he, hq⟩ := exIter_exec (items := [(10, 0), (20, 1)]) (jobs := [⟨[30], 30, 2⟩])
    (is := [some 0, none, none, none] ++ List.replicate 25 (some 0) ++ [none, none])
    (q := fun m => iterSeen m == some ([[10], [20], [30]], [[10], [20], [30]])) (by decide +kernel)
  have hq := beq_iff_eq.1 hq
  unfold iterSeen at hq
  split at hq
  · rename_i s0 out hi
    simp only [Option.some.injEq, Prod.mk.injEq] at hq
    refine ⟨m, s0, out, he, hi, hq.2, fun p hp => ?_⟩
    have hr := exSt_reach (exCfg 3) [(10, 0), (20, 1)] (by decide)
    refine C108_old_points listPolicy_lawful hr ⟨⟨⟨1, 0⟩, 20, [20]⟩, by decide +kernel, by unfold Stored; decide +kernel,
      by unfold Stored; decide +kernel⟩ false false (by decide) he hi hp
  · cases hq

end Verif
