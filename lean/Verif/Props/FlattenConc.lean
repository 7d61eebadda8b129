import Verif.FlattenConc
import Verif.Props.Flatten
import Verif.Props.IterConc
import Verif.Props.AnyConc

set_option autoImplicit false

/-!
# C129: flattening the neighbourhoods during insertions

`FSteps nsort (flattenStart P cfg c0 jobs) m`: `m` is reached from `c0` by a schedule of the insertions `jobs` and of a call
of `FlatNeighborhood::from`, with any sort `nsort`.
-/

namespace Verif
variable {T : Type} {P : Policy T} {cfg : Cfg T} {nsort : NSort}

/-- general form of C129 -/
theorem flat_conc {B : Base T} (N : NSortLawful nsort) (L : P.Lawful) {c0 : CSt T} (h : GoodCB B cfg c0)
    (hB : B.Owned c0.idx) (hm : 0 < cfg.maxLayer) {jobs : List (Job T)} (hl : ∀ j ∈ jobs, j.level < cfg.maxLayer)
    {m : FSys T} (he : FSteps nsort (flattenStart P cfg c0 jobs) m) {s0 : Idx T} {out : List (Ref T)}
    {f : FlatNeighborhood} (hf : m.fl = .ended s0 out f) :
    (∀ a p b, out = a ++ p :: b → (∀ q ∈ b, q.origin ≠ p.origin) →
      ∃ ns m1, f.getNeighbours p.origin = some ns ∧ ((∀ l, ¬ B.wild p.pid l) → SortedAnswers ns) ∧
        FSteps nsort (flattenStart P cfg c0 jobs) m1 ∧ FSteps nsort m1 m ∧ m1.fl.holds = true ∧
        IdxOKB B cfg m1.st.idx ∧ (∀ v, Stored m1.st.idx v → Stored m.st.idx v) ∧ Stored m1.st.idx p ∧
        ns.Perm (allLinks m1.st.idx p)) ∧
    ∀ id, (∀ p ∈ out, p.origin ≠ id) → f.getNeighbours id = none := by
  have hF := (flatOKB N L h hB hm hl he).2
  simp only [FlatOK, hf] at hF
  refine ⟨fun a p b h1 h2 => ?_, fun id hid => ?_⟩
  · obtain ⟨m1, i1, i2, i3, i4, i5, i6⟩ := hF.2 a p b h1 h2
    have hok := (Exec.factsB L h hB hl (FSteps.steps i1) (fun _ => True) (fun _ _ => trivial)
      (fun _ _ => trivial)).ok
    refine ⟨nsort.sort (getNeighborhoodId m1.st.idx p).flatten, m1, ?_, fun hw => N.sorted _ (noNaN_of_okB hok hw), i1, i2, i3, hok,
      i4, i5, ?_⟩
    · unfold FlatNeighborhood.getNeighbours
      rw [i6]
      rfl
    · rw [← flatten_allLinks]
      exact N.perm _
  · unfold FlatNeighborhood.getNeighbours
    rw [hF.1 id hid]
    rfl

theorem mem_allLinks {s : Idx T} {p : Ref T} {n : Neighbour} (h : n ∈ allLinks s p) :
    ∃ l, ∃ e ∈ s.nb p.pid l, n = e.toNeighbour := by
  obtain ⟨l, -, hl⟩ := List.mem_flatMap.1 h
  obtain ⟨e, he, rfl⟩ := List.mem_map.1 hl
  exact ⟨l, e, he, rfl⟩

/-- **C129** (content) When `FlatNeighborhood::from` comes to its end during insertions, `out` being the points its iterator
yielded, `get_neighbours` of the id of one of them (of the last one that has this id) gives, sorted by distance, the
links this point had in all the layers at one moment when the iterator had locked the table; each leads to another point of
the index with the distance of the two points; other ids are unknown. -/
theorem C129_content (N : NSortLawful nsort) (L : P.Lawful) {c0 : CSt T} (h : ReachC P cfg c0) (hm : 0 < cfg.maxLayer)
    (ext kp : Bool) {jobs : List (Job T)} (hl : ∀ j ∈ jobs, j.level < cfg.maxLayer) {m : FSys T}
    (he : FSteps nsort (flattenStart P (cfg.withFlags ext kp) c0 jobs) m) {s0 : Idx T} {out : List (Ref T)}
    {f : FlatNeighborhood} (hf : m.fl = .ended s0 out f) :
    (∀ a p b, out = a ++ p :: b → (∀ q ∈ b, q.origin ≠ p.origin) →
      ∃ ns, f.getNeighbours p.origin = some ns ∧ SortedAnswers ns ∧
        (∃ m1, FSteps nsort (flattenStart P (cfg.withFlags ext kp) c0 jobs) m1 ∧ FSteps nsort m1 m ∧ m1.fl.holds = true ∧
          ns.Perm (allLinks m1.st.idx p)) ∧
        ∀ n ∈ ns, ∃ q ∈ m.st.idx.points, n.dId = q.origin ∧ n.pId = q.pid ∧ q.pid ≠ p.pid ∧
          (n.distance = cfg.eval p.data q.data ∨ n.distance = cfg.eval q.data p.data)) ∧
    ∀ id, (∀ p ∈ out, p.origin ≠ id) → f.getNeighbours id = none := by
  obtain ⟨h1, h2⟩ := flat_conc N L ((goodC_flags (e := ext) (k := kp)).2 (h.goodC L)) (Base.owned_none _) hm hl he hf
  refine ⟨fun a p b ha hb => ?_, h2⟩
  obtain ⟨ns, m1, i1, i2, i3, i4, i5, i6, i7, i8, i9⟩ := h1 a p b ha hb
  refine ⟨ns, i1, i2 fun _ => id, ⟨m1, i3, i4, i5, i9⟩, fun n hn => ?_⟩
  obtain ⟨l, e, hel, rfl⟩ := mem_allLinks (i9.mem_iff.1 hn)
  have hok := idxOKB_none.1 i6
  exact ⟨e.pt, i7 _ (hok.stored _ _ _ hel), rfl, rfl, hok.noSelf _ _ _ hel, hok.dist p i8 l e hel⟩

/-- **C129** (points; partial: those that were not above the entry point when the iterator was made, as in C108) The points
yielded are the first ones of the table as it was when the iterator was made, each once, and all those that were not above the
entry point of that moment; the table had all the points stored before the insertions.  Missing: a point whose
insertion has not yet changed the entry point can be left out (`C108_refuted`). -/
theorem C129_points_partial (N : NSortLawful nsort) (L : P.Lawful) {c0 : CSt T} (h : ReachC P cfg c0) (hm : 0 < cfg.maxLayer)
    (ext kp : Bool) {jobs : List (Job T)} (hl : ∀ j ∈ jobs, j.level < cfg.maxLayer) {m : FSys T}
    (he : FSteps nsort (flattenStart P (cfg.withFlags ext kp) c0 jobs) m) {s0 : Idx T} {out : List (Ref T)}
    {f : FlatNeighborhood} (hf : m.fl = .ended s0 out f) :
    out <+: s0.points ∧ (out.map (·.pid)).Nodup ∧ (∀ p ∈ c0.idx.points, p ∈ s0.points) ∧
      (∀ p ∈ out, p ∈ m.st.idx.points) ∧
      ∀ e, s0.entry = some e → ∀ p ∈ s0.points, p.pid.layer ≤ e.pid.layer → p ∈ out := by
  have hI := (flatOKB N L ((goodC_flags (e := ext) (k := kp)).2 (h.goodC L)) (Base.owned_none _) hm hl he).1
    (Or.inr fun ⟨_, _, h⟩ => h)
  have hit : m.iter.it = .ended s0 out := by unfold FSys.iter; rw [hf]
  obtain ⟨h1, h2, h3, h4⟩ := C108_prefix L h hm ext kp hl hI (.inr hit)
  exact ⟨h1, h2, h3, h4, fun e hee p hp hle => C108_complete_partial L h hm ext kp hl hI hit hee hp hle⟩

/-- **C129** (old points) If the entry point was on the highest layer in use before the insertions, and ids are distinct, all
the points of that time are in the flattened neighbourhood, with the links they had at a moment of the flattening. -/
theorem C129_old_points (N : NSortLawful nsort) (L : P.Lawful) {c0 : CSt T} (h : ReachC P cfg c0) (ht : TopEntry c0.idx)
    (ext kp : Bool) {jobs : List (Job T)} (hl : ∀ j ∈ jobs, j.level < cfg.maxLayer) {m : FSys T}
    (he : FSteps nsort (flattenStart P (cfg.withFlags ext kp) c0 jobs) m) {s0 : Idx T} {out : List (Ref T)}
    {f : FlatNeighborhood} (hf : m.fl = .ended s0 out f) (hd : DistinctIds m.st.idx) {p : Ref T}
    (hp : p ∈ c0.idx.points) :
    ∃ ns, f.getNeighbours p.origin = some ns ∧ SortedAnswers ns ∧
      ∃ m1, FSteps nsort (flattenStart P (cfg.withFlags ext kp) c0 jobs) m1 ∧ FSteps nsort m1 m ∧ m1.fl.holds = true ∧
        ns.Perm (allLinks m1.st.idx p) := by
  obtain ⟨e, hee, hes, htop⟩ := id ht
  have hm : 0 < cfg.maxLayer := Nat.lt_of_le_of_lt (Nat.zero_le _) ((h.goodC L).good.ok.tab.layer_lt hes)
  have hI := (flatOKB N L ((goodC_flags (e := ext) (k := kp)).2 (h.goodC L)) (Base.owned_none _) hm hl he).1
    (Or.inr fun ⟨_, _, h⟩ => h)
  have hit : m.iter.it = .ended s0 out := by unfold FSys.iter; rw [hf]
  obtain ⟨-, h2, -, h4⟩ := C108_prefix L h hm ext kp hl hI (.inr hit)
  have hpo := C108_old_points L h ht ext kp hl hI hit hp
  obtain ⟨a, b, rfl⟩ := List.append_of_mem hpo
  obtain ⟨ns, i1, i2, i3, -⟩ := (C129_content N L h hm ext kp hl he hf).1 a p b rfl fun q hq hqp => by
    have hqs : q ∈ m.st.idx.points := h4 q (by simp [hq])
    have hps : p ∈ m.st.idx.points := h4 p (by simp)
    have hqe : q = p := by
      obtain ⟨x, y, hxy, hno⟩ := split_of_distinct hd hps
      rw [hxy] at hqs
      rcases List.mem_append.1 hqs with hx | hx
      · obtain ⟨x1, x2, rfl⟩ := List.append_of_mem hx
        unfold DistinctIds at hd
        rw [hxy] at hd
        simp only [List.map_append, List.map_cons, List.append_assoc, List.cons_append] at hd
        have := (List.nodup_append.1 hd).2.1
        rw [List.nodup_cons] at this
        exact (this.1 (by rw [hqp]; simp)).elim
      · rcases List.mem_cons.1 hx with hx | hx
        · exact hx
        · exact (hno q hx hqp).elim
    subst hqe
    simp only [List.map_append, List.map_cons] at h2
    have := (List.nodup_append.1 h2).2.1
    rw [List.nodup_cons] at this
    exact this.1 (List.mem_map_of_mem hq)
  exact ⟨ns, i1, i2, i3⟩

/-- **C129** (no panic; partial: the index was not empty, otherwise see `C129_panic_refuted`) -/
theorem C129_no_panic_partial (N : NSortLawful nsort) (L : P.Lawful) {c0 : CSt T} (h : ReachC P cfg c0)
    (hm : 0 < cfg.maxLayer) (ext kp : Bool) {jobs : List (Job T)} (hl : ∀ j ∈ jobs, j.level < cfg.maxLayer) {m : FSys T}
    (he : FSteps nsort (flattenStart P (cfg.withFlags ext kp) c0 jobs) m) (hc0 : c0.idx.entry ≠ none) (x : Panic) :
    m.fl ≠ .failed x := by
  intro hf
  have hI := (flatOKB N L ((goodC_flags (e := ext) (k := kp)).2 (h.goodC L)) (Base.owned_none _) hm hl he).1
    (Or.inr fun ⟨_, _, h⟩ => h)
  exact C108_no_panic_partial L h hm ext kp hl hI hc0 x (by unfold FSys.iter; rw [hf])

/-! ## After a reload -/

section
variable {ty : Ty T} {defScale : Nat → F64} {dist0 : Dist T} {io0 : HnswIo} {fs0 : Dir} {x : Loaded T} {c0 : CSt T}
  {ext kp : Bool} {jobs : List (Job T)}

theorem flattenStart_layersOf {s : Idx T} : flattenStart P (cfg.layersOf s) c0 jobs = flattenStart P cfg c0 jobs := by
  unfold flattenStart; rw [prog_layersOf]

/-- **C129** (reloaded index; partial: the points up to the level of the entry point; levels that the table has) During
insertions in an index reloaded from any files the flattening does not panic, if no link of the files is a NaN.  When it
ends it has the links of the points yielded, at one moment when the table was locked, sorted unless the files have a
NaN for that point, and these links lead to points of the index; the points yielded are all those of the table that were not above the entry point when the iterator was made. -/
theorem C129_resumed_partial (N : NSortLawful nsort) (L : P.Lawful) (hx : LoadsOk P ty defScale dist0 io0 fs0 x)
    (hc : Resumed P x.hnsw c0) (hl : ∀ j ∈ jobs, j.level < x.hnsw.idx.layers.length)
    {m : FSys T} (he : FSteps nsort (flattenStart P (x.hnsw.cfg.withFlags ext kp) c0 jobs) m) :
    (NumLinks x.hnsw.idx → ∀ y, m.fl ≠ .failed y) ∧
    ∀ s0 out f, m.fl = .ended s0 out f →
      (∀ a p b, out = a ++ p :: b → (∀ q ∈ b, q.origin ≠ p.origin) →
        ∃ ns, f.getNeighbours p.origin = some ns ∧
          ((∀ l, ∀ e ∈ x.hnsw.idx.nb p.pid l, e.dist.isNaN = false) → SortedAnswers ns) ∧
          (∃ m1, FSteps nsort (flattenStart P (x.hnsw.cfg.withFlags ext kp) c0 jobs) m1 ∧ FSteps nsort m1 m ∧
            m1.fl.holds = true ∧ ns.Perm (allLinks m1.st.idx p)) ∧
          ∀ n ∈ ns, ∃ q ∈ m.st.idx.points, n.dId = q.origin ∧ n.pId = q.pid) ∧
      (∀ id, (∀ p ∈ out, p.origin ≠ id) → f.getNeighbours id = none) ∧
      ∃ e, s0.entry = some e ∧ ∀ p ∈ s0.points, p.pid.layer ≤ e.pid.layer → p ∈ out := by
  obtain ⟨hg, ho, -⟩ := hc.good L hx
  have hg' : GoodCB (Base.of x.hnsw.idx) ((x.hnsw.cfg.layersOf x.hnsw.idx).withFlags ext kp) c0 :=
    (goodC_flags (e := ext) (k := kp)).2 hg
  have hst : flattenStart P ((x.hnsw.cfg.layersOf x.hnsw.idx).withFlags ext kp) c0 jobs =
      flattenStart P (x.hnsw.cfg.withFlags ext kp) c0 jobs :=
    flattenStart_layersOf (cfg := x.hnsw.cfg.withFlags ext kp) (s := x.hnsw.idx)
  have hm := hc.layer L hx
  rw [← hst] at he
  have hI := fun hc => (iexec_layersOf (cfg := x.hnsw.cfg.withFlags ext kp) (s := x.hnsw.idx)).1
    ((flatOKB N L hg' ho hm hl he).1 hc)
  refine ⟨fun hN y hf => C124_no_panic_partial L hx hc hl (hI (Or.inr hN.notWild)) y (by unfold FSys.iter; rw [hf]),
    fun s0 out f hf => ?_⟩
  have hI := hI (Or.inl fun e h => by rw [hf] at h; cases h)
  have hit : m.iter.it = .ended s0 out := by unfold FSys.iter; rw [hf]
  obtain ⟨h1, h2⟩ := flat_conc N L hg' ho hm hl he hf
  rw [hst] at h1
  refine ⟨fun a p b ha hb => ?_, h2, ?_⟩
  · obtain ⟨ns, m1, i1, i2, i3, i4, i5, i6, i7, i8, i9⟩ := h1 a p b ha hb
    refine ⟨ns, i1, fun hn => i2 fun l => ?_, ⟨m1, i3, i4, i5, i9⟩, fun n hn => ?_⟩
    · rintro ⟨e, he, hd⟩
      rw [hn l e he] at hd
      cases hd
    obtain ⟨l, e, hel, rfl⟩ := mem_allLinks (i9.mem_iff.1 hn)
    exact ⟨e.pt, i7 _ (i6.stored _ _ _ hel), rfl, rfl⟩
  · obtain ⟨e, j1, -, j2⟩ := C124_complete_partial L hx hc hl hI hit
    exact ⟨e, j1, j2⟩

end

/-! ## Concrete executions -/

/-- run insertions and a flattening on the index of the examples -/
def exFlat (items : List (Nat × Nat)) (jobs : List (Job Nat)) (is : List (Option Nat)) : Option (FSys Nat) :=
  runFlat nsortAsc is (flattenStart (listPolicy Nat) (exCfg 3) (exSt (exCfg 3) items) jobs)

theorem exFlat_exec {items : List (Nat × Nat)} {jobs : List (Job Nat)} {is : List (Option Nat)}
    {q : FSys Nat → Bool} (h : (exFlat items jobs is).any q = true) :
    ∃ m, FSteps nsortAsc (flattenStart (listPolicy Nat) (exCfg 3) (exSt (exCfg 3) items) jobs) m ∧ q m = true := by
  rw [Option.any_eq_true] at h
  obtain ⟨m, hm, hq⟩ := h
  exact ⟨m, runFlat_steps _ _ _ hm, hq⟩

/-- the links of some ids, at the end -/
def flatSeen (m : FSys Nat) (ids : List DataId) : Option (List (Option (List DataId))) :=
  match m.fl with
  | .ended _ _ f => some (ids.map fun id => (f.getNeighbours id).map (·.map (·.dId)))
  | _ => none

/-- the first insertion in an empty index: the flattening starts when the point is in the table and not yet the entry
point, and panics -/
theorem C129_panic_refuted : ∃ m, FSteps nsortAsc (flattenStart (listPolicy Nat) (exCfg 3) (exSt (exCfg 3) []) [⟨[30], 30, 0⟩]) m ∧
    m.fl = .failed .unwrapNone := by
  obtain ⟨m, he, hq⟩ := exFlat_exec (items := []) (jobs := [⟨[30], 30, 0⟩])
    (is := some 0 :: List.replicate 4 none)
    (q := fun m => match m.fl with | .failed .unwrapNone => true | _ => false) (by decide +kernel)
  refine ⟨m, he, ?_⟩
  split at hq
  · assumption
  · cases hq

/-- **C129 in general is false**: the point of level 2 was in the table during the whole flattening and is unknown to
its result -/
theorem C129_refuted : ∃ m, FSteps nsortAsc
      (flattenStart (listPolicy Nat) (exCfg 3) (exSt (exCfg 3) [(10, 0), (20, 1)]) [⟨[30], 30, 2⟩]) m ∧
    (∃ p ∈ m.st.idx.points, p.origin = 30) ∧ flatSeen m [10, 20, 30] = some [some [20], some [10, 10], none] := by
  obtain ⟨m, he, hq⟩ := exFlat_exec (items := [(10, 0), (20, 1)]) (jobs := [⟨[30], 30, 2⟩])
    (is := some 0 :: List.replicate 6 none)
    (q := fun m => m.st.idx.points.any (fun p => p.origin == 30) &&
      flatSeen m [10, 20, 30] == some [some [20], some [10, 10], none]) (by decide +kernel)
  simp only [Bool.and_eq_true, List.any_eq_true, beq_iff_eq] at hq
  exact ⟨m, he, hq.1, hq.2⟩

/-- a flattening during the insertion of a point of level 0: the lists of 10 are read before the new point is linked, those of
20 after that -/
example : ∃ m s0 out f, FSteps nsortAsc
      (flattenStart (listPolicy Nat) (exCfg 3) (exSt (exCfg 3) [(10, 0), (20, 1)]) [⟨[30], 30, 0⟩]) m ∧
    m.fl = .ended s0 out f ∧ out.length = 3 ∧ DistinctIds m.st.idx ∧ TopEntry (exSt (exCfg 3) [(10, 0), (20, 1)]).idx ∧
    flatSeen m [10, 20, 30, 40] = some [some [20], some [10, 30, 10], some [20, 20, 10], none] := by
  obtain ⟨m, he, hq⟩ := exFlat_exec (items := [(10, 0), (20, 1)]) (jobs := [⟨[30], 30, 0⟩])
    (is := [some 0, none, none, none] ++ List.replicate 15 (some 0) ++ List.replicate 5 none)
    (q := fun m => decide (m.st.idx.points.map (·.origin)).Nodup &&
      (match m.fl with | .ended _ out _ => out.length == 3 | _ => false) &&
      flatSeen m [10, 20, 30, 40] == some [some [20], some [10, 30, 10], some [20, 20, 10], none]) (by decide +kernel)
  simp only [Bool.and_eq_true, beq_iff_eq, decide_eq_true_eq] at hq
  obtain ⟨⟨h1, h2⟩, h3⟩ := hq
  split at h2
  · rename_i s0 out f hf
    exact ⟨m, s0, out, f, he, hf, beq_iff_eq.1 h2, h1, ⟨⟨⟨1, 0⟩, 20, [20]⟩, by decide +kernel, by unfold Stored; decide +kernel,
      by unfold Stored; decide +kernel⟩, h3⟩
  · cases h2

end Verif
