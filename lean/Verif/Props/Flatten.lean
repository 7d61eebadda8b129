import Verif.FlattenLemmas
import Verif.Props.Access
import Verif.Props.Reload

set_option autoImplicit false

/-!
# The flattened neighbourhood (C57)

`flatFrom nsort s` is `FlatNeighborhood::from(&hnsw)`, for any sort `nsort`.
-/

namespace Verif
variable {T T' : Type} {P : Policy T} {cfg : Cfg T} {nsort : NSort}

/-- all the links of a point, layer by layer -/
def allLinks (s : Idx T) (p : Ref T) : List Neighbour :=
  (List.range nbLayerMax).flatMap fun l => (s.nb p.pid l).map PWO.toNeighbour

theorem flatten_allLinks (s : Idx T) (p : Ref T) : (getNeighborhoodId s p).flatten = allLinks s p := by
  unfold getNeighborhoodId allLinks
  rw [List.flatMap_def]
  rfl

/-- general form of C57, on a table of points with a top entry point and no NaN in the lists -/
theorem flat_general (N : NSortLawful nsort) {s : Idx T} {m : Nat} (ht : TableOK m s) (h : TopEntry s)
    (hn : NoNaNIdx s) :
    ∃ f, flatFrom nsort s = .ok f ∧
      (∀ a p b, s.points = a ++ p :: b → (∀ q ∈ b, q.origin ≠ p.origin) →
        ∃ ns, f.getNeighbours p.origin = some ns ∧ ns.Perm (allLinks s p) ∧ SortedAnswers ns) ∧
      ∀ id, (∀ p ∈ s.points, p.origin ≠ id) → f.getNeighbours id = none := by
  refine ⟨_, flatFrom_ok N ht h hn, ?_, ?_⟩
  · intro a p b hp hb
    refine ⟨nsort.sort (getNeighborhoodId s p).flatten, ?_, ?_, N.sorted _ (hn p (by rw [hp]; simp))⟩
    · unfold FlatNeighborhood.getNeighbours
      rw [hp, insAllFlat_last hb]
      rfl
    · rw [← flatten_allLinks]
      exact N.perm _
  · intro id hid
    unfold FlatNeighborhood.getNeighbours
    rw [insAllFlat_none _ _ hid]
    rfl

theorem split_of_distinct {l : List (Ref T)} (hd : (l.map (·.origin)).Nodup) {p : Ref T} (hp : p ∈ l) :
    ∃ a b, l = a ++ p :: b ∧ ∀ q ∈ b, q.origin ≠ p.origin := by
  obtain ⟨a, b, rfl⟩ := List.append_of_mem hp
  refine ⟨a, b, rfl, ?_⟩
  intro q hq he
  simp only [List.map_append, List.map_cons] at hd
  have h1 := (List.nodup_append.1 hd).2.1
  rw [List.nodup_cons] at h1
  exact h1.1 (he ▸ List.mem_map_of_mem hq)

/-- **C57** (partial: the entry point is on the highest populated layer, which sequential insertions
guarantee, see `C57_sequential`, but not concurrent ones, see `C57_refuted`)
`FlatNeighborhood::from` does not panic; `get_neighbours` of a stored id gives the links of its point
in all the layers, sorted by distance; of the point iterated last if several points have the id; and
`None` for an id that is not stored. -/
theorem C57_flat_partial (N : NSortLawful nsort) (L : P.Lawful) {s : Idx T} (h : Reach P cfg s)
    (ht : TopEntry s) :
    ∃ f, flatFrom nsort s = .ok f ∧
      (∀ a p b, s.points = a ++ p :: b → (∀ q ∈ b, q.origin ≠ p.origin) →
        ∃ ns, f.getNeighbours p.origin = some ns ∧ ns.Perm (allLinks s p) ∧ SortedAnswers ns) ∧
      ∀ id, (∀ p ∈ s.points, p.origin ≠ id) → f.getNeighbours id = none :=
  have hok := (h.good L).ok
  flat_general N hok.tab ht (noNaN_of_ok hok)

/-- **C57** for a sequence of insertions with distinct ids. -/
theorem C57_sequential (N : NSortLawful nsort) (L : P.Lawful) {jobs : List (Job T)} {c : CSt T}
    (h : SeqReach P cfg jobs c) (hne : jobs ≠ []) (hd : DistinctIds c.idx) :
    ∃ f, flatFrom nsort c.idx = .ok f ∧
      (∀ p ∈ c.idx.points, ∃ ns, f.getNeighbours p.origin = some ns ∧
        ns.Perm (allLinks c.idx p) ∧ SortedAnswers ns) ∧
      ∀ id, (∀ p ∈ c.idx.points, p.origin ≠ id) → f.getNeighbours id = none := by
  obtain ⟨f, h1, h2, h3⟩ := C57_flat_partial N L ⟨c, h.reachC L, rfl⟩ (seqReach_topEntry L h hne)
  refine ⟨f, h1, ?_, h3⟩
  intro p hp
  obtain ⟨a, b, he, hb⟩ := split_of_distinct hd hp
  exact h2 a p b he hb

/-- ids and distances returned -/
def flatIds {T : Type} (s : Idx T) (id : DataId) : Option (Option (List (DataId × Nat))) :=
  match flatFrom nsortAsc s with
  | .ok f => some ((f.getNeighbours id).map (·.map fun n => (n.dId, n.distance.mag.val)))
  | .error _ => none

/-- four points on three layers; 8 is linked to 7 at two layers -/
example : flatIds io4.idx 7 = some (some [(8, 10), (5, 15), (9, 20)]) ∧
    flatIds io4.idx 8 = some (some [(5, 5), (7, 10), (9, 10), (7, 10)]) ∧
    flatIds io4.idx 6 = some none := by decide +kernel

example : DistinctIds io4.idx := by
  unfold DistinctIds
  decide +kernel

/-- **C57 is false after concurrent insertions** in an empty index (the execution of `C31_refuted`):
both insertions return, ids are distinct, and one stored point is unknown to the flattened
neighbourhood. -/
theorem C57_refuted : ∃ (jobs : List (Job Nat)) (c : CSt Nat) (ts : List (Prog (CSt Nat) Unit)),
    Exec (listPolicy Nat) (exCfg 3) (CSt.new 16) jobs c ts ∧ (∀ t ∈ ts, isRet t = true) ∧
      DistinctIds c.idx ∧ ∃ p ∈ c.idx.points, flatIds c.idx p.origin = some none := by
  have h : exHolds (CSt.new 16) [⟨[20], 20, 1⟩, ⟨[21], 21, 0⟩] [0, 0, 1, 1, 1, 1, 0]
      (fun c ts => ts.all isRet && decide (c.idx.points.map (·.origin)).Nodup &&
        c.idx.points.any fun p => flatIds c.idx p.origin == some none) = true := by decide +kernel
  obtain ⟨c, ts, h1, h2⟩ := exHolds_exec h
  simp only [Bool.and_eq_true, decide_eq_true_eq, List.all_eq_true, List.any_eq_true, beq_iff_eq] at h2
  exact ⟨_, c, ts, h1, h2.1.1, h2.1.2, h2.2⟩

/-! ## After a reload without vectors -/

theorem sameGraph_nth {s : Idx T} {s' : Idx T'} (h : SameGraph s s') (l r : Nat) :
    ((s'.layer l)[r]?).map (fun p => (p.pid, p.origin)) =
      ((s.layer l)[r]?).map (fun p => (p.pid, p.origin)) := by
  have h1 := congrArg (fun x => ((x[l]?).getD [])[r]?) h.points
  simp only [List.getElem?_map] at h1
  unfold Idx.layer
  cases hs : s.layers[l]? <;> cases hs' : s'.layers[l]? <;> rw [hs, hs'] at h1 <;>
    simp only [Option.map_some, Option.map_none, Option.getD_some, Option.getD_none, List.getElem?_map,
      List.getElem?_nil] at h1 ⊢ <;> exact h1

theorem sameGraph_points {s : Idx T} {s' : Idx T'} (h : SameGraph s s') :
    s'.points.map (fun p => (p.pid, p.origin)) = s.points.map (fun p => (p.pid, p.origin)) := by
  have := congrArg List.flatten h.points
  rw [← List.map_flatten, ← List.map_flatten] at this
  exact this

theorem sameGraph_mem {s : Idx T} {s' : Idx T'} (h : SameGraph s s') {p : Ref T} (hp : p ∈ s.points) :
    ∃ p' ∈ s'.points, p'.pid = p.pid ∧ p'.origin = p.origin := by
  have : (p.pid, p.origin) ∈ s'.points.map (fun p => (p.pid, p.origin)) := by
    rw [sameGraph_points h]
    exact List.mem_map_of_mem (f := fun p : Ref T => (p.pid, p.origin)) hp
  obtain ⟨p', h1, h2⟩ := List.mem_map.1 this
  injection h2 with h2 h3
  exact ⟨p', h1, h2, h3⟩

theorem sameGraph_mem' {s : Idx T} {s' : Idx T'} (h : SameGraph s s') {p : Ref T'} (hp : p ∈ s'.points) :
    ∃ p' ∈ s.points, p'.pid = p.pid ∧ p'.origin = p.origin := by
  have : (p.pid, p.origin) ∈ s.points.map (fun p => (p.pid, p.origin)) := by
    rw [← sameGraph_points h]
    exact List.mem_map_of_mem (f := fun p : Ref T' => (p.pid, p.origin)) hp
  obtain ⟨p', h1, h2⟩ := List.mem_map.1 this
  injection h2 with h2 h3
  exact ⟨p', h1, h2, h3⟩

theorem sameGraph_table {s : Idx T} {s' : Idx T'} (h : SameGraph s s') {m : Nat} (ht : TableOK m s) :
    TableOK m s' where
  len := by
    have := congrArg List.length h.points
    rw [List.length_map, List.length_map] at this
    rw [this, ht.len]
  ids := by
    intro l r p hp
    have h1 := sameGraph_nth h l r
    rw [hp] at h1
    cases hq : (s.layer l)[r]? with
    | none => rw [hq] at h1; cases h1
    | some q =>
      rw [hq] at h1
      injection h1 with h1
      injection h1 with h1 h2
      rw [h1]
      exact ht.ids l r q hq

theorem sameGraph_top {s : Idx T} {s' : Idx T'} (h : SameGraph s s') {m : Nat} (ht : TableOK m s)
    (hs : ∀ e, s'.entry = some e → Stored s' e) (hte : TopEntry s) : TopEntry s' := by
  obtain ⟨e, he, h1, h2⟩ := hte
  have h3 := h.entry
  rw [he] at h3
  cases he' : s'.entry with
  | none => rw [he'] at h3; cases h3
  | some e' =>
    rw [he'] at h3
    injection h3 with h3
    injection h3 with h3 h4
    refine ⟨e', he', hs e' he', ?_⟩
    intro p hp
    obtain ⟨q, hq, hq1, -⟩ := sameGraph_mem' h hp
    rw [← hq1, h3]
    exact h2 q hq

theorem perm_flatMap {α β : Type} {f g : α → List β} : ∀ (l : List α), (∀ a ∈ l, (f a).Perm (g a)) →
    (l.flatMap f).Perm (l.flatMap g) := by
  intro l
  induction l with
  | nil => intro _; exact List.Perm.refl _
  | cons a as ih =>
    intro h
    rw [List.flatMap_cons, List.flatMap_cons]
    exact (h a (by simp)).append (ih fun b hb => h b (List.mem_cons_of_mem _ hb))

theorem sameGraph_allLinks {s : Idx T} {s' : Idx T'} (h : SameGraph s s') {p : Ref T} {p' : Ref T'}
    (hp : p ∈ s.points) (hp' : p' ∈ s'.points) (he : p'.pid = p.pid) :
    (allLinks s' p').Perm (allLinks s p) := by
  unfold allLinks
  refine perm_flatMap _ fun l hl => ?_
  have hl := List.mem_range.1 hl
  refine (h.lists p hp p' hp' he l _ _ ?_ ?_).1
  · unfold getNeighborhoodId
    rw [List.getElem?_map, List.getElem?_range hl]
    rfl
  · unfold getNeighborhoodId
    rw [List.getElem?_map, List.getElem?_range hl]
    rfl

/-- **C57** after a reload of the graph only: the flattened neighbourhood of the index reloaded without
vectors gives the sorted links of the dumped index, for each id. -/
theorem C57_nodata {T : Type} {P : Policy T} {ty : Ty T} {defScale : Nat → F64} {ml : Nat} {h : Hnsw T}
    {c : CSt T} {fs fs' : Dir} {base name : String} {draws : List Nat}
    {P' : Policy T'} (N : NSortLawful nsort) (L' : P'.Lawful) (L : P.Lawful) (hT : ty.Lawful)
    (hn : ty.noData = false) (hr : HReach P ty defScale ml h c) (hs : Sizes ty h)
    (ht : TopEntry h.idx) (hi : DistinctIds h.idx)
    (hfd : fileDump ty h fs base draws = some (fs', .ok name)) (ty' : Ty T') (hn' : ty'.noData = true)
    (dist : Dist T') (defScale' : Nat → F64) :
    ∃ io' x f, (HnswIo.new name .default).loadHnsw P' ty' defScale' dist fs' = (io', .ok x) ∧
      flatFrom nsort x.hnsw.idx = .ok f ∧
      (∀ p ∈ h.idx.points, ∃ ns, f.getNeighbours p.origin = some ns ∧
        ns.Perm (allLinks h.idx p) ∧ SortedAnswers ns) ∧
      ∀ id, (∀ p ∈ h.idx.points, p.origin ≠ id) → f.getNeighbours id = none := by
  have hk := hr.ok L hT hn
  obtain ⟨-, hres, -, hf⟩ := fileDump_ok hfd
  have hdm := hk.dumped L hs hres
  have hG : SameGraph h.idx (reloaded P' (fun _ => ([] : List T')) h.idx) :=
    sameGraph_reloaded hdm.idx.ok L' _
  have htab := sameGraph_table hG (hk.good L).ok.tab
  have htop : TopEntry (reloaded P' (fun _ => ([] : List T')) h.idx) := by
    refine sameGraph_top hG (hk.good L).ok.tab ?_ ht
    intro e he
    obtain ⟨e0, h0, rfl⟩ := Option.map_eq_some_iff.1 he
    have h2 := hdm.idx.ok.entry e0 h0
    show _ ∈ (reloaded P' (fun _ => ([] : List T')) h.idx).layers.flatten
    show _ ∈ (h.idx.layers.map fun l => l.map (convRef (fun _ => ([] : List T')))).flatten
    rw [← List.map_flatten]
    exact List.mem_map_of_mem h2
  have hnn : NoNaNIdx (reloaded P' (fun _ => ([] : List T')) h.idx) := by
    intro p hp n hmem
    obtain ⟨q, hq, hq1, -⟩ := sameGraph_mem' hG hp
    rw [flatten_allLinks, (sameGraph_allLinks hG hq hp hq1.symm).mem_iff, ← flatten_allLinks] at hmem
    exact noNaN_of_ok (hk.good L).ok q hq n hmem
  obtain ⟨f, h1, h2, h3⟩ := flat_general N htab htop hnn
  refine ⟨_, _, f, load_noData (io := HnswIo.new name .default) L' hn' hdm rfl hf dist defScale', h1,
    ?_, ?_⟩
  · intro p hp
    obtain ⟨p', hp', e1, e2⟩ := sameGraph_mem hG hp
    have hd' : ((reloaded P' (fun _ => ([] : List T')) h.idx).points.map (·.origin)).Nodup := by
      have := congrArg (List.map Prod.snd) (sameGraph_points hG)
      rw [List.map_map, List.map_map] at this
      have h5 : (reloaded P' (fun _ => ([] : List T')) h.idx).points.map (·.origin) =
        h.idx.points.map (·.origin) := this
      rw [h5]
      exact hi
    obtain ⟨a, b, he, hb⟩ := split_of_distinct hd' hp'
    obtain ⟨ns, h4, h5, h6⟩ := h2 a p' b he hb
    rw [e2] at h4
    exact ⟨ns, h4, h5.trans (sameGraph_allLinks hG hp hp' e1), h6⟩
  · intro id hid
    refine h3 id fun p hp he => ?_
    obtain ⟨q, hq, -, hq2⟩ := sameGraph_mem' hG hp
    exact hid q hq (hq2.trans he)

/-- the dump of `io4` reloaded without vectors -/
example : (match ((HnswIo.new "a" .default).loadHnsw (listPolicy Unit) noDataTy exScale
      ⟨"NoDist", fun _ _ => F32.zero⟩ (withTrail (fileDump u8Ty io4 (fun _ => none) "a" []) "a" [] [])).2 with
    | .ok x => flatIds x.hnsw.idx 8
    | .error _ => none) = some (some [(5, 5), (7, 10), (9, 10), (7, 10)]) := by decide +kernel

end Verif
