import Verif.Image

set_option autoImplicit false

/-!
# C94, C95: ids and vectors matter through the distances only
-/

namespace Verif
variable {T T' : Type} {P : Policy T} {P' : Policy T'} {cfg : Cfg T} {cfg' : Cfg T'}

/-- the image of a thread of an insertion: what it returned or panicked with -/
def Prog.result {σ : Type} : Prog σ Unit → Option (Option Panic)
  | .ret () => some none
  | .fail e => some (some e)
  | .act .. => none

theorem Rel2.results {S : DSim T T'} {ts : List (Prog (CSt T) Unit)} {ts' : List (Prog (CSt T') Unit)}
    (h : Rel2 (ThreadR S) ts ts') : ts'.map Prog.result = ts.map Prog.result := by
  refine (h.map_eq ?_).symm
  intro a b hab
  cases hab <;> rfl

/-- **C94** If the vectors are replaced by vectors with the same distances, and the ids are renumbered
in any way (even to the same id), every history of insertions, dumps and reloads gives the image of the
index it gave: same places, same entry point, same links with the same distances. -/
theorem C94_history (hP : OrderOnly P P') (hc : SameParams cfg cfg') (u : List T → List T')
    (g : DataId → DataId) (he : ∀ v w, cfg'.eval (u v) (u w) = cfg.eval v w) :
    (∀ jobs c, SeqReach P cfg jobs c → SeqReach P' cfg' (jobs.map (Job.image u g)) (c.image u g)) ∧
    (∀ c, ReachC P cfg c → ReachC P' cfg' (c.image u g)) := by
  have M := imageSim_mono u g
  obtain ⟨R⟩ := hP _ M
  have K : CfgR (imageSim u g) cfg cfg' := hc.rel (by
    rintro v _ w _ rfl rfl
    exact (he v w).symm)
  constructor
  · intro jobs c h
    obtain ⟨c', h1, h2⟩ := seqReach_rel R M K h (Rel2.of_map (fun j => imageSim_job j) jobs)
    rw [← imageSim_st.1 h2]
    exact h1
  · intro c h
    induction h with
    | new =>
      rw [← imageSim_st.1 (new_rel (imageSim u g) cfg.maxLayer), ← hc.maxLayer]
      exact .new
    | @batch c0 ext kp jobs c ts _ hl hx hf ih =>
      obtain ⟨c', ts', h1, h2, h3⟩ := exec_rel R M (K.flags ext kp) (imageSim_st.2 rfl)
        (Rel2.of_map (fun j => imageSim_job j) jobs) hx
      rw [← imageSim_st.1 h2]
      refine .batch ext kp (jobs.map (Job.image u g)) ih ?_ h1 ?_
      · intro j hj
        obtain ⟨j0, hj0, rfl⟩ := List.mem_map.1 hj
        rw [hc.maxLayer]
        exact hl j0 hj0
      · intro t ht
        obtain ⟨i, hi, rfl⟩ := List.getElem_of_mem ht
        have hi' : i < ts.length := by rw [h3.length]; exact hi
        exact (h3.get hi' hi).finished.1 (hf _ (List.getElem_mem hi'))
    | @reload c0 _ ih =>
      rw [← imageSim_st.1 (resort_rel R (imageSim_st.2 (rfl : c0.image u g = c0.image u g)))]
      exact .reload ih

/-- **C94** The same for insertions running concurrently, at any moment of any execution: the images of
the insertions have an execution that reaches the image of the state, with the same threads finished
in the same way. -/
theorem C94_concurrent (hP : OrderOnly P P') (hc : SameParams cfg cfg') (u : List T → List T')
    (g : DataId → DataId) (he : ∀ v w, cfg'.eval (u v) (u w) = cfg.eval v w) {c0 c : CSt T}
    {jobs : List (Job T)} {ts : List (Prog (CSt T) Unit)} (hx : Exec P cfg c0 jobs c ts) :
    ∃ ts', Exec P' cfg' (c0.image u g) (jobs.map (Job.image u g)) (c.image u g) ts' ∧
      ts'.map Prog.result = ts.map Prog.result := by
  have M := imageSim_mono u g
  obtain ⟨R⟩ := hP _ M
  have K : CfgR (imageSim u g) cfg cfg' := hc.rel (by
    rintro v _ w _ rfl rfl
    exact (he v w).symm)
  obtain ⟨c', ts', h1, h2, h3⟩ := exec_rel R M K (imageSim_st.2 rfl)
    (Rel2.of_map (fun j => imageSim_job j) jobs) hx
  rw [← imageSim_st.1 h2]
  exact ⟨ts', h1, h3.results⟩

/-- **C94** A search of the image index answers the same neighbours with their new ids, at the same
distances, or panics in the same way. -/
theorem C94_search (hP : OrderOnly P P') (hc : SameParams cfg cfg') (u : List T → List T')
    (g : DataId → DataId) (he : ∀ v w, cfg'.eval (u v) (u w) = cfg.eval v w) (s : Idx T) (q : List T)
    (knbn efArg : Nat) (φ : Option (DataId → Bool)) :
    searchFilter P' cfg' (s.image u g) (u q) knbn efArg φ =
      (searchFilter P cfg s q knbn efArg (φ.map fun f i => f (g i))).map
        (List.map fun n => { n with dId := g n.dId }) := by
  have M := imageSim_mono u g
  obtain ⟨R⟩ := hP _ M
  have K : CfgR (imageSim u g) cfg cfg' := hc.rel (by
    rintro v _ w _ rfl rfl
    exact (he v w).symm)
  have hφ : FiltR (imageSim u g) (φ.map fun f i => f (g i)) φ := by
    cases φ with
    | none => exact .none
    | some f =>
      refine .some ?_
      rintro i _ rfl
      rfl
  have h := searchFilter_rel R M K.eval (q := q) (q' := u q) rfl
    (imageSim_idx.2 (rfl : s.image u g = s.image u g)) hφ knbn efArg
  generalize searchFilter P cfg s q knbn efArg (φ.map fun f i => f (g i)) = x at h
  generalize searchFilter P' cfg' (s.image u g) (u q) knbn efArg φ = y at h
  cases h with
  | error e => rfl
  | @ok a b h =>
    show Except.ok b = Except.ok _
    congr 1
    refine (h.imp ?_).eq_map
    intro a b hab
    obtain ⟨i, d, p⟩ := b
    have h1 : i = g a.dId := hab.id
    have h2 : a.distance = d := hab.dist
    have h3 : a.pId = p := hab.pid
    rw [h1, ← h2, ← h3]

/-- **C95** Only the order of the distances matters: if the images of the vectors of `V` are at distances
in the same order (and zero for the same pairs) under another distance function, then the images of
insertions of vectors of `V` build the same graph, and searches for vectors of `V` answer the same points
in the same order, or panic in the same way. -/
theorem C95_history (hP : OrderOnly P P') (hc : SameParams cfg cfg') {V : List T → Prop}
    {u : List T → List T'} (g : DataId → DataId) (ho : SameOrder V u cfg.eval cfg'.eval)
    {jobs : List (Job T)} (hV : ∀ j ∈ jobs, V j.data) {c : CSt T} (h : SeqReach P cfg jobs c) :
    ∃ c', SeqReach P' cfg' (jobs.map (Job.image u g)) c' ∧ ImageGraph u g c.idx c'.idx ∧
      ∀ q, V q → ∀ (knbn efArg : Nat) (φ : Option (DataId → Bool)),
        (searchFilter P' cfg' c'.idx (u q) knbn efArg φ).map (List.map fun n => (n.dId, n.pId)) =
        (searchFilter P cfg c.idx q knbn efArg (φ.map fun f i => f (g i))).map
          (List.map fun n => (g n.dId, n.pId)) := by
  have M := orderSim_mono ho g
  obtain ⟨R⟩ := hP _ M
  have K : CfgR (orderSim V u g cfg.eval cfg'.eval) cfg cfg' := hc.rel (orderSim_eval V u g _ _)
  have hj : Rel2 (JobR (orderSim V u g cfg.eval cfg'.eval)) jobs (jobs.map (Job.image u g)) := by
    clear h
    induction jobs with
    | nil => exact .nil
    | cons j jobs ih =>
      exact .cons ⟨⟨hV j (by simp), rfl⟩, rfl, rfl⟩ (ih (fun j hj => hV j (List.mem_cons_of_mem _ hj)))
  obtain ⟨c', h1, h2⟩ := seqReach_rel R M K h hj
  refine ⟨c', h1, orderSim_same h2.idx, ?_⟩
  intro q hq knbn efArg φ
  have hφ : FiltR (orderSim V u g cfg.eval cfg'.eval) (φ.map fun f i => f (g i)) φ := by
    cases φ with
    | none => exact .none
    | some f =>
      refine .some ?_
      rintro i _ rfl
      rfl
  have h := searchFilter_rel R M K.eval (q := q) (q' := u q) ⟨hq, rfl⟩ h2.idx hφ knbn efArg
  generalize searchFilter P cfg c.idx q knbn efArg (φ.map fun f i => f (g i)) = x at h
  generalize searchFilter P' cfg' c'.idx (u q) knbn efArg φ = y at h
  cases h with
  | error e => rfl
  | @ok a b h =>
    show Except.ok _ = Except.ok _
    congr 1
    refine (h.map_eq ?_).symm
    intro a b hab
    rw [show b.dId = g a.dId from hab.id, hab.pid]

/-- **C95** The same as `C95_history` for given parameters and flags, without dumps: the image of a
sequence of insertions succeeds if and only if the sequence does, and builds the same graph. -/
theorem C95_sequence (hP : OrderOnly P P') (hc : SameParams cfg cfg') {V : List T → Prop}
    {u : List T → List T'} (g : DataId → DataId) (ho : SameOrder V u cfg.eval cfg'.eval)
    (items : List ((List T × DataId) × Nat)) (hV : ∀ x ∈ items, V x.1.1) :
    match insertAll P cfg (CSt.new cfg.maxLayer) items,
      insertAll P' cfg' (CSt.new cfg'.maxLayer) (items.map fun x => ((u x.1.1, g x.1.2), x.2)) with
    | some c, some c' => ImageGraph u g c.idx c'.idx
    | none, none => True
    | _, _ => False := by
  have M := orderSim_mono ho g
  obtain ⟨R⟩ := hP _ M
  have K : CfgR (orderSim V u g cfg.eval cfg'.eval) cfg cfg' := hc.rel (orderSim_eval V u g _ _)
  have hgen : ∀ (items : List ((List T × DataId) × Nat)), (∀ x ∈ items, V x.1.1) →
      ∀ (c : CSt T) (c' : CSt T'), CR (orderSim V u g cfg.eval cfg'.eval) c c' →
      OptR (CR (orderSim V u g cfg.eval cfg'.eval)) (insertAll P cfg c items)
        (insertAll P' cfg' c' (items.map fun x => ((u x.1.1, g x.1.2), x.2))) := by
    intro items
    induction items with
    | nil => intro _ c c' h; exact .some h
    | cons x items ih =>
      intro hV c c' h
      obtain ⟨⟨d, i⟩, l⟩ := x
      simp only [List.map_cons, insertAll]
      have h1 := insert_rel R M K h (d := d) (d' := u d) ⟨hV ((d, i), l) (by simp), rfl⟩ (i := i) (i' := g i) rfl l
      generalize insert P cfg c (d, i) l = a at h1
      generalize insert P' cfg' c' (u d, g i) l = b at h1
      cases h1 with
      | ok _ h2 => exact ih (fun y hy => hV y (List.mem_cons_of_mem _ hy)) _ _ h2
      | panic _ _ => exact .none
      | blocked _ => exact .none
  have h0 := hgen items hV (CSt.new cfg.maxLayer) (CSt.new cfg'.maxLayer)
    (by rw [hc.maxLayer]; exact new_rel _ _)
  generalize insertAll P cfg (CSt.new cfg.maxLayer) items = a at h0
  generalize insertAll P' cfg' (CSt.new cfg'.maxLayer) (items.map fun x => ((u x.1.1, g x.1.2), x.2)) = b at h0
  cases h0 with
  | none => trivial
  | some h => exact orderSim_same h.idx

/-- **C95** The same for insertions running concurrently after any such history. -/
theorem C95_concurrent (hP : OrderOnly P P') (hc : SameParams cfg cfg') {V : List T → Prop}
    {u : List T → List T'} (g : DataId → DataId) (ho : SameOrder V u cfg.eval cfg'.eval)
    {jobs0 jobs : List (Job T)} (hV0 : ∀ j ∈ jobs0, V j.data) (hV : ∀ j ∈ jobs, V j.data) {c0 c : CSt T}
    (h : SeqReach P cfg jobs0 c0) {ts : List (Prog (CSt T) Unit)} (hx : Exec P cfg c0 jobs c ts) :
    ∃ c0' c' ts', SeqReach P' cfg' (jobs0.map (Job.image u g)) c0' ∧ ImageGraph u g c0.idx c0'.idx ∧
      Exec P' cfg' c0' (jobs.map (Job.image u g)) c' ts' ∧ ImageGraph u g c.idx c'.idx ∧
      ts'.map Prog.result = ts.map Prog.result := by
  have M := orderSim_mono ho g
  obtain ⟨R⟩ := hP _ M
  have K : CfgR (orderSim V u g cfg.eval cfg'.eval) cfg cfg' := hc.rel (orderSim_eval V u g _ _)
  have hj : ∀ jobs : List (Job T), (∀ j ∈ jobs, V j.data) →
      Rel2 (JobR (orderSim V u g cfg.eval cfg'.eval)) jobs (jobs.map (Job.image u g)) := by
    intro jobs hV
    induction jobs with
    | nil => exact .nil
    | cons j jobs ih =>
      exact .cons ⟨⟨hV j (by simp), rfl⟩, rfl, rfl⟩ (ih (fun j hj => hV j (List.mem_cons_of_mem _ hj)))
  obtain ⟨c0', h1, h2⟩ := seqReach_rel R M K h (hj jobs0 hV0)
  obtain ⟨c', ts', h3, h4, h5⟩ := exec_rel R M K h2 (hj jobs hV) hx
  exact ⟨c0', c', ts', h1, orderSim_same h2.idx, h3, orderSim_same h4.idx, h5.results⟩

/-! ## Concrete cases -/

/-- points translated by 500000; ids are renumbered to the same id two by two -/
example : SameParams (exCfg 3) (exCfg 3) ∧ OrderOnly (listPolicy Nat) (listPolicy Nat) ∧
    (∀ v w, absDist ((fun v => [500000 + v.headD 0]) v) ((fun v => [500000 + v.headD 0]) w) = absDist v w) ∧
    (exHist (exCfg 3) exJobs).idx.image (fun v => [500000 + v.headD 0]) (fun i => i / 20) ≠
      (exHist (exCfg 3) exJobs).idx ∧
    ((exHist (exCfg 3) exJobs).idx.image (fun v => [500000 + v.headD 0]) (fun i => i / 20)).points.map
      (fun r => (r.pid, r.origin, r.data)) =
      [(⟨0, 0⟩, 0, [500010]), (⟨0, 1⟩, 1, [500030]), (⟨0, 2⟩, 0, [500010]), (⟨1, 0⟩, 1, [500020]),
        (⟨2, 0⟩, 1, [500025])] := by
  refine ⟨⟨rfl, rfl, rfl, rfl, rfl⟩, listPolicy_orderOnly, ?_, ?_, by decide +kernel⟩
  · intro v w
    unfold absDist
    simp only [List.headD_cons]
    congr 2
    omega
  · intro h
    have : ((exHist (exCfg 3) exJobs).idx.image (fun v => [500000 + v.headD 0])
      (fun i => i / 20)).points.map (·.origin) = (exHist (exCfg 3) exJobs).idx.points.map (·.origin) := by
      rw [h]
    revert this
    decide +kernel

/-- the square of `absDist`, for values below 1000 -/
def sqDist (a b : List Nat) : F32 :=
  let d := (a.headD 0 - b.headD 0) + (b.headD 0 - a.headD 0)
  ⟨false, Fin.ofNat (2 ^ 31) (d * d % 1000000)⟩

/-- the distance and its square are in the same order -/
theorem sqDist_sameOrder :
    SameOrder (fun v : List Nat => v.headD 0 < 1000) (fun v => v) absDist sqDist := by
  have key : ∀ v w : List Nat, v.headD 0 < 1000 → w.headD 0 < 1000 → ∃ d : Nat, d < 1000 ∧ d * d < 1000000 ∧
      absDist v w = ⟨false, Fin.ofNat (2 ^ 31) d⟩ ∧ sqDist v w = ⟨false, Fin.ofNat (2 ^ 31) (d * d)⟩ := by
    intro v w hv hw
    refine ⟨(v.headD 0 - w.headD 0) + (w.headD 0 - v.headD 0), by omega, ?_, ?_, ?_⟩
    · generalize hd : (v.headD 0 - w.headD 0) + (w.headD 0 - v.headD 0) = d
      have : d < 1000 := by omega
      calc d * d ≤ 999 * 999 := Nat.mul_le_mul (by omega) (by omega)
        _ < 1000000 := by decide
    · unfold absDist
      rw [Nat.mod_eq_of_lt (by omega)]
    · unfold sqDist
      simp only
      rw [Nat.mod_eq_of_lt]
      generalize hd : (v.headD 0 - w.headD 0) + (w.headD 0 - v.headD 0) = d
      have : d < 1000 := by omega
      calc d * d ≤ 999 * 999 := Nat.mul_le_mul (by omega) (by omega)
        _ < 1000000 := by decide
  have hk : ∀ n : Nat, n < 1000000 → (⟨false, Fin.ofNat (2 ^ 31) n⟩ : F32).key = n ∧
      (⟨false, Fin.ofNat (2 ^ 31) n⟩ : F32).isNaN = false := by
    intro n hn
    have h1 : (Fin.ofNat (2 ^ 31) n).val = n := Nat.mod_eq_of_lt (by omega)
    constructor
    · simp only [F32.key, h1, Bool.false_eq_true, if_false]
    · simp only [F32.isNaN, h1]
      exact decide_eq_false (by omega)
  have hmul : ∀ a b : Nat, a ≤ b ↔ a * a ≤ b * b := fun a b =>
    ⟨fun h => Nat.mul_le_mul h h, fun h => Classical.byContradiction fun hn => by
      have h1 : b * b < a * a := Nat.mul_lt_mul_of_le_of_lt (by omega) (by omega) (by omega)
      omega⟩
  constructor
  · intro v w hv hw
    obtain ⟨d, h1, h2, h3, h4⟩ := key v w hv hw
    rw [h3, h4]
    have a := hk d (by omega)
    have b := hk (d * d) h2
    exact ⟨⟨a.2, by rw [a.1]; omega⟩, ⟨b.2, by rw [b.1]; omega⟩⟩
  · intro v w x y hv hw hx hy
    obtain ⟨d, h1, h2, h3, h4⟩ := key v w hv hw
    obtain ⟨d', h1', h2', h3', h4'⟩ := key x y hx hy
    rw [h3, h4, h3', h4', F32.le_iff, F32.le_iff]
    have a := hk d (by omega)
    have b := hk (d * d) h2
    have a' := hk d' (by omega)
    have b' := hk (d' * d') h2'
    rw [a.1, a.2, b.1, b.2, a'.1, a'.2, b'.1, b'.2]
    have := hmul d d'
    exact ⟨fun h => ⟨rfl, rfl, Int.ofNat_le.2 (this.1 (Int.ofNat_le.1 h.2.2))⟩,
      fun h => ⟨rfl, rfl, Int.ofNat_le.2 (this.2 (Int.ofNat_le.1 h.2.2))⟩⟩
  · intro v w hv hw
    obtain ⟨d, h1, h2, h3, h4⟩ := key v w hv hw
    rw [h3, h4, F32.le_iff, F32.le_iff]
    have a := hk d (by omega)
    have b := hk (d * d) h2
    rw [a.1, a.2, b.1, b.2]
    have := hmul d 0
    have hz : F32.zero.key = 0 := rfl
    have hn : F32.zero.isNaN = false := rfl
    rw [hz, hn]
    exact ⟨fun h => ⟨rfl, rfl, Int.ofNat_le.2 (this.1 (Int.ofNat_le.1 h.2.2))⟩,
      fun h => ⟨rfl, rfl, Int.ofNat_le.2 (this.2 (Int.ofNat_le.1 h.2.2))⟩⟩

/-- the history of the examples with the squared distance: same places, same links, other distances -/
example : SameParams (exCfg 3) { exCfg 3 with eval := sqDist } ∧
    (∀ j ∈ exJobs, (fun v : List Nat => v.headD 0 < 1000) j.data) ∧
    SeqReach (listPolicy Nat) (exCfg 3) exJobs (exHist (exCfg 3) exJobs) ∧
    ((exHist { exCfg 3 with eval := sqDist } exJobs).idx.nb ⟨2, 0⟩ 0).map (fun e => (e.pt.pid, e.dist.key)) =
      [(⟨0, 1⟩, 25), (⟨1, 0⟩, 25), (⟨0, 0⟩, 225)] ∧
    ((exHist (exCfg 3) exJobs).idx.nb ⟨2, 0⟩ 0).map (fun e => (e.pt.pid, e.dist.key)) =
      [(⟨0, 1⟩, 5), (⟨1, 0⟩, 5), (⟨0, 0⟩, 15)] :=
  ⟨⟨rfl, rfl, rfl, rfl, rfl⟩, by decide, exHist_ok, by decide +kernel, by decide +kernel⟩

/-- The distances among the stored points are needed: two distance functions that agree from a query to
all points, but not between the points, build different graphs. -/
example : ∃ eval' : List Nat → List Nat → F32, (∀ v w, (eval' v w).Legal) ∧
    (∀ x ∈ [10, 20, 30, 25], eval' [26] [x] = absDist [26] [x]) ∧
    (exIdx { exCfg 1 with eval := eval' } [(10, 0), (20, 0), (30, 0), (25, 0)]).nb ⟨0, 2⟩ 0 ≠
      (exIdx (exCfg 1) [(10, 0), (20, 0), (30, 0), (25, 0)]).nb ⟨0, 2⟩ 0 := by
  refine ⟨fun v w => if v.headD 0 = 26 ∨ w.headD 0 = 26 then absDist v w else F32.zero, ?_, by decide,
    by decide +kernel⟩
  intro v w
  simp only
  split
  · exact absDist_legal v w
  · decide

end Verif
