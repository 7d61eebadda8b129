/-
Properties C121 (answers for fewer neighbours asked) and C122 (sizes of the dumped files).
-/
import Verif.Props.GraphBytes
import Verif.Props.Layout
import Verif.Props.Again
import Verif.Props.Small

set_option autoImplicit false

namespace Verif

variable {T : Type} {P : Policy T} {cfg : Cfg T} {s : Idx T}

/-- **C121** (partial) If the width of the search, which is the larger one of `ef` and `knbn`, is the same, the answer for
fewer neighbours is a prefix of the answer for more neighbours; panics are the same. This holds with a filter as well, for
every table and any distances.

Full claim: the same with the same `ef` and any `knbn ≤ knbn'`. `C121_refuted`: false if `knbn' > ef`. -/
theorem C121_prefix_partial (P : Policy T) (cfg : Cfg T) (s : Idx T) (q : List T) (filt : Option (DataId → Bool))
    {knbn knbn' efArg efArg' : Nat} (hk : knbn ≤ knbn') (he : max efArg knbn = max efArg' knbn') :
    searchFilter P cfg s q knbn efArg filt = (searchFilter P cfg s q knbn' efArg' filt).map (·.take knbn) := by
  unfold searchFilter
  rw [← he]
  cases s.entry with
  | none => simp [Except.map]
  | some ep =>
    simp only []
    cases lowestLayer s with
    | none => rfl
    | some l =>
      simp only []
      cases searchLayer P cfg.eval q (max efArg knbn) filt s (descend cfg.eval q s ep.pid.layer (ep, cfg.eval q ep.data)).1 l with
      | error e => rfl
      | ok h =>
        simp only []
        cases P.intoSortedC h with
        | error e => rfl
        | ok v =>
          simp only [Except.map, Except.ok.injEq]
          rw [← List.map_take, List.take_take]
          congr 2
          omega

/-- the usual case: `knbn ≤ knbn' ≤ ef` -/
theorem C121_usual (P : Policy T) (cfg : Cfg T) (s : Idx T) (q : List T) (filt : Option (DataId → Bool))
    {knbn knbn' ef : Nat} (hk : knbn ≤ knbn') (he : knbn' ≤ ef) :
    searchFilter P cfg s q knbn ef filt = (searchFilter P cfg s q knbn' ef filt).map (·.take knbn) :=
  C121_prefix_partial P cfg s q filt hk (by omega)

/-- **C121** refuted: with `ef = 1` the points 38, 30, 20, 21 and the query 34, the one neighbour found is 38; of two
neighbours the first one is 30. -/
theorem C121_refuted : ∃ s : Idx Nat, Reach (listPolicy Nat) (exCfg 2) s ∧
    answerIds (search (listPolicy Nat) (exCfg 2) s [34] 1 1) = some [38] ∧
    answerIds (search (listPolicy Nat) (exCfg 2) s [34] 2 1) = some [30, 38] :=
  ⟨exIdx (exCfg 2) [(38, 0), (30, 0), (20, 0), (21, 0)], exIdx_reach _ _ (by decide), by decide +kernel, by decide +kernel⟩

/-- two of three answers -/
example : answerIds (search (listPolicy Nat) (exCfg 3) ex4 [26] 3 3) = some [25, 30, 20] ∧
    answerIds (search (listPolicy Nat) (exCfg 3) ex4 [26] 2 3) = some [25, 30] :=
  ⟨by decide +kernel, by decide +kernel⟩

/-- the number of links of a point, in its 16 lists -/
def linksOf (nb : PointId → Nat → List (PWO T)) (p : Ref T) : Nat :=
  ((List.range 16).map fun l => (nb p.pid l).length).sum

theorem length_flatMap_sum {α β : Type} (f : α → List β) (l : List α) :
    (l.flatMap f).length = (l.map fun a => (f a).length).sum := by
  induction l with
  | nil => rfl
  | cons a l ih => simp [ih]

theorem sum_affine {α : Type} (f : α → Nat) (a b : Nat) (l : List α) :
    (l.map fun x => a + b * f x).sum = l.length * a + b * (l.map f).sum := by
  induction l with
  | nil => simp
  | cons x l ih =>
    simp only [List.map_cons, List.sum_cons, List.length_cons, ih, Nat.succ_mul, Nat.mul_add]
    omega

theorem filePid_length (p : PointId) : (filePid p).length = 5 := by
  unfold filePid
  simp [le_length]

theorem filePoint_length (nb : PointId → Nat → List (PWO T)) (p : Ref T) :
    (filePoint nb p).length = 145 + 17 * linksOf nb p := by
  unfold filePoint linksOf
  simp only [List.length_append, length_flatMap_sum, le_length, filePid_length, List.length_cons, List.length_nil]
  have h1 : ∀ l, ((nb p.pid l).map fun (_ : PWO T) => 8 + 5 + 4).sum = 17 * (nb p.pid l).length := by
    intro l
    rw [List.map_const', List.sum_replicate_nat, Nat.mul_comm]
  simp only [h1]
  rw [sum_affine (fun l => (nb p.pid l).length), List.length_range]
  omega

theorem fileLayer_length (nb : PointId → Nat → List (PWO T)) (ps : List (Ref T)) :
    (fileLayer nb ps).length = 12 + (ps.length * 145 + 17 * (ps.map (linksOf nb)).sum) := by
  unfold fileLayer
  simp only [List.length_append, length_flatMap_sum, le_length, filePoint_length, List.length_cons, List.length_nil]
  rw [sum_affine]

theorem fileStr_length (t : String) : (fileStr t).length = 8 + t.toUTF8.size := by
  unfold fileStr
  simp only [List.length_append, le_length, Array.length_toList]
  rfl

theorem layers_length (nb : PointId → Nat → List (PWO T)) (ls : List (List (Ref T))) :
    (ls.flatMap (fileLayer nb)).length =
      ls.length * 12 + (ls.flatten.length * 145 + 17 * (ls.flatten.map (linksOf nb)).sum) := by
  induction ls with
  | nil => rfl
  | cons ps ls ih =>
    simp only [List.flatMap_cons, List.length_append, List.flatten_cons, List.map_append, List.sum_append, ih,
      fileLayer_length, List.length_cons, Nat.succ_mul, Nat.mul_add, Nat.add_mul]
    omega

theorem linksOf_le {nb : PointId → Nat → List (PWO T)} {m : Nat} (p : Ref T)
    (h : ∀ l, (nb p.pid l).length ≤ if l = 0 then 2 * m else m) : linksOf nb p ≤ 17 * m := by
  unfold linksOf
  have h0 := h 0
  rw [if_pos rfl] at h0
  have hl : ∀ l, (nb p.pid (l + 1)).length ≤ m := fun l => by have := h (l + 1); rwa [if_neg (by omega)] at this
  have key : ∀ (L : List Nat), (L.map fun l => (nb p.pid (l + 1)).length).sum ≤ L.length * m := by
    intro L
    induction L with
    | nil => simp
    | cons x L ih =>
      have := hl x
      simp only [List.map_cons, List.sum_cons, List.length_cons, Nat.succ_mul]
      omega
  have k := key (List.range 15)
  rw [show (16 : Nat) = 15 + 1 from rfl, List.range_succ_eq_map]
  simp only [List.map_cons, List.sum_cons, List.map_map, List.length_range] at k ⊢
  change _ + ((List.range 15).map fun l => (nb p.pid (l + 1)).length).sum ≤ _
  omega

variable {ty : Ty T} {defScale : Nat → F64}

/-- **C122** The sizes of the two files of a dump, for vectors of one length: a record of `20` bytes and the vector for
each point in the data file; in the graph file `145` bytes for each point and `17` for each link. So, with the bound on the
degrees, both sizes are at most linear in the number of points. -/
theorem C122_sizes (L : P.Lawful) (hT : ty.Lawful) (hn : ty.noData = false) {ml : Nat} {h : Hnsw T}
    {c : CSt T} (hr : HReach P ty defScale ml h c) (hs : Sizes ty h) (hu : SameDim h.idx) {fs fs' : Dir}
    {base name : String} {draws : List Nat} (hfd : fileDump ty h fs base draws = some (fs', .ok name)) :
    ∃ e g d, h.idx.entry = some e ∧ fs' (name ++ ".hnsw.graph") = some g ∧ fs' (name ++ ".hnsw.data") = some d ∧
      d.length = 12 + h.idx.points.length * (20 + e.data.length * ty.size) ∧
      g.length = 261 + h.distName.toUTF8.size + ty.name.toUTF8.size + 145 * h.idx.points.length +
        17 * (h.idx.points.map (linksOf h.idx.nb)).sum ∧
      g.length ≤ 261 + h.distName.toUTF8.size + ty.name.toUTF8.size +
        h.idx.points.length * (145 + 289 * h.cfg.maxNb) := by
  obtain ⟨e, he, h16, hg, hd⟩ := C77_layout L hT hn hr hs hfd
  have hG := (hr.ok L hT hn).good L
  have hpts : h.idx.layers.flatten = h.idx.points := rfl
  have hgl : (fileHeader h.cfg.maxNb h.getLevelScale h.cfg.efC h.idx.points.length e.data.length h.distName
          ty.name ++ [16] ++ h.idx.layers.flatMap (fileLayer h.idx.nb) ++ le 8 e.origin.toNat ++ filePid e.pid).length =
      261 + h.distName.toUTF8.size + ty.name.toUTF8.size + 145 * h.idx.points.length +
        17 * (h.idx.points.map (linksOf h.idx.nb)).sum := by
    unfold fileHeader
    simp only [List.length_append, layers_length, h16, hpts, fileStr_length, le_length, filePid_length, List.length_cons,
      List.length_nil]
    omega
  have hsum : (h.idx.points.map (linksOf h.idx.nb)).sum ≤ h.idx.points.length * (17 * h.cfg.maxNb) := by
    have : ∀ l : List (Ref T), (l.map (linksOf h.idx.nb)).sum ≤ l.length * (17 * h.cfg.maxNb) := by
      intro l
      induction l with
      | nil => simp
      | cons p l ih =>
        have := linksOf_le (nb := h.idx.nb) (m := h.cfg.maxNb) p (fun l => hG.ok.bound p.pid l)
        rw [List.map_cons, List.sum_cons, List.length_cons, Nat.add_mul, Nat.one_mul]
        omega
    exact this _
  refine ⟨e, _, _, he, hg, hd, ?_, hgl, ?_⟩
  · have hdim : ∀ p ∈ h.idx.points, p.data.length = e.data.length := fun p hp => by
      rw [hu p hp]
      unfold getDataDimension
      rw [he]
    have key : ∀ l : List (Ref T), (∀ p ∈ l, p.data.length = e.data.length) →
        (l.flatMap fun p => dataRecord (p.origin, p.data.flatMap ty.enc)).length =
          l.length * (20 + e.data.length * ty.size) := by
      intro l hl
      induction l with
      | nil => simp
      | cons p l ih =>
        have hp := hl p (by simp)
        have hv : (p.data.flatMap ty.enc).length = p.data.length * ty.size := by
          rw [length_flatMap_sum]
          simp only [hT.enc_len]
          rw [List.map_const', List.sum_replicate_nat]
        simp only [List.flatMap_cons, List.length_append, ih (fun x hx => hl x (by simp [hx])), List.length_cons,
          Nat.succ_mul]
        unfold dataRecord
        simp only [List.length_append, le_length, hv, hp, List.length_cons, List.length_nil]
        omega
    simp only [List.length_append, le_length, key _ hdim, List.length_cons, List.length_nil]
  · rw [hgl, Nat.mul_add, Nat.mul_comm 145]
    have : h.idx.points.length * (289 * h.cfg.maxNb) = 17 * (h.idx.points.length * (17 * h.cfg.maxNb)) := by
      rw [show 289 = 17 * 17 from rfl, Nat.mul_assoc, Nat.mul_left_comm]
    omega

/-- the index of four points with two bytes each: 100 bytes of data -/
example : ∃ (e : Ref UInt8) (g d : Bytes) (fs' : Dir), io4.idx.entry = some e ∧
    fileDump u8Ty io4 (fun _ => none) "a" [] = some (fs', .ok "a") ∧
    fs' "a.hnsw.graph" = some g ∧ fs' "a.hnsw.data" = some d ∧ d.length = 100 ∧ g.length = 1165 := by
  obtain ⟨c, hr⟩ := io4_reach
  have hres : (io4.dump u8Ty true).res = .ok () := res_ok (by decide +kernel)
  obtain ⟨fs', hfd⟩ := fileDump_empty (ty := u8Ty) hres "a" []
  have hu : SameDim io4.idx := by unfold SameDim Stored; decide +kernel
  obtain ⟨e, g, d, h1, h2, h3, h4, h5, -⟩ := C122_sizes listPolicy_lawful u8Ty_lawful rfl hr io4_sizes hu hfd
  have e1 : "a" ++ ".hnsw.graph" = "a.hnsw.graph" := by decide
  have e2 : "a" ++ ".hnsw.data" = "a.hnsw.data" := by decide
  rw [e1] at h2
  rw [e2] at h3
  have he : io4.idx.entry.map (·.data.length) = some 2 := by decide +kernel
  rw [h1] at he
  have he : e.data.length = 2 := by simpa using he
  have hn : io4.idx.points.length = 4 := by decide +kernel
  rw [he, hn] at h4
  refine ⟨e, g, d, fs', h1, hfd, h2, h3, h4, h5.trans ?_⟩
  decide +kernel

end Verif
