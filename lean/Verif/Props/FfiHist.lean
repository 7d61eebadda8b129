import Verif.FfiHist
import Verif.Props.Ffi
import Verif.Props.Concurrent
import Verif.IoExamples

set_option autoImplicit false

/-!
# C98: indexes of C programs
-/

namespace Verif
variable {T : Type} {P : Policy T} {ty : Ty T} {defScale : Nat → F64} {distOf : String → Dist T} {ct : CTy}
  {log : List (List T × DataId)} {h : Hnsw T} {c : CSt T}

theorem cSlice_inv {α : Type} {mem r : List α} {len : Nat} (h : cSlice mem len = .ok r) :
    len ≤ mem.length ∧ r = mem.take len := by
  unfold cSlice at h
  split at h
  · injection h with h
    exact ⟨by assumption, h.symm⟩
  · cases h

theorem cVectors_inv {ptrs : List (List T)} {vl : Nat} : ∀ (n i : Nat) (vs : List (List T)),
    cVectors ptrs vl n i = .ok vs → i + n ≤ max i ptrs.length ∧ ∀ p ∈ (ptrs.drop i).take n, vl ≤ p.length := by
  intro n
  induction n with
  | zero => intro i vs _; exact ⟨by omega, by simp⟩
  | succ n ih =>
    intro i vs h
    unfold cVectors at h
    split at h
    · cases h
    · rename_i p hp
      split at h
      · cases h
      · rename_i v hv
        split at h
        · cases h
        · rename_i vs' hvs
          have hi : i < ptrs.length := (List.getElem?_eq_some_iff.1 hp).1
          obtain ⟨h1, h2⟩ := ih _ _ hvs
          refine ⟨by omega, ?_⟩
          rw [List.drop_eq_getElem_cons hi, List.take_succ_cons]
          intro q hq
          rcases List.mem_cons.1 hq with rfl | hq
          · rw [(List.getElem?_eq_some_iff.1 hp).2]
            exact (cSlice_inv hv).1
          · exact h2 q hq

/-- what a call of `parallel_insert_*` that reads valid memory passes on -/
theorem cParallel_inv {nb vl : Nat} {datas : List (List T)} {ids : List DataId}
    {r : List (List T × DataId)} (h : cParallelInsertArg nb vl datas ids = .ok r) :
    r = cPairs nb vl datas ids := by
  unfold cParallelInsertArg at h
  split at h
  · rename_i ids' ptrs h1 h2
    obtain ⟨h1, rfl⟩ := cSlice_inv h1
    obtain ⟨h2, rfl⟩ := cSlice_inv h2
    split at h
    · cases h
    · rename_i vs hv
      have h3 := (cVectors_inv _ _ _ hv).2
      simp only [List.drop_zero, List.take_take, Nat.min_self] at h3
      have h4 : cVectors (datas.take nb) vl nb 0 = .ok ((datas.take nb).map (·.take vl)) := by
        rw [cVectors_ok nb 0 (by rw [List.length_take]; omega) h3]
        simp [List.take_take]
      rw [h4] at hv
      injection hv with hv
      subst hv
      rw [cRequest_ok nb 0 (by simp; omega) (by simp; omega)] at h
      injection h with h
      rw [← h]
      simp [cPairs, ← List.map_take, List.take_take]
  · cases h
  · cases h

theorem reqJobs_pairs {r : List (List T × DataId)} : ∀ {levels : List Nat}, levels.length = r.length →
    (reqJobs r levels).map (fun j => (j.data, j.id)) = r ∧ (reqJobs r levels).length = r.length := by
  induction r with
  | nil => intro levels _; cases levels <;> simp [reqJobs]
  | cons x r ih =>
    intro levels hl
    cases levels with
    | nil => simp at hl
    | cons l levels =>
      obtain ⟨h1, h2⟩ := ih (levels := levels) (by simpa using hl)
      unfold reqJobs at h1 h2
      constructor
      · simp only [reqJobs, List.zipWith_cons_cons, List.map_cons, h1]
      · simp only [reqJobs, List.zipWith_cons_cons, List.length_cons, h2]

theorem reqJobs_level {r : List (List T × DataId)} {levels : List Nat} {j : Job T}
    (hj : j ∈ reqJobs r levels) : j.level ∈ levels := by
  unfold reqJobs at hj
  obtain ⟨i, hi, rfl⟩ := List.mem_iff_getElem.1 hj
  simp

theorem Hnsw.new_init {ct : CTy} {maxNb ef : Nat} {name : String}
    (hi : cInit defScale distOf ct maxNb ef name = .ok (some h)) :
    name ∈ cInitNames ct ∧ Hnsw.new defScale maxNb 16 ef (distOf name) = .ok h := by
  unfold cInit at hi
  split at hi
  · split at hi
    · injection hi with hi
      injection hi with hi
      subst hi
      exact ⟨by assumption, by assumption⟩
    · cases hi
  · cases hi

theorem Hnsw.new_new {ct : CTy} {maxNb ef ml : Nat} {name : String}
    (hi : cNew defScale distOf ct maxNb ef name ml = .ok (some h)) :
    name ∈ cNewNames ct ∧ Hnsw.new defScale maxNb ml ef (distOf name) = .ok h := by
  unfold cNew at hi
  split at hi
  · split at hi
    · injection hi with hi
      injection hi with hi
      subst hi
      exact ⟨by assumption, by assumption⟩
    · cases hi
  · cases hi

/-- **C98** An index created and filled through the C interface is one that the Rust interface can make, so
that everything proved about those (`HReach`, `Reach`, `ReachC`) holds for it. -/
theorem C98_reach (hc : CHist P ty defScale distOf ct log h c) :
    ∃ ml, HReach P ty defScale ml h c := by
  induction hc with
  | init hi => exact ⟨16, .new (Hnsw.new_init hi).2⟩
  | @new _ _ ml _ _ hi => exact ⟨ml, .new (Hnsw.new_new hi).2⟩
  | ptr hi => exact ⟨16, .new hi⟩
  | insert _ _ hl he hf ih =>
    obtain ⟨ml, ih⟩ := ih
    refine ⟨ml, .batch _ ih ?_ he (fun t ht => by rw [hf t ht]; exact True.intro)⟩
    intro j hj
    rw [List.mem_singleton.1 hj]
    exact hl
  | parallel _ _ _ hl he hf ih =>
    obtain ⟨ml, ih⟩ := ih
    exact ⟨ml, .batch _ ih (fun j hj => hl _ (reqJobs_level hj)) he
      (fun t ht => by rw [hf t ht]; exact True.intro)⟩
  | @load log h h' c fs fs' base name draws dist io _ hs hu hm hfd hn he hx ih =>
    obtain ⟨ml, ih⟩ := ih
    unfold cLoad cGetHnswio at hx
    split at hx
    · rename_i io' x hx'
      injection hx with _ hx
      injection hx with hx
      injection hx with hx
      subst hx
      exact ⟨ml, .reload .default ih hs hu hm (by intro h; cases h) hfd hn he hx'⟩
    · injection hx with _ hx
      injection hx with hx
      cases hx
    · injection hx with _ hx
      cases hx

theorem batch_content (L : P.Lawful) (hT : ty.Lawful) (hn : ty.noData = false) {ml : Nat} {c0 : CSt T}
    (hr : HReach P ty defScale ml h c0) {jobs : List (Job T)}
    (hl : ∀ j ∈ jobs, ∃ level draw, draw < h.gen.maxlevel ∧ h.gen.generate level draw = .ok j.level)
    {ts : List (Prog (CSt T) Unit)} (he : Exec P h.cfg c0 jobs c ts) (hf : ∀ t ∈ ts, t = .ret ()) :
    (c.idx.points.map fun p => (p.data, p.origin)).Perm
      ((h.idx.points.map fun p => (p.data, p.origin)) ++ jobs.map fun j => (j.data, j.id)) := by
  have hk := hr.ok L hT hn
  have hlev : ∀ j ∈ jobs, j.level < h.cfg.maxLayer := by
    intro j hj
    obtain ⟨level, draw, hd, hg⟩ := hl j hj
    obtain ⟨l, h1, h2, -⟩ := C27_level_range h.gen (by omega) level draw hd
    rw [hg] at h1
    injection h1 with h1
    rw [h1, ← hk.gen]
    exact h2
  obtain ⟨-, refs, hlen, href, hperm, -, -, -⟩ :=
    Exec.finished (cfg := h.cfg) L (hk.reach.goodC L) hlev he
      (fun t ht => by rw [hf t ht]; exact True.intro)
  rw [← hk.idx]
  refine (hperm.map _).trans ?_
  rw [List.map_append]
  refine List.Perm.append_left _ (List.Perm.of_eq ?_)
  apply List.ext_getElem (by simpa using hlen)
  intro i h1 h2
  simp only [List.length_map] at h1 h2
  have := href i jobs[i] refs[i] (List.getElem?_eq_getElem h2) (List.getElem?_eq_getElem h1)
  simp only [List.getElem_map, this.1, this.2.1]

/-- **C98** It contains exactly the vectors passed with their ids, each as many times as it was passed. -/
theorem C98_content (L : P.Lawful) (hT : ty.Lawful) (hn : ty.noData = false)
    (hc : CHist P ty defScale distOf ct log h c) :
    (h.idx.points.map fun p => (p.data, p.origin)).Perm log ∧ getNbPoint h.idx = log.length := by
  have key : (h.idx.points.map fun p => (p.data, p.origin)).Perm log := by
    have hnew : ∀ {maxNb ml ef : Nat} {dist : Dist T} {h : Hnsw T}, Hnsw.new defScale maxNb ml ef dist = .ok h →
        h.idx.points = [] := by
      intro maxNb ml ef dist h hh
      unfold Hnsw.new at hh
      split at hh
      · cases hh
      · injection hh with hh
        subst hh
        simp [Idx.new, Idx.points]
    induction hc with
    | init hi => rw [hnew (Hnsw.new_init hi).2]; exact List.Perm.refl _
    | new hi => rw [hnew (Hnsw.new_new hi).2]; exact List.Perm.refl _
    | ptr hi => rw [hnew hi]; exact List.Perm.refl _
    | @insert log h c0 c len data id x l ts hc hx hl he hf ih =>
      obtain ⟨ml, hr⟩ := C98_reach hc
      have h1 := batch_content L hT hn hr (jobs := [⟨x.1, x.2, l⟩])
        (fun j hj => by rw [List.mem_singleton.1 hj]; exact hl) he hf
      have h2 : x = (data.take len, id) := by
        unfold cInsertArg at hx
        split at hx
        · cases hx
        · rename_i v hv
          injection hx with hx
          rw [← hx, (cSlice_inv hv).2]
      rw [h2] at h1
      exact h1.trans (ih.append_right _)
    | @parallel log h c0 c nb vl datas ids r levels ts hc hx hlen hl he hf ih =>
      obtain ⟨ml, hr⟩ := C98_reach hc
      have h1 := batch_content L hT hn hr (fun j hj => hl _ (reqJobs_level hj)) he hf
      rw [(reqJobs_pairs hlen).1, cParallel_inv hx] at h1
      exact h1.trans (ih.append_right _)
    | @load log h h' c fs fs' base name draws dist io hc hs hu hm hfd hdn he hx ih =>
      obtain ⟨ml, hr⟩ := C98_reach hc
      obtain ⟨io', x, h3, h4, -⟩ := C40_reload_same_partial L hT hn hr hs hu hfd .default
        (by intro h; cases h) dist hdn
      unfold cLoad cGetHnswio at hx
      rw [h3] at hx
      injection hx with _ hx
      injection hx with hx
      injection hx with hx
      subst hx
      unfold Idx.points
      rw [h4]
      exact ih
  refine ⟨key, ?_⟩
  obtain ⟨ml, hr⟩ := C98_reach hc
  have hk := hr.ok L hT hn
  have h1 := (hk.reach.goodC L).count
  rw [hk.idx] at h1
  rw [getNbPoint, h1, ← key.length_eq, List.length_map]

/-- **C98** What a C program reads in the answer of `search_neighbours_*`: at most `knbn` pairs, sorted by
distance, each an id passed earlier and the distance of the query to the vector passed with it; none only
if nothing was inserted. -/
theorem C98_search (L : P.Lawful) (hT : ty.Lawful) (hn : ty.noData = false)
    (hc : CHist P ty defScale distOf ct log h c) (hsz : log.length < 2 ^ 63) {data : List T} {len : Nat}
    (hlen : len ≤ data.length) (hleg : ∀ x ∈ log, (h.cfg.eval (data.take len) x.1).Legal)
    (knbn ef : Nat) :
    ∃ a rs, cSearch P h.cfg h.idx len data knbn ef = .ok a ∧ a.read = .ok rs ∧ a.len = rs.length ∧
      rs.length ≤ knbn ∧ rs.Pairwise (fun x y => x.d.key ≤ y.d.key) ∧
      (∀ x ∈ rs, ∃ v, (v, x.id) ∈ log ∧ x.d = h.cfg.eval (data.take len) v) ∧
      (log ≠ [] → 1 ≤ knbn → rs ≠ []) := by
  obtain ⟨hp, hcount⟩ := C98_content L hT hn hc
  obtain ⟨ml, hr⟩ := C98_reach hc
  have hk := hr.ok L hT hn
  have hR : Reach P h.cfg h.idx := ⟨c, hk.reach, hk.idx⟩
  have hlegal : LegalOn h.cfg.eval h.idx (data.take len) := by
    intro p hp'
    exact hleg _ (hp.mem_iff.1 (List.mem_map_of_mem (f := fun p : Ref T => (p.data, p.origin)) hp'))
  have hne : log ≠ [] → h.idx.points ≠ [] := by
    intro hl he
    rw [he, List.map_nil] at hp
    exact hl (hp.nil_eq).symm
  obtain ⟨ns, hs⟩ := C05_no_panic L hR _ hlegal knbn ef
  have hlen' : h.idx.points.length = log.length := by simpa using hp.length_eq
  obtain ⟨a, ha, h1, -, h2⟩ := (C59_search L hR (by omega) data len hlen knbn ef).1 ns hs
  obtain ⟨h3, h4⟩ := C01_sorted_bounded_partial L hR _ (fun p hp => (hlegal p hp).1) knbn ef none ns hs
  refine ⟨a, _, ha, h2, by rw [h1, List.length_map], by rw [List.length_map]; exact h4, ?_, ?_, ?_⟩
  · rw [List.pairwise_map]
    exact h3
  · intro x hx
    obtain ⟨n, hn', rfl⟩ := List.mem_map.1 hx
    obtain ⟨p, hp', rfl⟩ := C02_true_answers L hR _ knbn ef none ns hs n hn'
    exact ⟨p.data, hp.mem_iff.1 (List.mem_map_of_mem (f := fun p : Ref T => (p.data, p.origin)) hp'), rfl⟩
  · intro hl hk1
    obtain ⟨n, ns', hs'⟩ := (C04_empty_nonempty L hR (data.take len) knbn ef).2 (hne hl) hk1 hlegal
    rw [hs] at hs'
    injection hs' with hs'
    rw [hs']
    simp

/-- **C98** `new_hnsw_*` accepts the same distances as `init_hnsw_*` of its type, and from 16 layers on it
makes the same index. -/
theorem C98_new (maxNb ef ml : Nat) (name : String) (hct : ct = .f32 ∨ ct = .u16) :
    (cNew defScale distOf ct maxNb ef name ml = .ok none ↔
      cInit defScale distOf ct maxNb ef name = .ok none) ∧
    (16 ≤ ml → cNew defScale distOf ct maxNb ef name ml = cInit defScale distOf ct maxNb ef name) := by
  have hnames : cNewNames ct = cInitNames ct := by rcases hct with rfl | rfl <;> rfl
  unfold cNew cInit
  rw [hnames]
  constructor
  · split
    · unfold Hnsw.new
      by_cases hm : maxNb > 256
      · simp only [if_pos hm, reduceCtorEq]
      · simp only [if_neg hm, Except.ok.injEq, reduceCtorEq]
    · simp
  · intro hml
    have : min nbLayerMax ml = min nbLayerMax 16 := by
      unfold nbLayerMax
      omega
    have hnew : Hnsw.new defScale maxNb ml ef (distOf name) =
        Hnsw.new defScale maxNb 16 ef (distOf name) := by
      unfold Hnsw.new
      rw [this]
    rw [hnew]
    rfl

/-- **C98** With fewer layers the index works, but no `file_dump_*` of it returns 1. -/
theorem C98_few_layers (L : P.Lawful) (hT : ty.Lawful) (hn : ty.noData = false)
    (hc : CHist P ty defScale distOf ct log h c) (hl : h.cfg.maxLayer ≠ 16) {fs fs' : Dir}
    {name : String} {draws : List Nat} :
    cFileDump ty h fs name draws ≠ some (fs', .ok 1) := by
  intro hd
  obtain ⟨⟨fs1, r⟩, h1, h2⟩ := Option.map_eq_some_iff.1 hd
  simp only [Prod.mk.injEq] at h2
  obtain ⟨rfl, h2⟩ := h2
  cases r with
  | error e => cases e <;> cases h2
  | ok n =>
    obtain ⟨ml, hr⟩ := C98_reach hc
    have hk := hr.ok L hT hn
    obtain ⟨-, hres, -⟩ := fileDump_ok h1
    exact hl (dump_res_layers ty h (by rw [hk.lay]; exact Nat.min_le_left _ _) hres)

/-- **C98** An index with a C function as distance can be dumped, but no loading function of the interface
gives it back: whatever its distances are called, as long as their last segments are the names in the
functions. -/
theorem C98_ptr {dist : Dist T} {io io' : HnswIo} {fs : Dir} {x : Option (Hnsw T)} {g : Bytes} {d : Descr}
    {rest : Bytes} {n : String}
    (hn : ty.noData = false) (hct : n ∈ cLoadNames ct)
    (hname : (rsplitTerm dist.name).head? = some n.toList)
    (hg : fs (graphName io.base) = some g) (hd : loadDescr g = .ok (d, rest))
    (hp : ∃ a, (rsplitTerm d.distName).head? = some ("DistCFFI".toList ++ a))
    (hx : cLoad P ty defScale dist io fs = (io', .ok x)) : x = none := by
  unfold cLoad at hx
  split at hx
  · rename_i io1 y hy
    obtain ⟨g', d', rest', h1, h2, -, h3⟩ := load_ok_descr hy
    rw [hg] at h1
    injection h1 with h1
    rw [← h1, hd] at h2
    injection h2 with h2
    injection h2 with h2 _
    rw [← h2] at h3
    obtain ⟨a, ha⟩ := hp
    unfold checkDist at h3
    rw [hn, hname, ha] at h3
    simp only [Bool.false_eq_true, if_false] at h3
    split at h3
    · rename_i heq
      exfalso
      have : n.toList.take 8 = "DistCFFI".toList := by rw [heq]; rfl
      revert this hct
      cases ct <;> simp only [cLoadNames, List.mem_cons, List.not_mem_nil, or_false]
      · rintro (rfl | rfl | rfl | rfl | rfl | rfl) <;> decide
      · rintro (rfl | rfl | rfl) <;> decide
      · rintro (rfl | rfl | rfl | rfl) <;> decide
      · rintro (rfl | rfl | rfl | rfl) <;> decide
      · rintro (rfl | rfl | rfl | rfl) <;> decide
    · cases h3
  · injection hx with _ hx
    injection hx with hx
    exact hx.symm
  · injection hx with _ hx
    cases hx

/-! ## Concrete cases -/

/-- every level below the number of layers can be drawn -/
theorem level_drawn (g : LayerGen) (h16 : g.maxlevel ≤ 16) {l : Nat} (hl : l < g.maxlevel) :
    ∃ level draw, draw < g.maxlevel ∧ g.generate level draw = .ok l := by
  refine ⟨⟨false, Fin.ofNat _ 0x7ff0000000000000⟩, l, hl, ?_⟩
  unfold LayerGen.generate
  have hinf : (F64.floorUsize ⟨false, Fin.ofNat _ 0x7ff0000000000000⟩) = 2 ^ 64 - 1 := by
    decide +kernel
  simp only [hinf]
  rw [if_pos (by omega), if_neg (by omega)]

/-- one call of `insert_*` -/
theorem CHist.insert_run (L : P.Lawful) (hT : ty.Lawful) (hn : ty.noData = false)
    (hc : CHist P ty defScale distOf ct log h c) (data : List T) (len : Nat) (id : DataId)
    (hlen : len ≤ data.length) {l : Nat} (hl : l < h.cfg.maxLayer) {c' : CSt T}
    (hi : Verif.insert P h.cfg c (data.take len, id) l = .ok () c') :
    CHist P ty defScale distOf ct (log ++ [(data.take len, id)]) { h with idx := c'.idx } c' := by
  obtain ⟨ml, hr⟩ := C98_reach hc
  have hk := hr.ok L hT hn
  obtain ⟨c1, t, he, hf, ho⟩ := insert_exec (cfg := h.cfg) L (hk.reach.goodC L)
    (j := ⟨data.take len, id, l⟩) hl
  rw [hi] at ho
  rcases ho with ⟨h1, h2⟩ | ⟨e, h1, -⟩
  · injection h1 with _ h1
    subst h1
    refine .insert (x := (data.take len, id)) (l := l) hc ?_ ?_ he (by simpa using h2)
    · unfold cInsertArg
      rw [cSlice_ok hlen]
    · exact level_drawn _ (by rw [hk.gen, hk.lay]; exact Nat.min_le_left _ _) (by rw [hk.gen]; exact hl)
  · cases h1

/-- a C program makes an index of bytes, inserts two vectors (the second one shorter than its memory) and
searches -/
example : ∃ h c, CHist (listPolicy UInt8) u8Ty exScale (fun n => u8Dist ("anndists::dist::distances::" ++ n))
      .u8 [([10, 1], 7), ([20, 2], 8)] h c ∧
    (match cSearch (listPolicy UInt8) h.cfg h.idx 2 [18, 0, 5] 3 10 with
      | .ok a => some (a.len, a.mem.map fun x => (x.id, x.d.key))
      | .error _ => none) = some (2, [(8, 2), (7, 8)]) := by
  have h0 : ∃ h, cInit exScale (fun n => u8Dist ("anndists::dist::distances::" ++ n)) .u8 3 10 "DistL1" =
      .ok (some h) ∧ ∃ c1 c2, insert (listPolicy UInt8) h.cfg (CSt.new h.cfg.maxLayer) ([10, 1], 7) 0 = .ok () c1 ∧
        insert (listPolicy UInt8) h.cfg c1 (([20, 2, 3] : List UInt8).take 2, 8) 1 = .ok () c2 ∧
        (match cSearch (listPolicy UInt8) h.cfg c2.idx 2 [18, 0, 5] 3 10 with
          | .ok a => some (a.len, a.mem.map fun x => (x.id, x.d.key))
          | .error _ => none) = some (2, [(8, 2), (7, 8)]) ∧ 1 < h.cfg.maxLayer :=
    ⟨_, rfl, _, _, rfl, rfl, by decide +kernel, by decide⟩
  obtain ⟨h, hi, c1, c2, h1, h2, h3, h4⟩ := h0
  have a := CHist.init (P := listPolicy UInt8) (ty := u8Ty) hi
  have b := a.insert_run listPolicy_lawful u8Ty_lawful rfl [10, 1] 2 7 (by decide) (l := 0) (by omega) h1
  have d := b.insert_run listPolicy_lawful u8Ty_lawful rfl [20, 2, 3] 2 8 (by decide) (l := 1) h4 h2
  exact ⟨_, _, d, h3⟩

/-- with 4 layers, from `new_hnsw_u16`: the dump answers -1 -/
example : (match cNew exScale (fun _ => u8Dist) .u16 3 10 "DistL1" 4 with
    | .ok (some h) => (cFileDump u8Ty h (fun _ => none) "a" []).map fun r => r.2.toOption
    | _ => none) = some (some (-1)) := by decide +kernel

end Verif
