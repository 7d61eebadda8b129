import Verif.DumpConcLemmas
import Verif.TruncLemmas
import Verif.ExecLemmas
import Verif.IoExamples
import Verif.SearchConcLemmas

set_option autoImplicit false

/-! # The files of a dump made during insertions: lemmas -/

namespace Verif
variable {T : Type} {P : Policy T}


section
variable {ty : Ty T} {h : Hnsw T} {d : Nat} {s : Idx T}

/-- the description a reload reads in the files of such a dump -/
def tornDescr (ty : Ty T) (h : Hnsw T) (d : Nat) (s : Idx T) : Descr :=
  { h.descr ty true with version := 4, mode := 1, dim := UInt64.ofNat d, nbPoint := UInt64.ofNat s.nbPoint }

/-- what is needed of the dumped table, lists and entry point; the number of points apart -/
structure TornOK (ty : Ty T) (h : Hnsw T) (d : Nat) (s : Idx T) : Prop where
  dumpable : HDumpable ty { h with idx := { s with nbPoint := s.points.length } }
  dim : d < 2 ^ 64
  count : s.nbPoint ≤ s.points.length

theorem TornOK.total (hd : TornOK ty h d s) : s.points.length < 2 ^ 63 := hd.dumpable.idx.total

theorem TornOK.lens (hd : TornOK ty h d s) : s.layers.length ≤ nbLayerMax := hd.dumpable.idx.lens

theorem TornOK.nbPoint_eq (hd : TornOK ty h d s) : (tornDescr ty h d s).nbPoint.toNat = s.nbPoint := by
  have h1 := hd.total
  have h2 := hd.count
  simp only [tornDescr]
  rw [UInt64.toNat_ofNat']; omega

theorem TornOK.dim_eq (hd : TornOK ty h d s) : (tornDescr ty h d s).dim.toNat = d := by
  have h1 := hd.dim
  simp only [tornDescr]
  rw [UInt64.toNat_ofNat']; omega

theorem TornOK.nbLayer (hd : TornOK ty h d s) : (tornDescr ty h d s).nbLayer.toNat = nbLayerMax := by
  have := hd.dumpable.idx.layers
  simp only [] at this
  simp [tornDescr, Hnsw.descr, this, nbLayerMax]

/-- the files -/
theorem TornOK.dump (hd : TornOK ty h d s) {e : Ref T} (he : s.entry = some e) :
    tornDump ty h d s true =
      ⟨(tornDescr ty h d s).headBytes true ++ (tornDescr ty h d s).tailBytes ++ idxGraphBytes s e,
       (leBytes 4 magicDataP ++ leBytes 8 d) ++ s.points.flatMap (pointDataBytes ty), .ok ()⟩ := by
  have hids : ∀ (k : Nat) (l : List (Ref T)), s.layers[k]? = some l →
      ∀ (r : Nat) (p : Ref T), l[r]? = some p → p.pid = ⟨0 + k, r⟩ := fun k l hk r p hp => by
    rw [hd.dumpable.idx.ids (k := k) (l := l) hk hp]; simp
  have h2 : dumpIdx ty true s = ⟨idxGraphBytes s e, s.points.flatMap (pointDataBytes ty), .ok ()⟩ := by
    unfold dumpIdx
    rw [dumpLayers_eq (i := 0) hids, dumpEntry, he]
    simp [Out.seq, Out.graph, idxGraphBytes, Idx.points]
  have h3 : (tornDescr ty h d s).nbLayer = (h.descr ty true).nbLayer := rfl
  have h4 := hd.nbLayer
  rw [h3] at h4
  have h5 : dumpDescr { h.descr ty true with dim := UInt64.ofNat d, nbPoint := UInt64.ofNat s.nbPoint } true =
      .graph ((tornDescr ty h d s).headBytes true ++ (tornDescr ty h d s).tailBytes) := by
    unfold dumpDescr
    rw [if_neg (by simpa using h4)]
    rfl
  unfold tornDump
  rw [h5, h2]
  generalize (tornDescr ty h d s).headBytes true ++ (tornDescr ty h d s).tailBytes = x
  generalize leBytes 4 magicDataP ++ leBytes 8 d = y
  simp [Out.seq, Out.graph, Out.data]

theorem parses_header {ds : Descr} (hds : ds.dim.toNat = d) (hd : d < 2 ^ 64) :
    Parses2 (loadDataHeader ds) [] (leBytes 4 magicDataP ++ leBytes 8 d) () := by
  unfold loadDataHeader
  refine Parses2.bindD (parses_readNat .err (by decide)).onD ?_
  refine Parses2.bind0 (Parses2.require (by simp)) ?_
  refine Parses2.map (parses_readNat .err (by omega)).onD ?_
  refine Parses2.require ?_
  simp [hds]

theorem TornOK.parses_descr (hd : TornOK ty h d s) :
    Parses loadDescr ((tornDescr ty h d s).headBytes true ++ (tornDescr ty h d s).tailBytes)
      (tornDescr ty h d s) := by
  have := parses_loadDescr (d := tornDescr ty h d s) (full := true) hd.dumpable.dist hd.dumpable.tname
  exact this

/-- beginning of a reload -/
theorem TornOK.init (hd : TornOK ty h d s) {fs : Dir} {io : HnswIo} {e : Ref T} (he : s.entry = some e)
    (hg : fs (graphName io.base) = some (tornDump ty h d s true).g)
    (hda : fs (dataName io.base) = some (tornDump ty h d s true).d) :
    io.init fs = .ok (tornDescr ty h d s, (idxGraphBytes s e,
      (leBytes 4 magicDataP ++ leBytes 8 d) ++ s.points.flatMap (pointDataBytes ty))) := by
  unfold HnswIo.init
  rw [hg, hda, hd.dump he]
  have := hd.parses_descr (idxGraphBytes s e)
  simp only [List.append_assoc] at this ⊢
  rw [this]

theorem TornOK.vecs (hd : TornOK ty h d s) (hT : ty.Lawful) (hn : ty.noData = false)
    (hl : ∀ p, Stored s p → d ≤ p.data.length) {o : ReloadOptions} (ho : o.datamap = false)
    (dm : Option DataMap) (still : Int) :
    VecsLoad ty ty (tornDescr ty h d s) dm (fun p => p.data.take d) o still s.points := by
  refine vecsLoad_of fun p hp mm hmm => ⟨(hd.dumpable.vec p hp).1, ?_⟩
  have hf : mm = false := by
    cases mm with
    | false => rfl
    | true => rw [hmm rfl] at ho; cases ho
  rw [hf]
  have := recordVec_take hT hn (d := tornDescr ty h d s) rfl (p := p) (by rw [hd.dim_eq]; exact hl p hp)
  rw [hd.dim_eq] at this
  exact this

/-- The reload of the files if the number of points is right: vectors are cut to the dimension that was
read first. -/
theorem load_torn (L : P.Lawful) (hT : ty.Lawful) (hn : ty.noData = false) (hd : TornOK ty h d s)
    (hc : s.nbPoint = s.points.length) (hl : ∀ p, Stored s p → d ≤ p.data.length)
    {fs : Dir} {io : HnswIo} (ho : io.opts.datamap = false)
    (hg : fs (graphName io.base) = some (tornDump ty h d s true).g)
    (hda : fs (dataName io.base) = some (tornDump ty h d s true).d)
    {dist : Dist T} (hdist : checkDist ty dist.name (tornDescr ty h d s) = .ok ()) (defScale : Nat → F64) :
    ∃ mp, io.loadHnsw P ty defScale dist fs =
      (io, .ok ⟨mkHnsw defScale dist (tornDescr ty h d s) (reloaded P (fun p => p.data.take d) s) true, mp⟩) := by
  obtain ⟨e, he⟩ := Option.ne_none_iff_exists'.mp hd.dumpable.idx.entry
  have he : s.entry = some e := he
  have hdd : Dumpable h.cfg s := by
    have := hd.dumpable.idx
    simp only [← hc] at this
    exact this
  have hmap : io.mapData ty fs = .ok io := by unfold HnswIo.mapData; rw [ho]; rfl
  refine ⟨(List.range s.points.length).map fun i => pointUseMmap io.opts ((s.nbPoint : Int) - (i : Nat)), ?_⟩
  unfold HnswIo.loadHnsw
  rw [hd.init he hg hda]
  have h1 := parses_header hd.dim_eq hd.dim (idxGraphBytes s e) (s.points.flatMap (pointDataBytes ty))
  rw [List.nil_append] at h1
  simp only [h1, hdist, hmap]
  have h2 := parses_loadIndexation L (d := tornDescr ty h d s) (o := io.opts) (dm := io.datamap) rfl
    hd.nbLayer hdd he hd.nbPoint_eq (Or.inr rfl) (hd.vecs hT hn hl ho io.datamap s.nbPoint) [] []
  rw [List.append_nil, List.append_nil] at h2
  rw [h2]

theorem fails_count_points {T' : Type} {ty' : Ty T'} {ds : Descr} (hm : ds.mode = 1)
    (hL : ds.nbLayer.toNat = nbLayerMax) {dm : Option DataMap} {o : ReloadOptions}
    {cv : Ref T → List T'} {l : Nat} {ps : List (Ref T)} {r : Nat} {still : Int}
    (h : ∀ p ∈ ps, PointFits s p) (hid : ∀ (k : Nat) (p : Ref T), ps[k]? = some p → p.pid = ⟨l, r + k⟩)
    (hst : still < ps.length) (h0 : 0 ≤ still) (hv : VecsLoad ty ty' ds dm cv o still ps) :
    Fails2 (loadPoints ty' ds dm o l ps.length r still) (ps.flatMap (pointGraphBytes true s))
      (ps.flatMap (pointDataBytes ty)) .panic := by
  induction ps generalizing r still with
  | nil => simp at hst; omega
  | cons p ps ih =>
    have hp := hid 0 p rfl
    simp only [List.length_cons] at hst
    simp only [List.length_cons, loadPoints, List.flatMap_cons]
    refine Fails2.right (parses_loadPoint hm hL (h p (by simp)) hv.1) ?_
    refine Fails2.right0 (Parses2.require ?_) ?_
    · simp [convRef, hp]
    refine Fails2.right0 (Parses2.require ?_) ?_
    · have := (h p (by simp)).pid.2
      simp [convRef, hp] at this ⊢
      omega
    by_cases hs : 0 ≤ still - 1
    · refine Fails2.right0 (Parses2.require (by simpa using hs)) ?_
      have := ih (r := r + 1) (still := still - 1) (fun q hq => h q (by simp [hq])) (fun k q hq => by
        rw [hid (k + 1) q (by simpa using hq)]; congr 1; omega) (by omega) hs hv.2
      have := Fails2.left (f := fun x => (Pure.pure
        ((⟨convRef cv p, getNeighborhoodId s p, pointUseMmap o still⟩ : PointRec T') :: x.1, x.2) :
          Rd Two (List (PointRec T') × Int))) (g' := []) (d' := []) this
      rw [List.append_nil, List.append_nil] at this
      exact this
    · intro rg rd
      rw [Rd.bind_run]
      have : (Rd.require (decide (0 ≤ still - 1)) Fail.panic : Rd Two Unit)
          (ps.flatMap (pointGraphBytes true s) ++ rg, ps.flatMap (pointDataBytes ty) ++ rd) = .error .panic := by
        rw [decide_eq_false hs]; rfl
      rw [this]

theorem fails_count_layers {T' : Type} {ty' : Ty T'} {ds : Descr} (hm : ds.mode = 1)
    (hL : ds.nbLayer.toNat = nbLayerMax) {dm : Option DataMap} {o : ReloadOptions}
    {cv : Ref T → List T'} {i : Nat} {ls : List (List (Ref T))} {still : Int}
    (h : ∀ l ∈ ls, l.length < 2 ^ 64 ∧ ∀ p ∈ l, PointFits s p)
    (hid : ∀ (k : Nat) (l : List (Ref T)), ls[k]? = some l →
      ∀ (r : Nat) (p : Ref T), l[r]? = some p → p.pid = ⟨i + k, r⟩)
    (hst : still < ls.flatten.length) (h0 : 0 ≤ still) (hv : VecsLoad ty ty' ds dm cv o still ls.flatten) :
    Fails2 (loadLayers ty' ds dm o ls.length i still) (ls.flatMap (layerGraphBytes s))
      (ls.flatten.flatMap (pointDataBytes ty)) .panic := by
  induction ls generalizing i still with
  | nil => simp at hst; omega
  | cons l ls ih =>
    simp only [List.flatten_cons, List.length_append] at hst
    rw [List.flatten_cons, VecsLoad.append] at hv
    simp only [List.length_cons, loadLayers, List.flatMap_cons, List.flatten_cons,
      List.flatMap_append, layerGraphBytes, List.append_assoc]
    refine Fails2.rightG (parses_readNat .err (by decide)).onG ?_
    refine Fails2.right0 (Parses2.require (by simp)) ?_
    have hl := (h l (by simp)).1
    refine Fails2.rightG (parses_readNat .err (by omega)).onG ?_
    have hidl : ∀ (k : Nat) (p : Ref T), l[k]? = some p → p.pid = ⟨i, 0 + k⟩ := fun k p hk => by
      rw [hid 0 l rfl k p hk]; simp
    by_cases hlt : still < l.length
    · exact Fails2.left (fails_count_points hm hL (h l (by simp)).2 hidl hlt h0 hv.1)
    · refine Fails2.right (parses_loadPoints hm hL (h l (by simp)).2 hidl (by omega) hv.1) ?_
      have := ih (i := i + 1) (still := still - l.length) (fun l' hl' => h l' (by simp [hl']))
        (fun k l' hk r p hr => by
          rw [hid (k + 1) l' (by simpa using hk) r p hr]; congr 1; omega) (by omega) (by omega) hv.2
      have := Fails2.left (f := fun x => (Pure.pure (recsOf cv o s still l :: x) :
          Rd Two (List (List (PointRec T'))))) (g' := []) (d' := []) this
      rw [List.append_nil, List.append_nil] at this
      exact this

/-- The reload of the files if the number of points is too small: a panic. -/
theorem load_torn_count (hT : ty.Lawful) (hn : ty.noData = false) (hd : TornOK ty h d s)
    (hc : s.nbPoint < s.points.length) (hl : ∀ p, Stored s p → d ≤ p.data.length)
    {fs : Dir} {io : HnswIo} (ho : io.opts.datamap = false)
    (hg : fs (graphName io.base) = some (tornDump ty h d s true).g)
    (hda : fs (dataName io.base) = some (tornDump ty h d s true).d)
    {dist : Dist T} (hdist : checkDist ty dist.name (tornDescr ty h d s) = .ok ()) (defScale : Nat → F64) :
    io.loadHnsw P ty defScale dist fs = (io, .error .panic) := by
  obtain ⟨e, he⟩ := Option.ne_none_iff_exists'.mp hd.dumpable.idx.entry
  have he : s.entry = some e := he
  have hmap : io.mapData ty fs = .ok io := by unfold HnswIo.mapData; rw [ho]; rfl
  unfold HnswIo.loadHnsw
  rw [hd.init he hg hda]
  have h1 := parses_header hd.dim_eq hd.dim (idxGraphBytes s e) (s.points.flatMap (pointDataBytes ty))
  rw [List.nil_append] at h1
  simp only [h1, hdist, hmap]
  have htot := hd.total
  have has : asI64 (tornDescr ty h d s).nbPoint.toNat = s.nbPoint := by
    unfold asI64; rw [hd.nbPoint_eq, if_pos (by omega)]
  have hlen : (UInt8.ofNat s.layers.length).toNat = s.layers.length := hd.dumpable.idx.lens_byte
  have hfail : Fails2 (loadIndexation P ty (tornDescr ty h d s) io.datamap io.opts) (idxGraphBytes s e)
      (s.points.flatMap (pointDataBytes ty)) .panic := by
    unfold loadIndexation idxGraphBytes
    refine Fails2.right0 (Parses2.require (by simp [tornDescr, Hnsw.descr])) ?_
    refine Fails2.rightG (parses_byte .err _).onG ?_
    refine Fails2.right0 (Parses2.require ?_) ?_
    · rw [hlen]; have := hd.lens; simpa using this
    rw [hlen, has]
    have := fails_count_layers (i := 0) (s := s) (ls := s.layers) (still := s.nbPoint) (ds := tornDescr ty h d s) rfl
      hd.nbLayer (dm := io.datamap) (o := io.opts)
      (fun l hl => ⟨by have : l.length < 2 ^ 31 := hd.dumpable.idx.ranks l hl
                       omega,
        fun p hp => by
          obtain ⟨a, b, c⟩ := hd.dumpable.idx.fits (p := p) (List.mem_flatten.mpr ⟨l, hl, hp⟩)
          exact ⟨a, b, c⟩⟩)
      (fun k l hk r p hp => by rw [hd.dumpable.idx.ids (k := k) (l := l) hk hp]; simp)
      (by unfold Idx.points at hc; omega) (by omega) (hd.vecs hT hn hl ho io.datamap s.nbPoint)
    have := Fails2.left (g' := leBytes 8 e.origin.toNat ++ pidBytes e.pid) (d' := []) this
      (f := fun recs => do
      let layers := recs.map fun l => l.map (·.pt)
      let tbl ← Rd.lift (mapE (fun l => mapE (fun r => linkPoint P layers r.lists) l) recs)
      let _origin ← onG (readNat .err 8)
      let layer ← onG (readNat .err 1)
      let rank ← onG (readNat .err 4)
      let e ← Rd.lift (resolve layers ⟨layer, rank⟩)
      Pure.pure (mkIdx layers tbl e, recs.flatten.map (·.mapped)))
    rw [List.append_nil] at this
    exact this
  have h2 := hfail [] []
  rw [List.append_nil, List.append_nil] at h2
  rw [h2]

end

/-! ## Concrete executions -/

/-- one action of the dump -/
def dumpAct (s : CSt T) : DumpSt T → Option (DumpSt T)
  | .start => some (.dim (getDataDimension s.idx))
  | .dim d => some (.count d (getNbPoint s.idx))
  | .count d n => some (.table d n s.idx.points fun _ _ => [])
  | .table d n (p :: todo) nb => some (.table d n todo fun q => if q = p.pid then s.idx.nb q else nb q)
  | .table d n [] nb => some (.done d ⟨s.idx.layers, nb, n, s.idx.entry⟩)
  | .done .. => none

/-- run a schedule: `some i` is a step of insertion thread `i`, `none` one of the dump -/
def runDump [DecidableEq T] : List (Option Nat) → DSys T → Option (DSys T)
  | [], m => some m
  | none :: is, m => (dumpAct m.st m.dump).bind fun d => runDump is ⟨m.st, m.ins, d⟩
  | some i :: is, m =>
    match runSched [i] (m.st, m.ins) with
    | some (s, ts) =>
      if m.dump.holds = true → s.idx.layers = m.st.idx.layers then runDump is ⟨s, ts, m.dump⟩ else none
    | none => none

theorem DSteps.trans {a b c : DSys T} (h : DSteps a b) (h' : DSteps b c) : DSteps a c := by
  induction h' with
  | refl => exact h
  | step _ hs ih => exact .step ih hs

theorem dumpAct_step {s : CSt T} {ts : List (Prog (CSt T) Unit)} {d d' : DumpSt T}
    (h : dumpAct s d = some d') : DStep ⟨s, ts, d⟩ ⟨s, ts, d'⟩ := by
  cases d with
  | start => cases h; exact .dim
  | dim d => cases h; exact .count
  | count d n => cases h; exact .lock
  | table d n todo nb =>
    cases todo with
    | nil => cases h; exact .entry
    | cons p todo => cases h; exact .point
  | done d s => cases h

theorem runDump_steps [DecidableEq T] : ∀ (is : List (Option Nat)) (m m' : DSys T),
    runDump is m = some m' → DSteps m m' := by
  intro is
  induction is with
  | nil => intro m m' h; cases h; exact .refl _
  | cons x is ih =>
    intro m m' h
    obtain ⟨s0, ts0, d0⟩ := m
    cases x with
    | none =>
      simp only [runDump, Option.bind_eq_some_iff] at h
      obtain ⟨d, hd, h⟩ := h
      exact (DSteps.step (.refl _) (dumpAct_step hd)).trans (ih _ _ h)
    | some i =>
      simp only [runDump] at h
      split at h
      · rename_i s ts hr
        split at h
        · rename_i hl
          exact (DSteps.step (.refl _) (.ins (runSched_one hr) hl)).trans (ih _ _ h)
        · cases h
      · cases h

/-- the state of `ioH` -/
def ioC (maxNb ml : Nat) (dist : Dist T) (items : List ((List T × DataId) × Nat)) : CSt T :=
  let cfg := (ioH exScale maxNb ml dist []).cfg
  (insertAll (listPolicy T) cfg (CSt.new cfg.maxLayer) items).getD (CSt.new cfg.maxLayer)

theorem ioC_reach {ty : Ty T} (hT : ty.Lawful) (hn : ty.noData = false)
    {maxNb ml : Nat} (hm : maxNb ≤ 256) (dist : Dist T)
    (items : List ((List T × DataId) × Nat)) (hl : ∀ x ∈ items, x.2 < min nbLayerMax ml) :
    HReach (listPolicy T) ty exScale ml (ioH exScale maxNb ml dist items) (ioC maxNb ml dist items) := by
  unfold ioC ioH
  cases hnew : Hnsw.new exScale maxNb ml 10 dist with
  | error e =>
    unfold Hnsw.new at hnew
    rw [if_neg (by omega)] at hnew
    cases hnew
  | ok h =>
    have h0 : HReach (listPolicy T) ty exScale ml h (CSt.new h.cfg.maxLayer) := .new hnew
    have hk := h0.ok listPolicy_lawful hT hn
    simp only
    cases hs : insertAll (listPolicy T) h.cfg (CSt.new h.cfg.maxLayer) items with
    | none =>
      simp only [Option.getD_none]
      rw [hk.idx]
      exact h0
    | some c =>
      exact hreach_insertAll listPolicy_lawful hT hn items h0
        (fun x hx => by rw [hk.lay]; exact hl x hx) hs

/-- the state reached by a schedule of the insertions `jobs` and a dump -/
def exDump (items : List ((List UInt8 × DataId) × Nat)) (jobs : List (Job UInt8)) (is : List (Option Nat)) :
    Option (DSys UInt8) :=
  let c0 := ioC 3 16 u8Dist items
  runDump is ⟨c0, jobs.map (Job.prog (listPolicy UInt8) (ioH exScale 3 16 u8Dist items).cfg
    (c0.idx.points.length + jobs.length + 2)), .start⟩

theorem exDump_exec {items : List ((List UInt8 × DataId) × Nat)} {jobs : List (Job UInt8)}
    {is : List (Option Nat)} {m : DSys UInt8} (h : exDump items jobs is = some m) :
    DExec (listPolicy UInt8) (ioH exScale 3 16 u8Dist items).cfg (ioC 3 16 u8Dist items) jobs m :=
  runDump_steps _ _ _ h

/-- dimension, number of points, points and entry point of a finished dump -/
def dumped (m : DSys UInt8) : Option (Nat × Nat × List (PointId × List UInt8) × Option PointId) :=
  match m.dump with
  | .done d s => some (d, s.nbPoint, s.points.map (fun p => (p.pid, p.data)), s.entry.map (·.pid))
  | _ => none

end Verif
