import Verif.WritesLemmas
import Verif.TruncLemmas

set_option autoImplicit false

/-!
# Files that cannot be reloaded

A reload of prefixes of the files of a dump, by `load_hnsw` or `load_hnsw_with_dist`, succeeds only if the
dump did and nothing is missing.
-/

namespace Verif
variable {T T' : Type}

/-- one of the two functions of reload gives this index -/
def LoadsOk (P : Policy T') (ty' : Ty T') (defScale : Nat → F64) (dist : Dist T') (io : HnswIo) (fs : Dir)
    (x : Loaded T') : Prop :=
  (io.loadHnsw P ty' defScale dist fs).2 = .ok x ∨ io.loadHnswWithDist P ty' defScale dist fs = .ok x

/-- the successful steps of a successful reload -/
theorem LoadsOk.steps {P : Policy T'} {ty' : Ty T'} {defScale : Nat → F64} {dist : Dist T'} {io : HnswIo}
    {fs : Dir} {x : Loaded T'} (hx : LoadsOk P ty' defScale dist io fs x) :
    ∃ g d ds g' g2 d2 v, fs (graphName io.base) = some g ∧ fs (dataName io.base) = some d ∧
      loadDescr g = .ok (ds, g') ∧ loadDataHeader ds (g', d) = .ok ((), (g2, d2)) ∧
      skelIndexation ds (g2, d2) = .ok ((), v) := by
  have hini : ∀ {ds : Descr} {s : Two}, io.init fs = .ok (ds, s) →
      ∃ g, fs (graphName io.base) = some g ∧ fs (dataName io.base) = some s.2 ∧
        loadDescr g = .ok (ds, s.1) := by
    intro ds s hi
    unfold HnswIo.init at hi
    split at hi
    · rename_i g b hg hb
      cases hl : loadDescr g with
      | error e => rw [hl] at hi; cases e <;> cases hi
      | ok r =>
        obtain ⟨ds', g'⟩ := r
        rw [hl] at hi
        injection hi with hi; injection hi with h1 h2
        subst h1 h2
        exact ⟨g, hg, hb, hl⟩
    · cases hi
  have key : ∀ {ds : Descr} {s : Two}, io.init fs = .ok (ds, s) → ∀ {u : Unit} {s2 : Two},
      loadDataHeader ds s = .ok (u, s2) → ∀ {dm : Option DataMap} {o : ReloadOptions} {y : Idx T' × List Bool}
      {v : Two}, loadIndexation P ty' ds dm o s2 = .ok (y, v) →
      ∃ g d ds g' g2 d2 v, fs (graphName io.base) = some g ∧ fs (dataName io.base) = some d ∧
      loadDescr g = .ok (ds, g') ∧ loadDataHeader ds (g', d) = .ok ((), (g2, d2)) ∧
      skelIndexation ds (g2, d2) = .ok ((), v) := by
    intro ds s hi u s2 hh dm o y v hl
    obtain ⟨g, hg, hd, hdes⟩ := hini hi
    obtain ⟨_, hs, _⟩ := sim_loadIndexation P ty' ds dm o _ _ _ hl
    exact ⟨g, s.2, ds, s.1, s2.1, s2.2, v, hg, hd, hdes, hh, hs⟩
  rcases hx with hx | hx
  · unfold HnswIo.loadHnsw at hx
    cases hi : io.init fs with
    | error e => rw [hi] at hx; cases hx
    | ok r =>
      obtain ⟨ds, s⟩ := r
      rw [hi] at hx
      simp only at hx
      cases hh : loadDataHeader ds s with
      | error e => rw [hh] at hx; cases hx
      | ok r =>
        obtain ⟨u, s2⟩ := r
        rw [hh] at hx
        simp only at hx
        cases hc : checkDist ty' dist.name ds with
        | error e => rw [hc] at hx; cases hx
        | ok u =>
          rw [hc] at hx
          simp only at hx
          cases hm : io.mapData ty' fs with
          | error e => rw [hm] at hx; cases hx
          | ok io' =>
            rw [hm] at hx
            simp only at hx
            cases hl : loadIndexation P ty' ds io'.datamap io'.opts s2 with
            | error e => rw [hl] at hx; cases hx
            | ok r => exact key hi hh hl
  · unfold HnswIo.loadHnswWithDist at hx
    cases hi : io.init fs with
    | error e => rw [hi] at hx; cases hx
    | ok r =>
      obtain ⟨ds, s⟩ := r
      rw [hi] at hx
      simp only at hx
      cases hh : loadDataHeader ds s with
      | error e => rw [hh] at hx; cases hx
      | ok r =>
        obtain ⟨u, s2⟩ := r
        rw [hh] at hx
        simp only at hx
        split at hx
        · cases hx
        · cases hl : loadIndexation P ty' ds io.datamap io.opts s2 with
          | error e => rw [hl] at hx; cases hx
          | ok r => exact key hi hh hl

/-- bytes with the shape of a dump: a reload of prefixes succeeds only if nothing is missing -/
theorem LoadsOk.whole {P : Policy T'} {ty' : Ty T'} {defScale : Nat → F64} {dist : Dist T'} {io : HnswIo}
    {fs : Dir} {x : Loaded T'} (hx : LoadsOk P ty' defScale dist io fs x) {g d tg td A B C D : Bytes}
    {ds : Descr} (hg : fs (graphName io.base) = some g) (hd : fs (dataName io.base) = some d)
    (hA : Parses loadDescr A ds) (hC : Parses2 (loadDataHeader ds) [] C ())
    (hB : Parses2 (skelIndexation ds) B D ()) (hgt : g ++ tg = A ++ B) (hdt : d ++ td = C ++ D) :
    tg = [] ∧ td = [] := by
  obtain ⟨g0, d0, ds0, g', g2, d2, v, h1, h2, h3, h4, h5⟩ := hx.steps
  rw [hg] at h1; rw [hd] at h2
  injection h1 with h1; injection h2 with h2
  subst h1 h2
  have e1 := ext_loadDescr.ok h3 tg
  rw [hgt, hA] at e1
  injection e1 with e1; injection e1 with e1 e2
  subst e1
  have e3 := (ext_loadDataHeader _).ok h4 tg td
  rw [← e2, hdt] at e3
  have hp := hC B D
  rw [List.nil_append] at hp
  rw [hp] at e3
  injection e3 with e3; injection e3 with _ e4; injection e4 with e4 e5
  have e6 := (ext_skel _).ok h5 tg td
  have hq := hB [] []
  rw [List.append_nil, List.append_nil] at hq
  rw [← e4, ← e5, hq] at e6
  injection e6 with e6; injection e6 with _ e7; injection e7 with e7 e8
  exact ⟨(List.append_eq_nil_iff.mp e7.symm).2, (List.append_eq_nil_iff.mp e8.symm).2⟩

/-- no header in an incomplete header -/
theorem LoadsOk.header {P : Policy T'} {ty' : Ty T'} {defScale : Nat → F64} {dist : Dist T'} {io : HnswIo}
    {fs : Dir} {x : Loaded T'} (hx : LoadsOk P ty' defScale dist io fs x) {g tg A : Bytes}
    {ds : Descr} (hg : fs (graphName io.base) = some g) (hA : Parses loadDescr A ds) (hgt : g ++ tg = A) :
    tg = [] := by
  obtain ⟨g0, d0, ds0, g', g2, d2, v, h1, -, h3, -, -⟩ := hx.steps
  rw [hg] at h1
  injection h1 with h1
  subst h1
  have e1 := ext_loadDescr.ok h3 tg
  have hp := hA []
  rw [List.append_nil] at hp
  rw [hgt, hp] at e1
  injection e1 with e1; injection e1 with e1 e2
  exact (List.append_eq_nil_iff.mp e2.symm).2

theorem flatMap_layers_nil (s : Idx T) {ls : List (List (Ref T))} (h : ∀ l ∈ ls, l = []) :
    ls.flatMap (layerGraphBytes s) = ls.flatMap fun _ => leBytes 4 magicLayer ++ leBytes 8 0 := by
  induction ls with
  | nil => rfl
  | cons l ls ih =>
    have h0 := h l (by simp)
    subst h0
    rw [List.flatMap_cons, List.flatMap_cons, ih fun l hl => h l (by simp [hl])]
    simp [layerGraphBytes]

/-- the shape of the dump of an empty index, completed by an entry point -/
theorem parses_skel_empty {d : Descr} (hm : d.mode = 1) (hL : d.nbLayer.toNat = nbLayerMax) {s : Idx T}
    (hn : d.nbPoint.toNat = 0) (hlen : s.layers.length = nbLayerMax) (hl : ∀ l ∈ s.layers, l = []) :
    Parses2 (skelIndexation d)
      ([UInt8.ofNat s.layers.length] ++ (s.layers.flatMap (layerGraphBytes s) ++
        (leBytes 8 0 ++ pidBytes ⟨0, 0⟩))) [] () := by
  have has : asI64 d.nbPoint.toNat = 0 := by rw [hn]; rfl
  have hlen' : (UInt8.ofNat s.layers.length).toNat = s.layers.length := by
    rw [hlen]; rfl
  have hfl : s.layers.flatten = [] := by
    rw [List.flatten_eq_nil_iff]; exact hl
  unfold skelIndexation
  refine Parses2.bindG (parses_byte .err _).onG ?_
  refine Parses2.bind0 (Parses2.require ?_) ?_
  · rw [hlen', hlen]; decide
  rw [hlen', has]
  have hLay := parses_loadLayers (ty := skelTy) (ty' := skelTy) (cv := fun _ => []) (i := 0) (dm := none)
    (o := .default) (s := (⟨[], fun _ _ => [], 0, none⟩ : Idx Unit)) (still := 0) hm hL
    (ls := List.replicate s.layers.length [])
    (fun l hl => by
      rw [List.eq_of_mem_replicate hl]
      exact ⟨by simp, fun p hp => absurd hp (by simp)⟩)
    (fun k l hk r p hp => by
      rw [List.eq_of_mem_replicate (List.mem_of_getElem? hk)] at hp
      simp at hp)
    (by simp) (by simp [VecsLoad])
  have hg1 : (List.replicate s.layers.length ([] : List (Ref Unit))).flatMap
      (layerGraphBytes (⟨[], fun _ _ => [], 0, none⟩ : Idx Unit)) = s.layers.flatMap (layerGraphBytes s) := by
    rw [flatMap_layers_nil s hl, flatMap_layers_nil _ (fun l hl => List.eq_of_mem_replicate hl)]
    generalize leBytes 4 magicLayer ++ leBytes 8 0 = z
    generalize s.layers = ls
    induction ls with
    | nil => rfl
    | cons l ls ih => simp [List.replicate_succ, ih]
  rw [hg1, List.length_replicate] at hLay
  have hd1 : (List.replicate s.layers.length ([] : List (Ref Unit))).flatten.flatMap
      (pointDataBytes skelTy) = [] := by simp
  rw [hd1] at hLay
  refine hLay.bind (d' := []) ?_
  refine Parses2.bindG (parses_readNat .err (by decide)).onG ?_
  have hb : pidBytes ⟨0, 0⟩ = [UInt8.ofNat 0] ++ leBytes 4 0 := rfl
  rw [hb]
  refine Parses2.bindG (parses_byte .err _).onG ?_
  refine Parses2.map (parses_readNat .err (by decide)).onG ?_
  exact Parses2.pure _

theorem tailBytes_ne (d : Descr) : d.tailBytes ≠ [] := by
  intro h
  have h1 := congrArg List.length h
  simp [Descr.tailBytes, leBytes_length] at h1

/-- prefixes of the files of a dump that succeeded -/
theorem LoadsOk.dumped {P : Policy T'} {ty' : Ty T'} {defScale : Nat → F64} {dist : Dist T'} {io : HnswIo}
    {fs : Dir} {x : Loaded T'} (hx : LoadsOk P ty' defScale dist io fs x) {ty : Ty T} {h : Hnsw T}
    (hd : HDumpable ty h) {g d tg td : Bytes}
    (hg : fs (graphName io.base) = some g) (hdat : fs (dataName io.base) = some d)
    (hgt : g ++ tg = (h.dump ty true).g) (hdt : d ++ td = (h.dump ty true).d) : tg = [] ∧ td = [] := by
  obtain ⟨e, he⟩ := Option.ne_none_iff_exists'.mp hd.idx.entry
  rw [hd.dump he] at hgt hdt
  exact hx.whole hg hdat hd.parses_descr hd.parses_dataHeader
    (parses_skel (d := h.rdescr ty) rfl hd.nbLayer hd.idx he hd.nbPoint_eq (fun p hp => (hd.vec p hp).1))
    hgt hdt

theorem seq_failed (a b : Bytes) :
    (Out.graph a).seq ((⟨b, [], .ok ()⟩ : Out).seq ⟨[], [], .error .err⟩) =
      ⟨a ++ b, [], .error .err⟩ := by
  simp [Out.seq, Out.graph]

theorem seq_failed' (a b c : Bytes) :
    ((Out.graph a).seq ((Out.data b).seq ⟨c, [], .error .err⟩)).g = a ++ c ∧
    ((Out.graph a).seq ((Out.data b).seq ⟨c, [], .error .err⟩)).d = b := by
  simp [Out.seq, Out.graph, Out.data]

/-- prefixes of the files of a dump that failed are never reloaded -/
theorem LoadsOk.not_failed {P : Policy T'} {ty' : Ty T'} {defScale : Nat → F64} {dist : Dist T'}
    {io : HnswIo} {fs : Dir} {x : Loaded T'} (hx : LoadsOk P ty' defScale dist io fs x) {Q : Policy T}
    {ty : Ty T} (L : Q.Lawful) {ml : Nat} {h : Hnsw T} {c : CSt T} (hk : HOk Q ml h c) (hs : Sizes ty h)
    {g d tg td : Bytes}
    (hg : fs (graphName io.base) = some g) (hdat : fs (dataName io.base) = some d)
    (hgt : g ++ tg = (h.dump ty true).g) (hdt : d ++ td = (h.dump ty true).d) :
    (h.dump ty true).res = .ok () := by
  by_cases hl : h.cfg.maxLayer = nbLayerMax
  · cases he : h.idx.entry with
    | some e =>
      have hd := hk.dumpable L hs hl (by rw [he]; simp)
      rw [hd.dump he]
    | none =>
      exfalso
      have hgood := hk.good L
      have hpts : h.idx.points = [] := by
        by_cases hp : h.idx.points = []
        · exact hp
        · exact absurd he (hgood.entry hp)
      have hnil : ∀ l ∈ h.idx.layers, l = [] := List.flatten_eq_nil_iff.mp hpts
      have hlen : h.idx.layers.length = nbLayerMax := by rw [← hl]; exact hgood.ok.tab.len
      have hnl : (h.descr ty true).nbLayer.toNat = nbLayerMax := by
        simp [Hnsw.descr, hl, nbLayerMax]
      have hdim : getDataDimension h.idx = 0 := by
        unfold getDataDimension; rw [he]
      have hout : (h.dump ty true).g = (h.descr ty true).headBytes true ++ (h.descr ty true).tailBytes ++
            ([UInt8.ofNat h.idx.layers.length] ++ h.idx.layers.flatMap (layerGraphBytes h.idx)) ∧
          (h.dump ty true).d = dataHeader h.idx := by
        have h0 : dumpIdx ty true h.idx = ⟨[UInt8.ofNat h.idx.layers.length] ++
            h.idx.layers.flatMap (layerGraphBytes h.idx), [], .error .err⟩ := by
          unfold dumpIdx
          rw [dumpLayers_eq (i := 0) (fun k l hk r p hp => by
            rw [hnil l (List.mem_of_getElem? hk)] at hp; simp at hp), dumpEntry, he]
          have h0 : h.idx.layers.flatten = [] := hpts
          rw [h0, List.flatMap_nil]
          exact seq_failed _ _
        have h2 : dumpDescr (h.descr ty true) true =
            Out.graph ((h.descr ty true).headBytes true ++ (h.descr ty true).tailBytes) := by
          unfold dumpDescr
          rw [if_neg (by rw [hnl]; simp)]
        unfold Hnsw.dump
        rw [h0, h2]
        exact seq_failed' _ _ _
      rw [hout.1] at hgt
      rw [hout.2] at hdt
      have h1 := hx.whole (ds := h.rdescr ty) (tg := tg ++ (leBytes 8 0 ++ pidBytes ⟨0, 0⟩)) (td := td)
        (A := (h.descr ty true).headBytes true ++ (h.descr ty true).tailBytes) (C := dataHeader h.idx)
        (D := []) hg hdat (parses_loadDescr hs.dist hs.tname) ?_
        (parses_skel_empty (d := h.rdescr ty) rfl hnl ?_ hlen hnil) ?_ ?_
      · have h2 := congrArg List.length h1.1
        simp [leBytes_length] at h2
      · unfold loadDataHeader dataHeader
        refine Parses2.bindD (parses_readNat .err (by decide)).onD ?_
        refine Parses2.bind0 (Parses2.require (by simp)) ?_
        refine Parses2.map (parses_readNat .err (by omega)).onD ?_
        refine Parses2.require ?_
        have : (h.rdescr ty).dim.toNat = getDataDimension h.idx := by
          simp only [Hnsw.rdescr, Hnsw.descr]
          rw [UInt64.toNat_ofNat']; omega
        simp [this]
      · have : getNbPoint h.idx = 0 := by
          show h.idx.nbPoint = 0
          rw [hgood.count, hpts]; rfl
        simp [Hnsw.rdescr, Hnsw.descr, this]
      · rw [← List.append_assoc, hgt]
        simp only [List.append_assoc]
      · rw [hdt, List.append_nil]
  · exfalso
    have hle : h.cfg.maxLayer ≤ nbLayerMax := by rw [hk.lay]; exact Nat.min_le_left _ _
    have hnl : (h.descr ty true).nbLayer.toNat ≠ nbLayerMax := by
      simp only [nbLayerMax] at hl hle ⊢
      simp only [Hnsw.descr]
      rw [UInt8.toNat_ofNat']; omega
    have hout : (h.dump ty true).g = (h.descr ty true).headBytes true := by
      unfold Hnsw.dump dumpDescr
      rw [if_pos hnl]
      rfl
    rw [hout] at hgt
    have h1 := hx.header (tg := tg ++ (h.descr ty true).tailBytes) hg
      (parses_loadDescr (full := true) (d := h.descr ty true) hs.dist hs.tname)
      (by rw [← List.append_assoc, hgt])
    exact tailBytes_ne _ (List.append_eq_nil_iff.mp h1).2

end Verif
