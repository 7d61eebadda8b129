import Verif.Inherit
import Verif.GraphLemmas
import Verif.ApiLemmas

set_option autoImplicit false

/-!
# Dumps of indexes that come from any files
-/

namespace Verif
variable {T : Type} {P : Policy T} {ty : Ty T} {defScale : Nat → F64} {dist : Dist T} {io : HnswIo} {fs : Dir}
  {x : Loaded T}

/-- What a program has when it reloaded `x` and brought its index to the state `c`: the table is the one of `c`, the
parameters are the ones of `x` except for the settings (`extend_candidates`, `keep_pruned`, level scale). -/
structure Continued (x : Hnsw T) (c : CSt T) (h : Hnsw T) : Prop where
  idx : h.idx = c.idx
  cfg : ∃ ext kp, h.cfg = x.cfg.withFlags ext kp
  dist : h.distName = x.distName

/-! ## Lengths of the lists of a file -/

/-- lengths that are values of type usize -/
def Lens64 (lists : List (List Neighbour)) : Prop := ∀ ns ∈ lists, ns.length < 2 ^ 64

theorem rep_each {σ α : Type} {m : Rd σ α} {Q : α → Prop} (hm : ∀ (s s' : σ) (a : α), m s = .ok (a, s') → Q a)
    {n : Nat} {s s' : σ} {as : List α} (h : Rd.rep n m s = .ok (as, s')) : as.length = n ∧ ∀ a ∈ as, Q a := by
  induction n generalizing s as with
  | zero =>
    unfold Rd.rep at h
    obtain ⟨rfl, rfl⟩ := pure_ok h
    exact ⟨rfl, by simp⟩
  | succ n ih =>
    unfold Rd.rep at h
    replace h := Rd.bind_ok h
    obtain ⟨a, s1, h1, h⟩ := h
    replace h := Rd.bind_ok h
    obtain ⟨as', s2, h2, h⟩ := h
    obtain ⟨rfl, rfl⟩ := pure_ok h
    obtain ⟨i1, i2⟩ := ih h2
    refine ⟨by simp [i1], ?_⟩
    intro b hb
    rcases List.mem_cons.1 hb with rfl | hb
    · exact hm _ _ _ h1
    · exact i2 b hb

theorem loadPointGraph_lens {d : Descr} {s s' : Bytes} {r : DataId × PointId × List (List Neighbour)}
    (h : loadPointGraph d s = .ok (r, s')) : Lens64 r.2.2 := by
  unfold loadPointGraph at h
  replace h := Rd.bind_ok h
  obtain ⟨magic, t1, a1, h⟩ := h
  replace h := Rd.bind_ok h
  obtain ⟨_, t2, a2, h⟩ := h
  replace h := Rd.bind_ok h
  obtain ⟨o, t3, a3, h⟩ := h
  replace h := Rd.bind_ok h
  obtain ⟨la, t4, a4, h⟩ := h
  replace h := Rd.bind_ok h
  obtain ⟨rk, t5, a5, h⟩ := h
  replace h := Rd.bind_ok h
  obtain ⟨ls, t6, a6, h⟩ := h
  obtain ⟨rfl, rfl⟩ := pure_ok h
  obtain ⟨-, h7⟩ := rep_each (Q := fun ns => ns.length < 2 ^ 64) (fun s s' ns hl => by
    unfold loadList at hl
    replace hl := Rd.bind_ok hl
    obtain ⟨n, s1, b1, hl⟩ := hl
    rw [(rep_each (Q := fun _ => True) (fun _ _ _ _ => trivial) hl).1]
    exact (readNat_ok' b1).2) a6
  intro ns hns
  rcases List.mem_append.1 hns with hns | hns
  · exact h7 ns hns
  · rw [List.eq_of_mem_replicate hns]; decide

theorem loadPoint_lens {d : Descr} {dm : Option DataMap} {mm : Bool} {s s' : Two} {p : PointRec T}
    (h : loadPoint ty d dm mm s = .ok (p, s')) : Lens64 p.lists := by
  unfold loadPoint at h
  replace h := Rd.bind_ok h
  obtain ⟨⟨origin, pid, lists⟩, s1, h1, h⟩ := h
  have h2 : Lens64 lists := loadPointGraph_lens (onG_ok h1).1
  cases mm with
  | true =>
    simp only [if_true] at h
    replace h := Rd.bind_ok h
    obtain ⟨b, s2, -, h⟩ := h
    replace h := Rd.bind_ok h
    obtain ⟨v, s3, -, h⟩ := h
    obtain ⟨rfl, rfl⟩ := pure_ok h
    exact h2
  | false =>
    simp only [Bool.false_eq_true, if_false] at h
    replace h := Rd.bind_ok h
    obtain ⟨v, s2, -, h⟩ := h
    obtain ⟨rfl, rfl⟩ := pure_ok h
    exact h2

theorem loadPoints_lens {d : Descr} {dm : Option DataMap} {o : ReloadOptions} {l n r : Nat}
    {still still' : Int} {s s' : Two} {ps : List (PointRec T)}
    (h : loadPoints ty d dm o l n r still s = .ok ((ps, still'), s')) : ∀ p ∈ ps, Lens64 p.lists := by
  induction n generalizing r still s ps still' with
  | zero =>
    unfold loadPoints at h
    obtain ⟨h1, rfl⟩ := pure_ok h
    rw [Prod.mk.injEq] at h1
    rw [h1.1]
    simp
  | succ n ih =>
    unfold loadPoints at h
    replace h := Rd.bind_ok h
    obtain ⟨p, s1, h1, h⟩ := h
    replace h := Rd.bind_ok h
    obtain ⟨_, s2, h2, h⟩ := h
    replace h := Rd.bind_ok h
    obtain ⟨_, s3, h3, h⟩ := h
    replace h := Rd.bind_ok h
    obtain ⟨_, s4, h4, h⟩ := h
    replace h := Rd.bind_ok h
    obtain ⟨⟨ps', st'⟩, s5, h5, h⟩ := h
    obtain ⟨h6, rfl⟩ := pure_ok h
    rw [Prod.mk.injEq] at h6
    obtain ⟨rfl, rfl⟩ := h6
    intro q hq
    rcases List.mem_cons.1 hq with rfl | hq
    · exact loadPoint_lens h1
    · exact ih h5 q hq

theorem loadLayers_lens {d : Descr} {dm : Option DataMap} {o : ReloadOptions}
    {n l : Nat} {still : Int} {s s' : Two} {rs : List (List (PointRec T))}
    (h : loadLayers ty d dm o n l still s = .ok (rs, s')) : ∀ p ∈ rs.flatten, Lens64 p.lists := by
  induction n generalizing l still s rs with
  | zero =>
    unfold loadLayers at h
    obtain ⟨rfl, rfl⟩ := pure_ok h
    simp
  | succ n ih =>
    unfold loadLayers at h
    replace h := Rd.bind_ok h
    obtain ⟨magic, s1, h1, h⟩ := h
    replace h := Rd.bind_ok h
    obtain ⟨_, s2, h2, h⟩ := h
    replace h := Rd.bind_ok h
    obtain ⟨nb, s3, h3, h⟩ := h
    replace h := Rd.bind_ok h
    obtain ⟨⟨ps, still'⟩, s4, h4, h⟩ := h
    replace h := Rd.bind_ok h
    obtain ⟨ls, s5, h5, h⟩ := h
    obtain ⟨rfl, rfl⟩ := pure_ok h
    intro q hq
    rw [List.flatten_cons, List.mem_append] at hq
    rcases hq with hq | hq
    · exact loadPoints_lens h4 q hq
    · exact ih h5 q hq

theorem linkList_len (L : P.Lawful) {layers : List (List (Ref T))} {ns : List Neighbour}
    {es : List (PWO T)} (h : linkList P layers ns = .ok es) : es.length = ns.length := by
  unfold linkList at h
  cases hm : mapE (fun n : Neighbour => do
      let q ← resolve layers n.pId
      .ok (⟨q, n.distance⟩ : PWO T)) ns with
  | error e => rw [hm] at h; cases h
  | ok v =>
    rw [hm] at h
    simp only [bind, Except.bind] at h
    split at h
    · rename_i w hw
      injection h with h
      subst h
      have hsort : w = P.sort v := by
        unfold Policy.sortC at hw
        split at hw
        · cases hw
        · injection hw with hw; exact hw.symm
      rw [hsort, (L.sort_perm v).length_eq]
      exact (mapE_ok hm).1
    · cases h

theorem loadIndexation_lens (L : P.Lawful) {d : Descr} {dm : Option DataMap}
    {o : ReloadOptions} {s s' : Two} {idx : Idx T} {m : List Bool}
    (h : loadIndexation P ty d dm o s = .ok ((idx, m), s')) (p : PointId) (l : Nat) :
    (idx.nb p l).length < 2 ^ 64 := by
  unfold loadIndexation at h
  replace h := Rd.bind_ok h
  obtain ⟨_, s1, h1, h⟩ := h
  replace h := Rd.bind_ok h
  obtain ⟨nbL, s2, h2, h⟩ := h
  replace h := Rd.bind_ok h
  obtain ⟨_, s3, h3, h⟩ := h
  replace h := Rd.bind_ok h
  obtain ⟨recs, s4, h4, h⟩ := h
  replace h := Rd.bind_ok h
  obtain ⟨t, s5, h5, h⟩ := h
  replace h := Rd.bind_ok h
  obtain ⟨or, s6, h6, h⟩ := h
  replace h := Rd.bind_ok h
  obtain ⟨la, s7, h7, h⟩ := h
  replace h := Rd.bind_ok h
  obtain ⟨rk, s8, h8, h⟩ := h
  replace h := Rd.bind_ok h
  obtain ⟨e, s9, h9, h⟩ := h
  obtain ⟨h5x, rfl⟩ := Rd.lift_ok h5
  obtain ⟨hx, rfl⟩ := pure_ok h
  rw [Prod.mk.injEq] at hx
  obtain ⟨hx1, hx2⟩ := hx
  subst hx1 hx2
  show (tableNb t p l).length < 2 ^ 64
  by_cases hne : tableNb t p l = []
  · rw [hne]; simp
  obtain ⟨-, ps, r, h10, h11⟩ := (tableNb_ok L h5x p l).2.2 hne
  obtain ⟨-, h12, h13⟩ := tableNb_lists h5x h10 h11 l
  have hl := loadLayers_lens h4 r (List.mem_flatten.2 ⟨ps, List.mem_of_getElem? h10, List.mem_of_getElem? h11⟩)
  cases hk : r.lists[l]? with
  | none => exact absurd (h12 hk) hne
  | some ns =>
    have := linkList_len L (h13 ns hk)
    have h14 := hl ns (List.mem_of_getElem? hk)
    have hp : tableNb t ⟨p.layer, p.rank⟩ l = tableNb t p l := rfl
    rw [hp] at this
    omega

/-! ## Dimension of the vectors of a file -/

theorem Ty.decVec_length (ty : Ty T) (n : Nat) (b : Bytes) : (ty.decVec n b).length = n := by
  induction n generalizing b with
  | zero => rfl
  | succ n ih => rw [Ty.decVec, List.length_cons, ih]

/-- vectors that are not mapped and were not written by the oldest version have the dimension of the header -/
theorem loadIndexation_dim (L : P.Lawful) {d : Descr} {dm : Option DataMap} (hn : ty.noData = false)
    (hv : d.version ≠ 2) {o : ReloadOptions} (ho : o.datamap = false) {s s' : Two} {idx : Idx T} {m : List Bool}
    (h : loadIndexation P ty d dm o s = .ok ((idx, m), s')) : ∀ p ∈ idx.points, p.data.length = d.dim.toNat := by
  obtain ⟨-, -, -, -, -, -, -, ps, vs, h1, h2, h3, -⟩ := loadIndexation_ok L h
  have hm := loadIndexation_unmapped ho h
  intro p hp
  rw [← h1] at hp
  obtain ⟨r, hr, rfl⟩ := List.mem_map.1 hp
  obtain ⟨i, hi, hir⟩ := List.getElem_of_mem hr
  have hlen : vs.length = ps.length := by
    have := congrArg List.length h3.1
    simpa using this
  have hv' := h3.2 i r (vs[i]'(by omega)) (by rw [List.getElem?_eq_getElem hi, hir]) (List.getElem?_eq_getElem _)
  unfold VecOf at hv'
  have hmr : r.mapped = false := hm _ (by rw [h2]; exact List.mem_map.2 ⟨r, hr, rfl⟩)
  rw [hmr] at hv'
  simp only [Bool.false_eq_true, if_false] at hv'
  unfold recordVec at hv'
  rw [if_neg (by simp [hn]), if_neg hv] at hv'
  split at hv'
  · split at hv'
    · injection hv' with hv'
      rw [← hv', Ty.decVec_length]
    · cases hv'
  · cases hv'

/-! ## The index can be dumped -/

/-- from the invariant relative to what was reloaded -/
theorem LoadsOk.coherent (L : P.Lawful) (hx : LoadsOk P ty defScale dist io fs x) (hN : NumLinks x.hnsw.idx)
    {s : Idx T} (hi : IdxOKB (Base.of x.hnsw.idx) (x.hnsw.cfg.layersOf x.hnsw.idx) s) : Coherent s := by
  obtain ⟨d, b, dm, o, s1, m, s2, hl, hxe⟩ := hx.parts
  have hmax : x.hnsw.cfg.maxNb ≤ 255 := by
    rw [hxe]
    have := d.maxNb.toNat_lt
    simp only [mkHnsw]
    omega
  have hlens := loadIndexation_lens L hl
  obtain ⟨h1, -, -, -, -, -, h7, -⟩ := loadIndexation_ok L hl
  refine ⟨hi.tab.ids, ?_, hi.owner, ?_, hi.stored, fun p l => (hi.num p l).resolve_left (hN.tame p l),
    fun p l => (hi.sorted p l).resolve_left (hN.tame p l), ?_, hi.entry⟩
  · rw [hi.tab.len]; exact h1
  · intro p l hne
    rcases hi.lay p l hne with h | h
    · exact Nat.lt_of_lt_of_le h h1
    · exact (h7 p l fun h0 => h (by show (x.hnsw.idx.nb p l).length = 0; rw [h0]; rfl)).1
  · intro p l
    have hb := (hi.bound p l).resolve_left (hN.tame p l)
    have hd : degreeBound (x.hnsw.cfg.layersOf x.hnsw.idx) l ≤ 510 := by
      unfold degreeBound Cfg.layersOf
      simp only []
      split <;> omega
    have hB : (Base.of x.hnsw.idx).len p l = (x.hnsw.idx.nb p l).length := rfl
    have := hlens p l
    omega

theorem Resumed.coherent (L : P.Lawful) (hx : LoadsOk P ty defScale dist io fs x) (hN : NumLinks x.hnsw.idx)
    {c : CSt T} (hc : Resumed P x.hnsw c) : Coherent c.idx :=
  hx.coherent L hN (hc.good L hx).1.inv.okB

/-- the number of layers written in the header is the one read in a header -/
theorem dump_res_layers256 (ty : Ty T) (h : Hnsw T) (hm : h.cfg.maxLayer < 256)
    (hr : (h.dump ty true).res = .ok ()) : h.cfg.maxLayer = nbLayerMax := by
  unfold Hnsw.dump dumpDescr at hr
  split at hr
  · cases hr
  · rename_i hx
    simp only [ne_eq, Decidable.not_not, Hnsw.descr] at hx
    rw [UInt8.toNat_ofNat'] at hx
    simp only [nbLayerMax] at hx ⊢
    omega

/-- the header of the graph file and the index -/
theorem LoadsOk.headerOf (hx : LoadsOk P ty defScale dist io fs x) :
    ∃ g d g' b, fs (graphName io.base) = some g ∧ loadDescr g = .ok (d, g') ∧
      x.hnsw = mkHnsw defScale dist d x.hnsw.idx b := by
  have hini : ∀ {d : Descr} {s : Two}, io.init fs = .ok (d, s) →
      ∃ g g', fs (graphName io.base) = some g ∧ loadDescr g = .ok (d, g') := by
    intro d s hi
    unfold HnswIo.init at hi
    split at hi
    · rename_i g b hg hb
      split at hi
      · rename_i d' g' hd
        injection hi with hi
        rw [Prod.mk.injEq] at hi
        obtain ⟨rfl, rfl⟩ := hi
        exact ⟨g, g', hg, hd⟩
      · cases hi
      · cases hi
    · cases hi
  rcases hx with hx | hx
  · obtain ⟨g, b, d, g', s1, idx, m, s2, hg, -, hd, -, hl, rfl⟩ := load_ok_parts
      (io' := (io.loadHnsw P ty defScale dist fs).1) (Prod.ext rfl hx)
    exact ⟨g, d, g', _, hg, hd, rfl⟩
  · unfold HnswIo.loadHnswWithDist at hx
    split at hx
    · cases hx
    · rename_i hi
      split at hx
      · cases hx
      · split at hx
        · cases hx
        · split at hx
          · cases hx
          · injection hx with hx
            subst hx
            obtain ⟨g, g', h1, h2⟩ := hini hi
            exact ⟨g, _, g', _, h1, h2, rfl⟩

theorem LoadsOk.maxLayer (hx : LoadsOk P ty defScale dist io fs x) : x.hnsw.cfg.maxLayer < 256 := by
  obtain ⟨d, b, dm, o, s1, m, s2, -, hxe⟩ := hx.parts
  rw [hxe]
  exact d.nbLayer.toNat_lt

theorem Continued.maxLayer {c : CSt T} {h : Hnsw T} (hh : Continued x.hnsw c h) :
    h.cfg.maxLayer = x.hnsw.cfg.maxLayer := by
  obtain ⟨e, k, hk⟩ := hh.cfg
  rw [hk]; rfl

theorem Continued.dumpable (L : P.Lawful) (hx : LoadsOk P ty defScale dist io fs x) (hN : NumLinks x.hnsw.idx)
    {c : CSt T} (hc : Resumed P x.hnsw c) {h : Hnsw T} (hh : Continued x.hnsw c h) (hs : Sizes ty h)
    (hr : (h.dump ty true).res = .ok ()) : HDumpable ty h where
  idx := ⟨hh.idx ▸ hc.coherent L hx hN, by rw [hh.idx]; exact (hc.good L hx).1.count,
    dump_res_layers256 ty h (by rw [hh.maxLayer]; exact hx.maxLayer) hr, dump_res_entry ty h hr, hs.ranks⟩
  ef := hs.ef
  dist := hs.dist
  tname := hs.tname
  vec := hs.vec

end Verif
