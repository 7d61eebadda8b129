import Verif.GraphEq
import Verif.SearchMono
import Verif.Props.Reload

set_option autoImplicit false

/-!
# The comparison of graphs of the crate (C93)
-/

namespace Verif
variable {T T' : Type} {P : Policy T} {P' : Policy T'} {cfg : Cfg T} {cfg' : Cfg T'} {s : Idx T}
  {s' : Idx T'}

theorem layers_range (s : Idx T) : s.layers = (List.range s.layers.length).map s.layer := by
  apply List.ext_getElem
  · simp
  · intro i h1 h2
    simp [Idx.layer, List.getElem?_eq_getElem h1]

theorem points_length (s : Idx T) :
    s.points.length = ((List.range s.layers.length).map fun i => (s.layer i).length).sum := by
  unfold Idx.points
  rw [List.length_flatten]
  congr 1
  conv => lhs; rw [layers_range s]
  rw [List.map_map]
  rfl

/-- **C93** Two indexes are found equal by `check_graph_equality` if and only if they were created with
`max_layer >= 16`, are not empty, and have the same entry point, points and links, as far as ids, point
ids, order of links and distances go. Vectors and settings are not compared. -/
theorem C93_iff (L : P.Lawful) (L' : P'.Lawful) (hr : Reach P cfg s) (hr' : Reach P' cfg' s')
    (hm : cfg.maxLayer ≤ 16) (hm' : cfg'.maxLayer ≤ 16) :
    checkGraph s s' = .ok () ↔ cfg.maxLayer = 16 ∧ cfg'.maxLayer = 16 ∧ s.points ≠ [] ∧
      s.entry.map (fun p => (p.origin, p.pid)) = s'.entry.map (fun p => (p.origin, p.pid)) ∧
      s.layers.map (fun l => l.map fun p => (p.origin, p.pid)) =
        s'.layers.map (fun l => l.map fun p => (p.origin, p.pid)) ∧
      ∀ p l, (s.nb p l).map (fun e => (e.pt.origin, e.pt.pid, e.dist.key)) =
        (s'.nb p l).map (fun e => (e.pt.origin, e.pt.pid, e.dist.key)) := by
  have hg := hr.good L
  have hg' := hr'.good L'
  have ht := hg.ok.tab.len
  have ht' := hg'.ok.tab.len
  rw [checkGraph_ok]
  simp only [nbLayerMax]
  constructor
  · rintro ⟨h1, h2, h3, h4, h5, h6, h7, -⟩
    have e1 : s.layers.length = 16 := by omega
    have e2 : s'.layers.length = 16 := by omega
    have hl : s.layers.map (fun l => l.map pointKey) = s'.layers.map (fun l => l.map pointKey) := by
      rw [layers_range s, layers_range s', e1, e2, List.map_map, List.map_map]
      apply List.map_congr_left
      intro i hi
      exact h6 i (List.mem_range.1 hi)
    refine ⟨by omega, by omega, ?_, h3, hl, ?_⟩
    · intro hp
      cases he : s.entry with
      | none => exact h2 he
      | some e =>
        have := hg.ok.entry e he
        unfold Stored at this
        rw [hp] at this
        cases this
    · intro p l
      by_cases hlt : l < 16
      · by_cases hp : ∃ o, Stored s o ∧ o.pid = p
        · obtain ⟨o, ho, rfl⟩ := hp
          unfold Stored Idx.points at ho
          obtain ⟨x, hx, hox⟩ := List.mem_flatten.1 ho
          obtain ⟨i, hi, rfl⟩ := List.getElem_of_mem hx
          have ho' : o ∈ s.layer i := by simpa [Idx.layer, List.getElem?_eq_getElem hi] using hox
          exact (h7 i (by omega) o ho' l hlt).1
        · have hz : s.nb p l = [] := by
            apply Classical.byContradiction
            intro hne
            exact hp (hg.ok.owner p l hne)
          have hz' : s'.nb p l = [] := by
            apply Classical.byContradiction
            intro hne
            obtain ⟨o', ho', hop⟩ := hg'.ok.owner p l hne
            apply hp
            unfold Stored Idx.points at ho'
            obtain ⟨x, hx, hox⟩ := List.mem_flatten.1 ho'
            have : x.map pointKey ∈ s.layers.map (fun l => l.map pointKey) := by
              rw [hl]; exact List.mem_map.2 ⟨x, hx, rfl⟩
            obtain ⟨y, hy, hyx⟩ := List.mem_map.1 this
            have : pointKey o' ∈ y.map pointKey := by
              rw [hyx]; exact List.mem_map.2 ⟨o', hox, rfl⟩
            obtain ⟨o, ho, hoo⟩ := List.mem_map.1 this
            exact ⟨o, List.mem_flatten.2 ⟨y, hy, ho⟩, by rw [← hop]; exact congrArg Prod.snd hoo⟩
          rw [hz, hz']
          rfl
      · have hz : s.nb p l = [] := by
          apply Classical.byContradiction
          intro hne
          have := hg.ok.lay p l hne
          omega
        have hz' : s'.nb p l = [] := by
          apply Classical.byContradiction
          intro hne
          have := hg'.ok.lay p l hne
          omega
        rw [hz, hz']
        rfl
  · rintro ⟨h1, h2, h3, h4, h5, h6⟩
    have hlen : s.points.length = s'.points.length := by
      have := congrArg (fun x : List (List (DataId × PointId)) => x.flatten.length) h5
      simp only [← List.map_flatten, List.length_map] at this
      exact this
    refine ⟨by rw [hg.count, hg'.count, hlen], hg.entry h3, h4, by omega, by omega, ?_, ?_, ?_⟩
    · intro i hi
      have := congrArg (fun x : List (List (DataId × PointId)) => x[i]?.getD []) h5
      simp only [List.getElem?_map] at this
      unfold Idx.layer
      rw [List.getElem?_eq_getElem (by omega : i < s.layers.length),
        List.getElem?_eq_getElem (by omega : i < s'.layers.length)] at this ⊢
      exact this
    · intro i _ p _ k _
      exact ⟨h6 p.pid k, fun e he => (hg.ok.legal _ _ e he).1, fun e he => (hg'.ok.legal _ _ e he).1⟩
    · rw [hg.count, points_length, ht, h1]

/-! ### What passing means -/

section
variable {s1 s2 : Idx T}

theorem scanList_pts (eval : List T → List T → F32) (q : List T) (ef : Nat)
    (filt : Option (DataId → Bool)) : ∀ {l1 l2 : List (PWO T)} (st : SL P),
    l1.map (·.pt) = l2.map (·.pt) → scanList P eval q ef filt l1 st = scanList P eval q ef filt l2 st := by
  intro l1
  induction l1 with
  | nil => intro l2 st h; cases l2 with
    | nil => rfl
    | cons => cases h
  | cons a l1 ih =>
    intro l2 st h
    cases l2 with
    | nil => cases h
    | cons b l2 =>
      simp only [List.map_cons, List.cons.injEq] at h
      simp only [scanList, h.1]
      cases scanE P eval q ef filt b.pt st with
      | error e => rfl
      | ok x =>
        cases x with
        | stop r => rfl
        | go st' => exact ih st' h.2

theorem slLoop_pts (eval : List T → List T → F32) (q : List T) (ef : Nat)
    (filt : Option (DataId → Bool)) {n1 n2 : PointId → List (PWO T)}
    (h : ∀ p, (n1 p).map (·.pt) = (n2 p).map (·.pt)) : ∀ (n : Nat) (st : SL P),
    slLoop P eval q ef filt n1 n st = slLoop P eval q ef filt n2 n st := by
  intro n
  induction n with
  | zero => intro st; rfl
  | succ n ih =>
    intro st
    simp only [slLoop]
    cases head P ef filt st with
    | done r => rfl
    | panic e => rfl
    | expand c st' =>
      simp only [scanList_pts eval q ef filt st' (h c.pid)]
      cases scanList P eval q ef filt (n2 c.pid) st' with
      | error e => rfl
      | ok x =>
        cases x with
        | stop r => rfl
        | go st'' => exact ih st''

theorem scanPivot_pts (eval : List T → List T → F32) (q : List T) : ∀ {l1 l2 : List (PWO T)}
    (x : Ref T × F32), l1.map (·.pt) = l2.map (·.pt) → scanPivot eval q l1 x = scanPivot eval q l2 x := by
  intro l1
  induction l1 with
  | nil => intro l2 x h; cases l2 with
    | nil => rfl
    | cons => cases h
  | cons a l1 ih =>
    intro l2 x h
    cases l2 with
    | nil => cases h
    | cons b l2 =>
      simp only [List.map_cons, List.cons.injEq] at h
      simp only [scanPivot, h.1]
      exact ih _ h.2

theorem descend_pts (eval : List T → List T → F32) (q : List T)
    (h : ∀ p l, (s1.nb p l).map (·.pt) = (s2.nb p l).map (·.pt)) : ∀ (l : Nat) (x : Ref T × F32),
    descend eval q s1 l x = descend eval q s2 l x := by
  intro l
  induction l with
  | zero => intro x; rfl
  | succ l ih =>
    intro x
    simp only [descend]
    rw [scanPivot_pts eval q x (h x.1.pid (l + 1))]
    exact ih _

/-- searches only read the points, the entry point and the ends of links -/
theorem searchFilter_pts (hl : s1.layers = s2.layers) (he : s1.entry = s2.entry)
    (h : ∀ p l, (s1.nb p l).map (·.pt) = (s2.nb p l).map (·.pt)) (cfg1 cfg2 : Cfg T)
    (hev : cfg1.eval = cfg2.eval) (q : List T) (knbn ef : Nat) (filt : Option (DataId → Bool)) :
    searchFilter P cfg1 s1 q knbn ef filt = searchFilter P cfg2 s2 q knbn ef filt := by
  unfold searchFilter
  rw [he, hev]
  cases s2.entry with
  | none => rfl
  | some ep =>
    simp only [descend_pts cfg2.eval q h]
    have hlow : lowestLayer s1 = lowestLayer s2 := by unfold lowestLayer; rw [hl]
    rw [hlow]
    cases lowestLayer s2 with
    | none => rfl
    | some l =>
      have : ∀ pv, searchLayer P cfg2.eval q (max ef knbn) filt s1 pv l =
          searchLayer P cfg2.eval q (max ef knbn) filt s2 pv l := by
        intro pv
        unfold searchLayer
        rw [hl]
        have hp : s1.points = s2.points := by unfold Idx.points; rw [hl]
        rw [hp]
        cases s2.layers[l]? with
        | none => rfl
        | some x =>
          cases x with
          | nil => rfl
          | cons a as => exact slLoop_pts _ _ _ _ (fun p => h p l) _ _
      simp only [this]

theorem ref_ext {a b : Ref T} (h1 : pointKey a = pointKey b) (h2 : a.data = b.data) : a = b := by
  unfold pointKey at h1
  cases a
  cases b
  simp only [Prod.mk.injEq] at h1 h2
  obtain ⟨rfl, rfl⟩ := h1
  subst h2
  rfl

theorem refs_ext : ∀ {l1 l2 : List (Ref T)}, l1.map pointKey = l2.map pointKey →
    l1.map (·.data) = l2.map (·.data) → l1 = l2 := by
  intro l1
  induction l1 with
  | nil => intro l2 h _; cases l2 with
    | nil => rfl
    | cons => cases h
  | cons a l1 ih =>
    intro l2 h h'
    cases l2 with
    | nil => cases h
    | cons b l2 =>
      simp only [List.map_cons, List.cons.injEq] at h h'
      rw [ref_ext h.1 h'.1, ih h.2 h'.2]

theorem flatten_inj {α : Type} : ∀ {x y : List (List α)}, x.flatten = y.flatten →
    x.map List.length = y.map List.length → x = y := by
  intro x
  induction x with
  | nil => intro y _ h; cases y with
    | nil => rfl
    | cons => cases h
  | cons a x ih =>
    intro y h h'
    cases y with
    | nil => cases h'
    | cons b y =>
      simp only [List.map_cons, List.cons.injEq, List.flatten_cons] at h h'
      obtain ⟨h1, h2⟩ := List.append_inj h h'.1
      rw [h1, ih h2 h'.2]

/-- **C93** If the comparison passes, and the points of the two indexes have the same vectors in the same
order, then the two indexes answer every search alike. -/
theorem C93_search_same (L : P.Lawful) {cfg1 cfg2 : Cfg T} (hr1 : Reach P cfg1 s1)
    (hr2 : Reach P cfg2 s2) (hm1 : cfg1.maxLayer ≤ 16) (hm2 : cfg2.maxLayer ≤ 16)
    (hev : cfg1.eval = cfg2.eval) (h : checkGraph s1 s2 = .ok ())
    (hv : s1.points.map (·.data) = s2.points.map (·.data)) (q : List T) (knbn ef : Nat)
    (filt : Option (DataId → Bool)) :
    searchFilter P cfg1 s1 q knbn ef filt = searchFilter P cfg2 s2 q knbn ef filt := by
  obtain ⟨-, -, -, h3, h4, h5⟩ := (C93_iff L L hr1 hr2 hm1 hm2).1 h
  have hg1 := hr1.good L
  have hg2 := hr2.good L
  have h4' : s1.points.map pointKey = s2.points.map pointKey := by
    have := congrArg List.flatten h4
    rw [← List.map_flatten, ← List.map_flatten] at this
    exact this
  have hpts := refs_ext h4' hv
  have hlay : s1.layers = s2.layers := by
    apply flatten_inj hpts
    have := congrArg (fun x : List (List (DataId × PointId)) => x.map List.length) h4
    simpa [List.map_map, Function.comp_def] using this
  have huniq : ∀ a b, Stored s1 a → Stored s2 b → pointKey a = pointKey b → a = b := by
    intro a b ha hb hab
    apply hg1.nav.tab.unique ha
    · unfold Stored at hb ⊢
      rw [hpts]; exact hb
    · exact congrArg Prod.snd hab
  have hent : s1.entry = s2.entry := by
    cases h6 : s1.entry with
    | none =>
      rw [h6] at h3
      cases h7 : s2.entry with
      | none => rfl
      | some b => rw [h7] at h3; cases h3
    | some a =>
      rw [h6] at h3
      cases h7 : s2.entry with
      | none => rw [h7] at h3; cases h3
      | some b =>
        rw [h7] at h3
        simp only [Option.map_some, Option.some.injEq] at h3
        rw [huniq a b (hg1.ok.entry a h6) (hg2.ok.entry b h7) h3]
  refine searchFilter_pts hlay hent ?_ cfg1 cfg2 hev q knbn ef filt
  intro p l
  have hst1 := hg1.ok.stored p l
  have hst2 := hg2.ok.stored p l
  have h6 := h5 p l
  revert h6 hst1 hst2
  generalize s1.nb p l = l1
  generalize s2.nb p l = l2
  intro hst1
  induction l1 generalizing l2 with
  | nil =>
    intro hst2 h6
    cases l2 with
    | nil => rfl
    | cons => cases h6
  | cons a l1 ih =>
    intro hst2 h6
    cases l2 with
    | nil => cases h6
    | cons b l2 =>
      simp only [List.map_cons, List.cons.injEq] at h6 ⊢
      refine ⟨?_, ih l2 (fun e he => hst1 e (List.mem_cons_of_mem _ he))
        (fun e he => hst2 e (List.mem_cons_of_mem _ he)) h6.2⟩
      apply huniq _ _ (hst1 a (by simp)) (hst2 b (by simp))
      have h8 := h6.1
      simp only [Prod.mk.injEq] at h8
      simp only [pointKey, h8.1, h8.2.1]

end

/-! ### Reloads pass -/

theorem sort_keep (L : P.Lawful) {l : List (PWO T)} (hN : NoNaN l)
    (hl : l.Pairwise (fun a b => a.dist.key ≤ b.dist.key))
    (h : (∀ l : List (PWO T), l.Pairwise (fun a b => a.dist.key ≤ b.dist.key) → P.sort l = l) ∨
      (l.map (·.dist.key)).Nodup) : P.sort l = l := by
  rcases h with h | h
  · exact h l hl
  · refine List.Perm.eq_of_pairwise (le := fun a b : PWO T => a.dist.key ≤ b.dist.key) ?_
      (L.sort_sorted l hN) hl (L.sort_perm l)
    intro a b ha hb h1 h2
    have ha' := (L.sort_perm l).mem_iff.1 ha
    have hab : a.dist.key = b.dist.key := Int.le_antisymm h1 h2
    clear h1 h2 hl ha hN
    induction l with
    | nil => cases ha'
    | cons x l ih =>
      simp only [List.map_cons, List.nodup_cons, List.mem_map, not_exists, not_and] at h
      rcases List.mem_cons.1 ha' with rfl | h3
      · rcases List.mem_cons.1 hb with h4 | h4
        · exact h4.symm
        · exact absurd hab.symm (h.1 b h4)
      · rcases List.mem_cons.1 hb with rfl | h4
        · exact absurd hab (h.1 a h3)
        · exact ih h.2 h4 h3

theorem sum_layers16 (hm : s.layers.length = 16) :
    ((List.range nbLayerMax).map fun i => (s.layer i).length).sum = s.points.length := by
  rw [points_length, hm]
  rfl

theorem checkGraph_of (hg : Good cfg s) (h16 : cfg.maxLayer = 16) (hne : s.entry ≠ none)
    (hn : s'.nbPoint = s.nbPoint) (he : s'.entry.map pointKey = s.entry.map pointKey)
    (hl : s'.layers.map (fun l => l.map pointKey) = s.layers.map (fun l => l.map pointKey))
    (hb : ∀ p l, (s'.nb p l).map (fun e => (pointKey e.pt, e.dist)) =
      (s.nb p l).map (fun e => (pointKey e.pt, e.dist))) : checkGraph s' s = .ok () := by
  have ht := hg.ok.tab.len
  have hlen : s'.layers.length = s.layers.length := by
    have := congrArg List.length hl
    simpa using this
  have hlay : ∀ i, (s'.layer i).map pointKey = (s.layer i).map pointKey := by
    intro i
    have := congrArg (fun x : List (List (DataId × PointId)) => x[i]?.getD []) hl
    simp only [List.getElem?_map] at this
    unfold Idx.layer
    cases h1 : s'.layers[i]? with
    | none =>
      rw [List.getElem?_eq_none_iff, hlen] at h1
      rw [List.getElem?_eq_none h1]
      rfl
    | some x =>
      have h2 : i < s.layers.length := by
        rw [← hlen]; exact (List.getElem?_eq_some_iff.1 h1).1
      rw [h1, List.getElem?_eq_getElem h2] at this
      rw [List.getElem?_eq_getElem h2]
      exact this
  have hlegal : ∀ p l, ∀ e ∈ s'.nb p l, e.dist.isNaN = false := by
    intro p l e hx
    have : (pointKey e.pt, e.dist) ∈ (s.nb p l).map (fun e => (pointKey e.pt, e.dist)) := by
      rw [← hb]; exact List.mem_map.2 ⟨e, hx, rfl⟩
    obtain ⟨e', he', hee⟩ := List.mem_map.1 this
    simp only [Prod.mk.injEq] at hee
    rw [← hee.2]
    exact (hg.ok.legal _ _ e' he').1
  rw [checkGraph_ok]
  refine ⟨hn, ?_, he, ?_, ?_, fun i _ => hlay i, ?_, ?_⟩
  · intro h
    rw [h] at he
    cases h2 : s.entry with
    | none => exact hne h2
    | some x => rw [h2] at he; cases he
  · simp only [nbLayerMax]; omega
  · simp only [nbLayerMax]; omega
  · intro i _ p _ k _
    refine ⟨?_, hlegal _ _, fun e he => (hg.ok.legal _ _ e he).1⟩
    have := congrArg (List.map fun x : (DataId × PointId) × F32 => (x.1.1, x.1.2, x.2.key)) (hb p.pid k)
    rw [List.map_map, List.map_map] at this
    exact this
  · have : ∀ i, (s'.layer i).length = (s.layer i).length := by
      intro i
      have := congrArg List.length (hlay i)
      simpa using this
    simp only [this]
    rw [sum_layers16 (by omega), hn, hg.count]

section
variable {ty : Ty T} {defScale : Nat → F64} {ml : Nat} {h : Hnsw T} {c : CSt T} {fs fs' : Dir}
  {base name : String} {draws : List Nat}

/-- **C93** (reloads) The reload of a dump passes the comparison with the dumped index, for vectors of one
length, with any options if ids are distinct; provided that links of a list are at different distances,
or that the sort made by the reload leaves sorted lists unchanged. -/
theorem C93_reload (L : P.Lawful) (hT : ty.Lawful) (hn : ty.noData = false)
    (hr : HReach P ty defScale ml h c) (hs : Sizes ty h) (hu : SameDim h.idx)
    (hties : (∀ l : List (PWO T), l.Pairwise (fun a b => a.dist.key ≤ b.dist.key) → P.sort l = l) ∨
      ∀ p l, ((h.idx.nb p l).map (·.dist.key)).Nodup)
    (hfd : fileDump ty h fs base draws = some (fs', .ok name)) (o : ReloadOptions)
    (ho : o.datamap = true → DistinctIds h.idx) (dist : Dist T) (hdn : dist.name = h.distName) :
    ∃ io' x, (HnswIo.new name o).loadHnsw P ty defScale dist fs' = (io', .ok x) ∧
      checkGraph x.hnsw.idx h.idx = .ok () := by
  have hk := hr.ok L hT hn
  have hG := hk.good L
  obtain ⟨io', x, hx, h1, h2, h3, h4, -⟩ := C40_reload_same_partial L hT hn hr hs hu hfd o ho dist hdn
  obtain ⟨h5, h6⟩ := (C39_dump_ok_iff L hT hn hr hfd).1 ⟨name, rfl⟩
  refine ⟨io', x, hx, checkGraph_of hG ?_ (hG.entry h6) h3 (by rw [h2]) (by rw [h1]) ?_⟩
  · rw [hk.lay]; exact Nat.min_eq_left h5
  · intro p l
    rw [h4, sort_keep L (fun e he => (hG.ok.legal p l e he).1) (hG.ok.sorted p l) (hties.imp id (fun h => h p l))]

/-- **C93** (reloads without vectors) The same for a reload without vectors. -/
theorem C93_reload_noData (L' : P'.Lawful) (L : P.Lawful) (hT : ty.Lawful)
    (hn : ty.noData = false) (hr : HReach P ty defScale ml h c) (hs : Sizes ty h)
    (hties : (∀ l : List (PWO T'), l.Pairwise (fun a b => a.dist.key ≤ b.dist.key) → P'.sort l = l) ∨
      ∀ p l, ((h.idx.nb p l).map (·.dist.key)).Nodup)
    (hfd : fileDump ty h fs base draws = some (fs', .ok name)) (ty' : Ty T') (hn' : ty'.noData = true)
    (dist : Dist T') (defScale' : Nat → F64) :
    ∃ io' x, (HnswIo.new name .default).loadHnsw P' ty' defScale' dist fs' = (io', .ok x) ∧
      checkGraph x.hnsw.idx h.idx = .ok () := by
  have hk := hr.ok L hT hn
  have hG := hk.good L
  obtain ⟨h5, h6⟩ := (C39_dump_ok_iff L hT hn hr hfd).1 ⟨name, rfl⟩
  obtain ⟨-, hres, -, hf⟩ := fileDump_ok hfd
  have hdm := hk.dumped L hs hres
  refine ⟨_, _, load_noData (io := HnswIo.new name .default) L' hn' hdm rfl hf dist defScale',
    checkGraph_of hG ?_ (hG.entry h6) rfl ?_ ?_ ?_⟩
  · rw [hk.lay]; exact Nat.min_eq_left h5
  · show (h.idx.entry.map (convRef fun _ => ([] : List T'))).map pointKey = _
    rw [Option.map_map]
    rfl
  · show (h.idx.layers.map fun l => l.map (convRef fun _ => ([] : List T'))).map _ = _
    rw [List.map_map]
    apply List.map_congr_left
    intro l _
    simp [Function.comp_def, convRef, pointKey]
  · intro p l
    show (P'.sort ((h.idx.nb p l).map (convPWO fun _ => ([] : List T')))).map _ = _
    rw [sort_keep L']
    · rw [List.map_map]
      rfl
    · intro e he
      obtain ⟨e0, he0, rfl⟩ := List.mem_map.1 he
      exact (hG.ok.legal p l e0 he0).1
    · rw [List.pairwise_map]
      exact hG.ok.sorted p l
    · refine hties.imp id (fun h7 => ?_)
      rw [List.map_map]
      exact h7 p l

end

/-- `ex4` passes against itself and the index with vectors twice as long but the same ids, not against
the index where another point is at level 1, nor against an empty index; two empty indexes do not pass,
nor do two equal indexes created with `max_layer = 15` -/
example :
    let ok := fun (a b : Idx Nat) => (checkGraph a b).isOk
    let shifted := (insertAll (listPolicy Nat) (exCfg 3) (CSt.new 16)
      [(([110], 10), 0), (([120], 20), 1), (([130], 30), 0), (([125], 25), 0)]).map (·.idx)
    let small := exIdx { exCfg 3 with maxLayer := 15 } [(1, 0)]
    ok ex4 ex4 = true ∧ shifted.map (ok ex4) = some true ∧
    ok ex4 (exIdx (exCfg 3) [(10, 1), (20, 0), (30, 0), (25, 0)]) = false ∧
    ok ex4 (exIdx (exCfg 3) []) = false ∧ ok (exIdx (exCfg 3) []) (exIdx (exCfg 3) []) = false ∧
    ok small small = false := by decide +kernel

/-- three points, at different distances of each other -/
def io3 : Hnsw UInt8 := ioH exScale 3 16 u8Dist [(([10], 7), 0), (([21], 8), 1), (([40], 9), 0)]

/-- the links of each list of `io3` are at different distances; `io4` has a list with two links at the
same distance, which needs the other condition -/
example : (∀ p ∈ io3.idx.points, ∀ l < 16, ((io3.idx.nb p.pid l).map (·.dist.key)).Nodup) ∧
    (io3.idx.points.flatMap fun p => (io3.idx.nb p.pid 0).map (·.dist.key)) =
      [30, 19, 30, 11, 19] ∧
    ¬ ∀ p ∈ io4.idx.points, ∀ l < 16, ((io4.idx.nb p.pid l).map (·.dist.key)).Nodup := by
  decide +kernel

end Verif
