import Verif.CutLemmas
import Verif.Props.Reload
import Verif.Ffi
import Verif.DumpFiles
import Verif.AnyLemmas

set_option autoImplicit false

/-!
# C103: how `load_hnsw` reports files that are missing or damaged
-/

namespace Verif
variable {T : Type} {P : Policy T} {ty : Ty T} {defScale : Nat → F64} {dist : Dist T}

/-- **C103** (partial: these failures only) `load_hnsw` and `load_hnsw_with_dist` return `Err` if one of the
files is missing, and, the headers being readable, if the distance is not the one of the file. -/
theorem C103_err_partial (io : HnswIo) (fs : Dir) :
    ((fs (graphName io.base) = none ∨ fs (dataName io.base) = none) →
      io.loadHnsw P ty defScale dist fs = (io, .error .err) ∧
      io.loadHnswWithDist P ty defScale dist fs = .error .err) ∧
    ∀ g d de g' s', fs (graphName io.base) = some g → fs (dataName io.base) = some d →
      loadDescr g = .ok (de, g') → loadDataHeader de (g', d) = .ok s' → ty.noData = false →
      ((∀ a b, (rsplitTerm dist.name).head? = some a → (rsplitTerm de.distName).head? = some b → a ≠ b) →
        (rsplitTerm dist.name).head? ≠ none → (rsplitTerm de.distName).head? ≠ none →
        io.loadHnsw P ty defScale dist fs = (io, .error .err)) ∧
      (dist.name ≠ de.distName → io.loadHnswWithDist P ty defScale dist fs = .error .err) := by
  refine ⟨fun h => ?_, fun g d de g' s' hg hd hde hs hn => ⟨fun h1 h2 h3 => ?_, fun h1 => ?_⟩⟩
  · have : io.init fs = .error .err := by
      unfold HnswIo.init
      rcases h with h | h
      · rw [h]
      · rw [h]
        cases fs (graphName io.base) <;> rfl
    constructor
    · unfold HnswIo.loadHnsw; rw [this]
    · unfold HnswIo.loadHnswWithDist; rw [this]
  · obtain ⟨u, s'⟩ := s'
    have hi : io.init fs = .ok (de, (g', d)) := by unfold HnswIo.init; rw [hg, hd]; simp only [hde]
    unfold HnswIo.loadHnsw
    rw [hi]
    simp only [hs]
    cases ha : (rsplitTerm dist.name).head? with
    | none => exact absurd ha h2
    | some a =>
      cases hb : (rsplitTerm de.distName).head? with
      | none => exact absurd hb h3
      | some b =>
        have : checkDist ty dist.name de = .error .err := by
          unfold checkDist
          rw [if_neg (by simp [hn]), ha, hb]
          exact if_neg (h1 a b ha hb)
        simp only [this]
  · obtain ⟨u, s'⟩ := s'
    have hi : io.init fs = .ok (de, (g', d)) := by unfold HnswIo.init; rw [hg, hd]; simp only [hde]
    unfold HnswIo.loadHnswWithDist
    rw [hi]
    simp only [hs, hn, Bool.not_false, Bool.true_and]
    rw [if_pos (by simpa using h1)]

/-- **C103 is false**: if the header of the graph file cannot be read, whatever the reason, `load_hnsw` and
`load_hnsw_with_dist` panic. -/
theorem C103_header_refuted (io : HnswIo) (fs : Dir) {g d : Bytes} (hg : fs (graphName io.base) = some g)
    (hd : fs (dataName io.base) = some d) {e : Fail} (h : loadDescr g = .error e) :
    io.loadHnsw P ty defScale dist fs = (io, .error .panic) ∧
      io.loadHnswWithDist P ty defScale dist fs = .error .panic := by
  have : io.init fs = .error .panic := by
    unfold HnswIo.init
    rw [hg, hd]
    simp only [h]
    rcases fails_loadDescr (F := fun e => e = .err ∨ e = .panic) (Or.inl rfl) (Or.inr rfl) g e h with rfl | rfl <;>
      rfl
  constructor
  · unfold HnswIo.loadHnsw; rw [this]
  · unfold HnswIo.loadHnswWithDist; rw [this]

theorem dataHeader_short {de : Descr} {g d d' : Bytes} {r : Two} (h : loadDataHeader de (g, d) = .ok ((), r))
    (hp : d' <+: d) : (d'.length < 12 → loadDataHeader de (g, d') = .error .err) ∧
    (12 ≤ d'.length → ∃ r', loadDataHeader de (g, d') = .ok ((), r') ∧ OnBoth Eq CutOf r r') := by
  have hcut : Cut (OnBoth Eq CutOf) (fun e => e = .err) (loadDataHeader de) := by
    unfold loadDataHeader
    refine (Cut.readNat (F := fun e => e = .err) rfl _).onD.bind fun _ => ?_
    refine (Cut.require _ _).bind fun _ => ?_
    exact (Cut.readNat (F := fun e => e = .err) rfl _).onD.bind fun _ => Cut.require _ _
  have len : ∀ (x : Bytes) y, loadDataHeader de (g, x) = .ok y → 12 ≤ x.length := by
    intro x y hx
    have := congrArg List.length (loadDataHeader_ok hx).1
    simp at this
    omega
  refine ⟨fun hl => ?_, fun hl => ?_⟩ <;>
    rcases hcut (g, d) (g, d') () r ⟨rfl, hp⟩ h with ⟨e, rfl, h1⟩ | ⟨r', h1, hR⟩
  · exact h1
  · exact absurd (len _ _ h1) (by omega)
  · exfalso
    obtain ⟨h2, h3⟩ := loadDataHeader_ok h
    simp only at h2
    obtain ⟨t, rfl⟩ := hp
    have : d' = leBytes 4 magicDataP ++ (leBytes 8 de.dim.toNat ++ d'.drop 12) := by
      have e1 := congrArg (List.take 12) h2
      rw [List.take_append_of_le_length hl, List.take_append_of_le_length (by simp [leBytes_length]),
        List.take_of_length_le (l := _ ++ _) (by simp [leBytes_length])] at e1
      rw [← List.append_assoc, ← e1, List.take_append_drop]
    have hP := parses_header (ds := de) rfl de.dim.toNat_lt g (d'.drop 12)
    rw [List.append_assoc, ← this, List.nil_append, h1] at hP
    cases hP
  · exact ⟨r', h1, hR⟩

theorem loadHnsw_eq {io : HnswIo} (hm : io.opts.datamap = false) {fs : Dir} {g d g' : Bytes} {de : Descr}
    (hg : fs (graphName io.base) = some g) (hd : fs (dataName io.base) = some d)
    (hde : loadDescr g = .ok (de, g')) : (io.loadHnsw P ty defScale dist fs).2 =
      match loadDataHeader de (g', d) with
      | .error e => .error e
      | .ok (_, s) =>
        match checkDist ty dist.name de with
        | .error e => .error e
        | .ok _ =>
          match loadIndexation P ty de io.datamap io.opts s with
          | .error e => .error e
          | .ok ((idx, m), _) => .ok ⟨mkHnsw defScale dist de idx true, m⟩ := by
  have hi : io.init fs = .ok (de, (g', d)) := by unfold HnswIo.init; rw [hg, hd]; simp only [hde]
  have hma : io.mapData ty fs = .ok io := by unfold HnswIo.mapData; rw [if_neg (by simp [hm])]
  unfold HnswIo.loadHnsw
  rw [hi]
  simp only [hma]
  cases loadDataHeader de (g', d) with
  | error e => rfl
  | ok y =>
    simp only
    cases checkDist ty dist.name de with
    | error e => rfl
    | ok _ =>
      simp only
      cases loadIndexation P ty de io.datamap io.opts y.2 <;> rfl

theorem load_parts {io : HnswIo} (hm : io.opts.datamap = false) {fs : Dir} {g d : Bytes} {x : Loaded T}
    (hg : fs (graphName io.base) = some g) (hd : fs (dataName io.base) = some d)
    (hx : (io.loadHnsw P ty defScale dist fs).2 = .ok x) : ∃ de g' s u idx m r, loadDescr g = .ok (de, g') ∧
      loadDataHeader de (g', d) = .ok ((), s) ∧ checkDist ty dist.name de = .ok u ∧
      loadIndexation P ty de io.datamap io.opts s = .ok ((idx, m), r) ∧
      x = ⟨mkHnsw defScale dist de idx true, m⟩ := by
  cases hde : loadDescr g with
  | error e =>
    have hi : ∃ e, io.init fs = .error e := by
      unfold HnswIo.init; rw [hg, hd]; simp only [hde]
      cases e <;> exact ⟨_, rfl⟩
    obtain ⟨e', hi⟩ := hi
    unfold HnswIo.loadHnsw at hx
    rw [hi] at hx
    cases hx
  | ok y =>
    obtain ⟨de, g'⟩ := y
    rw [loadHnsw_eq hm hg hd hde] at hx
    refine ⟨de, g', ?_⟩
    cases hh : loadDataHeader de (g', d) with
    | error e => rw [hh] at hx; cases hx
    | ok s =>
      obtain ⟨u, s⟩ := s
      rw [hh] at hx
      simp only at hx
      cases hc : checkDist ty dist.name de with
      | error e => rw [hc] at hx; cases hx
      | ok v =>
        rw [hc] at hx
        simp only at hx
        cases hl : loadIndexation P ty de io.datamap io.opts s with
        | error e => rw [hl] at hx; cases hx
        | ok z =>
          obtain ⟨⟨idx, m⟩, r⟩ := z
          rw [hl] at hx
          exact ⟨s, v, idx, m, r, rfl, rfl, rfl, hl, (Except.ok.inj hx).symm⟩

/-- **C103 is false** (data file) Whatever the files, if `load_hnsw` without a map returns an index, and the
data file is cut: in its header `Err` is returned; after it, either the index does not change or the
process exits. -/
theorem C103_cut_data {io : HnswIo} (hm : io.opts.datamap = false) {fs fs' : Dir} {g d d' : Bytes}
    {x : Loaded T} (hg : fs (graphName io.base) = some g) (hd : fs (dataName io.base) = some d)
    (hx : (io.loadHnsw P ty defScale dist fs).2 = .ok x)
    (hg' : fs' (graphName io.base) = some g) (hd' : fs' (dataName io.base) = some d') (hp : d' <+: d) :
    (d'.length < 12 → (io.loadHnsw P ty defScale dist fs').2 = .error .err) ∧
    (12 ≤ d'.length → (io.loadHnsw P ty defScale dist fs').2 = .error .exit ∨
      (io.loadHnsw P ty defScale dist fs').2 = .ok x) := by
  obtain ⟨de, g', s, u, idx, m, r, h1, h2, h3, h4, rfl⟩ := load_parts hm hg hd hx
  rw [loadHnsw_eq hm hg' hd' h1]
  obtain ⟨h5, h6⟩ := dataHeader_short h2 hp
  refine ⟨fun hl => ?_, fun hl => ?_⟩
  · rw [h5 hl]
  · obtain ⟨r', h7, hR⟩ := h6 hl
    rw [h7]
    simp only [h3]
    have hcut := cut_loadIndexation (F := fun e => e = .exit) (A := Eq) (B := CutOf)
      (fun n => ⟨.eq _, .eq _⟩) (fun n => ⟨Cut.readNat (F := fun e => e = .exit) rfl n, Cut.readExact (F := fun e => e = .exit) rfl n⟩) P ty de io.datamap hm
    rcases hcut s r' (idx, m) r hR h4 with ⟨e, rfl, h8⟩ | ⟨r2, h8, -⟩
    · exact Or.inl (by rw [h8])
    · exact Or.inr (by rw [h8])

/-- **C103 is false** (graph file) Whatever the files, if `load_hnsw` without a map returns an index, and
the graph file is cut: in its header there is a panic; after it, the index does not change, or `Err` is
returned, or there is a panic; the process does not exit and nothing is read out of bounds. -/
theorem C103_cut_graph {io : HnswIo} (hm : io.opts.datamap = false) {fs fs' : Dir} {g d g1 : Bytes}
    {x : Loaded T} (hg : fs (graphName io.base) = some g) (hd : fs (dataName io.base) = some d)
    (hx : (io.loadHnsw P ty defScale dist fs).2 = .ok x)
    (hg' : fs' (graphName io.base) = some g1) (hd' : fs' (dataName io.base) = some d) (hp : g1 <+: g) :
    ∃ n, n ≤ g.length ∧ (g1.length < n → (io.loadHnsw P ty defScale dist fs').2 = .error .panic) ∧
      (n ≤ g1.length → (io.loadHnsw P ty defScale dist fs').2 = .error .err ∨
        (io.loadHnsw P ty defScale dist fs').2 = .error .panic ∨
        (io.loadHnsw P ty defScale dist fs').2 = .ok x) := by
  obtain ⟨de, g', s, u, idx, m, r, h1, h2, h3, h4, rfl⟩ := load_parts hm hg hd hx
  obtain ⟨t, rfl⟩ := hp
  refine ⟨(g1 ++ t).length - g'.length, Nat.sub_le _ _, fun hl => ?_, fun _ => ?_⟩
  · cases h5 : loadDescr g1 with
    | error e => rw [(C103_header_refuted io fs' hg' hd' h5).1]
    | ok y =>
      obtain ⟨de', r1⟩ := y
      have := ext_loadDescr.ok h5 t
      rw [h1] at this
      injection this with this
      injection this with _ this
      have h6 := congrArg List.length this
      simp only [List.length_append] at h6 hl
      omega
  · cases h5 : loadDescr g1 with
    | error e => exact Or.inr (Or.inl (by rw [(C103_header_refuted io fs' hg' hd' h5).1]))
    | ok y =>
      obtain ⟨de', r1⟩ := y
      have := ext_loadDescr.ok h5 t
      rw [h1] at this
      injection this with this
      injection this with hd1 hg1
      subst hd1 hg1
      rw [loadHnsw_eq hm hg' hd' h5]
      have hcut : Cut (OnBoth CutOf Eq) (fun e => e = .err ∨ e = .panic) (loadDataHeader de) := by
        unfold loadDataHeader
        refine (Cut.eq _).onD.bind fun _ => ?_
        refine (Cut.require _ _).bind fun _ => ?_
        exact (Cut.eq _).onD.bind fun _ => Cut.require _ _
      rcases hcut (r1 ++ t, d) (r1, d) () s ⟨⟨t, rfl⟩, rfl⟩ h2 with ⟨e, rfl | rfl, h8⟩ | ⟨s', h8, hR⟩
      · exact Or.inl (by rw [h8])
      · exact Or.inr (Or.inl (by rw [h8]))
      · rw [h8]
        simp only [h3]
        have hcut := cut_loadIndexation (F := fun e => e = .err ∨ e = .panic) (A := CutOf) (B := Eq)
          (fun n => ⟨Cut.readNat (Or.inl rfl) n, Cut.readNat (Or.inr rfl) n⟩) (fun n => ⟨.eq _, .eq _⟩)
          P ty de io.datamap hm
        rcases hcut s s' (idx, m) r hR h4 with ⟨e, rfl | rfl, h8⟩ | ⟨r2, h8, -⟩
        · exact Or.inl (by rw [h8])
        · exact Or.inr (Or.inl (by rw [h8]))
        · exact Or.inr (Or.inr (by rw [h8]))

/-- **C103 is false** (dumps) If the data file of a dump that can be reloaded without a map is cut after its
header, wherever it is, `load_hnsw` exits the process. -/
theorem C103_dump_refuted {ml : Nat} {h : Hnsw T} {c : CSt T} {fs fs1 fs2 : Dir} {base name : String}
    {draws : List Nat} (L : P.Lawful) (hT : ty.Lawful) (hn : ty.noData = false)
    (hr : HReach P ty defScale ml h c) (hs : Sizes ty h)
    (hfd : fileDump ty h fs base draws = some (fs1, .ok name)) {io : HnswIo} (hio : io.base = name)
    (hm : io.opts.datamap = false) {x : Loaded T} (hx : (io.loadHnsw P ty defScale dist fs1).2 = .ok x)
    {g d d' : Bytes} (hg : fs1 (graphName name) = some g) (hd : fs1 (dataName name) = some d)
    (hg' : fs2 (graphName name) = some g) (hd' : fs2 (dataName name) = some d') (hp : d' <+: d)
    (hne : d' ≠ d) (h12 : 12 ≤ d'.length) : (io.loadHnsw P ty defScale dist fs2).2 = .error .exit := by
  subst hio
  rcases (C103_cut_data hm hg hd hx hg' hd' hp).2 h12 with h1 | h1
  · exact h1
  · exact absurd h1 (C41_truncated L hT hn hr hs hfd hg hd List.prefix_rfl hp (Or.inr hne) hg' hd' ty defScale
      dist io rfl x)

/-- **C103** (C interface) `load_hnswdump_*` returns the null pointer exactly when `load_hnsw` returns `Err`;
the other failures (a panic, which aborts the process, or an exit) are not seen by the caller. -/
theorem C103_c (io : HnswIo) (fs : Dir) :
    ((cLoad P ty defScale dist io fs).2 = .ok none ↔ (io.loadHnsw P ty defScale dist fs).2 = .error .err) ∧
    (∀ h, (cLoad P ty defScale dist io fs).2 = .ok (some h) ↔
      ∃ x, (io.loadHnsw P ty defScale dist fs).2 = .ok x ∧ x.hnsw = h) ∧
    (∀ e, (cLoad P ty defScale dist io fs).2 = .error e ↔
      (io.loadHnsw P ty defScale dist fs).2 = .error e ∧ e ≠ .err) ∧
    (cLoad P ty defScale dist io fs).1 = (io.loadHnsw P ty defScale dist fs).1 := by
  unfold cLoad
  generalize io.loadHnsw P ty defScale dist fs = y
  obtain ⟨io', r⟩ := y
  cases r with
  | ok x => simp
  | error e => cases e <;> simp

/-- the dump of `io4` with both files cut -/
def cutDir (n k : Nat) : Dir := fun f =>
  match fileDump u8Ty io4 (fun _ => none) "a" [] with
  | some (fs, _) =>
    if f = graphName "a" then (fs f).map (·.take n) else if f = dataName "a" then (fs f).map (·.take k) else none
  | none => none

/-- how the reload of these files fails -/
def cutFail (n k : Nat) : Option Fail :=
  match ((HnswIo.new "a" .default).loadHnsw (listPolicy UInt8) u8Ty exScale u8Dist (cutDir n k)).2 with
  | .error e => some e
  | .ok _ => none

/-- Complete files, and cuts of one of them: in the header of the graph, in a point, in the id of the entry
point; in the header of the data, in the last vector. -/
example : [(1165, 100), (50, 100), (600, 100), (1164, 100), (1165, 11), (1165, 12), (1165, 99)].map
    (fun x => cutFail x.1 x.2) =
    [none, some .panic, some .panic, some .err, some .err, some .exit, some .exit] := by decide +kernel

end Verif
