import Verif.Props.AnyBytes

set_option autoImplicit false

/-!
# C99: vectors of mapped points, whatever the files
-/

namespace Verif
variable {T : Type} {P : Policy T} {ty : Ty T} {defScale : Nat → F64} {dist : Dist T} {io io' : HnswIo}
  {fs : Dir} {x : Loaded T}

/-- which map `load_hnsw` uses -/
theorem load_ok_map (hx : io.loadHnsw P ty defScale dist fs = (io', .ok x)) :
    io'.datamap = io.datamap ∨ ∃ m, io'.datamap = some m ∧ DataMap.fromDump ty fs io.base = .ok m := by
  unfold HnswIo.loadHnsw at hx
  split at hx
  · cases hx
  · split at hx
    · cases hx
    · split at hx
      · cases hx
      · split at hx
        · cases hx
        · rename_i io1 hm
          split at hx
          · cases hx
          · rw [Prod.mk.injEq] at hx
            obtain ⟨rfl, -⟩ := hx
            unfold HnswIo.mapData at hm
            split at hm
            · split at hm
              · rename_i m hf
                injection hm with hm
                subst hm
                exact Or.inr ⟨m, rfl, hf⟩
              · injection hm with hm
                subst hm
                exact Or.inl rfl
              · cases hm
            · injection hm with hm
              subst hm
              exact Or.inl rfl

/-- **C99** Whatever the files: in an index returned by `load_hnsw`, each mapped point has the vector that
a map gives for its id, be it the map of these files or, if none could be made, the one left in the
`HnswIo` by an earlier call. -/
theorem C99_from_map (L : P.Lawful) (hx : io.loadHnsw P ty defScale dist fs = (io', .ok x)) {i : Nat}
    {p : Ref T} (hp : x.hnsw.idx.points[i]? = some p) (hm : x.mapped[i]? = some true) :
    ∃ m, m.getData ty p.origin = .ok (some p.data) ∧
      (DataMap.fromDump ty fs io.base = .ok m ∨ io.datamap = some m) := by
  obtain ⟨g, b, d, g', s1, idx, mm, s2, hg, hb, hd, hh, hl, rfl⟩ := load_ok_parts hx
  obtain ⟨-, -, -, -, -, -, -, ps, vs, hps, rfl, hD, hs⟩ := loadIndexation_ok L hl
  have hp' : idx.points[i]? = some p := hp
  rw [← hps, List.getElem?_map] at hp'
  simp only [List.getElem?_map] at hm
  cases hi : ps[i]? with
  | none => simp [hi] at hp'
  | some q =>
    rw [hi] at hp' hm
    simp only [Option.map_some, Option.some.injEq] at hp' hm
    obtain ⟨r, hr⟩ : ∃ r, vs[i]? = some r := by
      have h1 : vs.length = ps.length := by simpa using congrArg List.length hD.1
      have h2 := (List.getElem?_eq_some_iff.1 hi).1
      exact ⟨_, List.getElem?_eq_getElem (by omega)⟩
    have hV := hD.2 i q r hi hr
    unfold VecOf at hV
    rw [hm, hp'] at hV
    simp only [if_true] at hV
    unfold mappedVec at hV
    split at hV
    · cases hV
    · rename_i m hmm
      split at hV
      · cases hV
      · cases hV
      · rename_i v hv
        injection hV with hV
        subst hV
        refine ⟨m, hv, ?_⟩
        rcases load_ok_map hx with h | ⟨m', h, hf⟩
        · exact Or.inr (by rw [← h, hmm])
        · rw [hmm] at h
          injection h with h
          subst h
          exact Or.inl hf

/-- **C99** (partial: a new `HnswIo`) The data file is a header followed by records, and each mapped point has the
vector of the last of these with its id. -/
theorem C99_last_record_partial (L : P.Lawful) (h0 : io.datamap = none)
    (hx : io.loadHnsw P ty defScale dist fs = (io', .ok x)) {i : Nat} {p : Ref T}
    (hp : x.hnsw.idx.points[i]? = some p) (hm : x.mapped[i]? = some true) {g g' : Bytes} {d : Descr}
    (hg : fs (graphName io.base) = some g) (hd : loadDescr g = .ok (d, g'))
    (hov : 20 + d.dim.toNat * ty.size < 2 ^ 64) :
    3 ≤ d.version ∧ ∃ r1 w r2 tail, fs (dataName io.base) =
        some ([0x00, 0x00, 0x7f, 0xa6] ++ le 8 d.dim.toNat ++
          (r1 ++ (p.origin, w) :: r2).flatMap dataRecord ++ tail) ∧
      tail.length < 20 + d.dim.toNat * ty.size ∧
      p.origin ∉ r2.map (·.1) ∧ Decodes ty d.dim.toNat w p.data := by
  obtain ⟨m, h1, h2⟩ := C99_from_map L hx hp hm
  have hf : DataMap.fromDump ty fs io.base = .ok m := by
    rcases h2 with h2 | h2
    · exact h2
    · rw [h0] at h2; cases h2
  have hdim : m.dim = d.dim.toNat := by
    obtain ⟨g3, d3, g3', b3, rs3, a1, a2, -, -, -, -, -, a3, -⟩ := fromDump_ok hf
    rw [hg] at a1
    injection a1 with a1
    subst a1
    rw [hd] at a2
    injection a2 with a2
    injection a2 with a2 _
    rw [a3, a2]
  obtain ⟨g2, b, d2, g2', rs, tail, e1, e2, e3, e4, -, -, -, e5, e6, e7, -, -, -, -, e8⟩ :=
    C76_map_any fs io.base m hf (by rw [hdim]; exact hov)
  rw [hg] at e1
  injection e1 with e1
  subst e1
  rw [hd] at e3
  injection e3 with e3
  injection e3 with e3 _
  subst e3
  by_cases hmem : p.origin ∈ rs.map (·.1)
  · obtain ⟨r1, w, r2, v, rfl, hn, hv, hdec⟩ := (e8 p.origin).2 hmem
    rw [h1] at hv
    injection hv with hv
    injection hv with hv
    subst hv
    rw [e5] at hdec e6 e7
    exact ⟨e4, r1, w, r2, tail, by rw [e2, e6], e7, hn, hdec⟩
  · have := (e8 p.origin).1 hmem
    rw [h1] at this
    cases this

/-- the points of `io4`, with the vectors changed by `f` -/
def mapLayers (f : UInt8 → UInt8) : List (List (Ref UInt8)) :=
  io4.idx.layers.map fun l => l.map fun p => ⟨p.pid, p.origin, p.data.map f⟩

/-- files as those of `io4`, with these vectors -/
def mapFs (f : UInt8 → UInt8) : Dir := fun n =>
  match fileDump u8Ty { io4 with idx := { io4.idx with layers := mapLayers f } } (fun _ => none) "a" [] with
  | some (fs, _) => fs n
  | none => none

/-- the same, with a graph file of format 2 (no level scale) -/
def mapFs2 (f : UInt8 → UInt8) : Dir := fun n =>
  if n = "a.hnsw.graph" then
    (mapFs f n).map fun g => [0x7f, 0x67, 0x2a, 0x00] ++ (g.drop 4).take 2 ++ g.drop 14
  else mapFs f n

/-- the vectors of two loads by one `HnswIo` -/
def twoLoads (fs1 fs2 : Dir) : Option (List (List UInt8) × List (List UInt8)) :=
  match (HnswIo.new "a" ⟨true, 0⟩).loadHnsw (listPolicy UInt8) u8Ty exScale u8Dist fs1 with
  | (io, .ok x) =>
    match (io.loadHnsw (listPolicy UInt8) u8Ty exScale u8Dist fs2).2 with
    | .ok y => some (x.hnsw.idx.points.map (·.data), y.hnsw.idx.points.map (·.data))
    | .error _ => none
  | _ => none

/-- a dump loaded with a map: all points are mapped -/
example : ((HnswIo.new "a" ⟨true, 0⟩).loadHnsw (listPolicy UInt8) u8Ty exScale u8Dist (mapFs id)).2.toOption.map
    (fun x => (x.mapped, x.hnsw.idx.points.map (·.data))) =
    some ([true, true, true, true], io4.idx.points.map (·.data)) := by decide +kernel

/-- New files of format 4 are mapped again. -/
example : (twoLoads (mapFs id) (mapFs (· + 1))).map (·.2) =
    some (io4.idx.points.map fun p => p.data.map (· + 1)) := by decide +kernel

/-- **C99 is false** for an `HnswIo` used twice: if the files have been replaced by files of format 2, which
cannot be mapped, the second load returns an index with the vectors of the old files. -/
theorem C99_stale_refuted :
    twoLoads (mapFs id) (mapFs2 (· + 1)) =
      some (io4.idx.points.map (·.data), io4.idx.points.map (·.data)) ∧
    (io4.idx.points.map (·.data)) ≠ (io4.idx.points.map fun p => p.data.map (· + 1)) ∧
    ((HnswIo.new "a" ⟨true, 0⟩).loadHnsw (listPolicy UInt8) u8Ty exScale u8Dist (mapFs2 (· + 1))).2.toOption.map
      (fun _ => ()) = none := by
  refine ⟨?_, ?_, ?_⟩ <;> decide +kernel

end Verif
