import Verif.HeaderLemmas
import Verif.IoExamples

set_option autoImplicit false

/-!
# Files overwritten by a dump, initialisation of a reloader (C48, C49, C61, C63)
-/

namespace Verif
variable {T T' : Type} {P : Policy T} {ty : Ty T} {defScale : Nat → F64}

theorem uniqueName_spec {fs : Dir} {base name : String} {draws : List Nat}
    (h : uniqueName fs base draws = some name) :
    fs (dataName name) = none ∧ ∃ i ∈ draws, name = base ++ "-" ++ toString i := by
  induction draws with
  | nil => cases h
  | cons i is ih =>
    unfold uniqueName at h
    split at h
    · rename_i hn
      injection h with h
      rw [← h]
      exact ⟨hn, i, by simp, rfl⟩
    · obtain ⟨h1, j, hj, h2⟩ := ih h
      exact ⟨h1, j, by simp [hj], h2⟩

theorem write_get (fs : Dir) (n : String) (b : Bytes) : fs.write n b n = some b := by
  simp [Dir.write]

theorem write_ne (fs : Dir) {n m : String} (b : Bytes) (h : m ≠ n) : fs.write n b m = fs m := by
  simp [Dir.write, h]

/-- **C48** Let `h'` be an index returned by `load_hnsw` and then modified in any way (insertions,
settings). `file_dump` of it, even if it fails, leaves every data file that existed as it was; the name
it returns is the given one or the given one followed by a dash and a number, there was no data file of
this name before, and both files of this name then hold the dump. -/
theorem C48_no_overwrite {io io' : HnswIo} {fs0 : Dir} {dist : Dist T} {x : Loaded T}
    (hx : io.loadHnsw P ty defScale dist fs0 = (io', .ok x)) (s : Idx T) (cfg : Cfg T) (gen : LayerGen)
    {fs fs' : Dir} {base : String} {draws : List Nat} {r : Except Fail String}
    (hd : fileDump ty { x.hnsw with idx := s, cfg := cfg, gen := gen } fs base draws = some (fs', r)) :
    (∀ b v, fs (b ++ ".hnsw.data") = some v → fs' (b ++ ".hnsw.data") = some v) ∧
    ∀ name, r = .ok name →
      (name = base ∨ ∃ i ∈ draws, name = base ++ "-" ++ toString i) ∧
      fs (name ++ ".hnsw.data") = none ∧
      fs' (name ++ ".hnsw.graph") =
        some ({ x.hnsw with idx := s, cfg := cfg, gen := gen }.dump ty true).g ∧
      fs' (name ++ ".hnsw.data") =
        some ({ x.hnsw with idx := s, cfg := cfg, gen := gen }.dump ty true).d := by
  obtain ⟨d, s', idx, m, b, -, -, -, h3, hb⟩ := load_ok_split hx
  have hm : x.hnsw.mapped = true := by rw [h3, hb]; rfl
  generalize hh : ({ x.hnsw with idx := s, cfg := cfg, gen := gen } : Hnsw T) = h' at hd ⊢
  have hm' : h'.mapped = true := by rw [← hh]; exact hm
  unfold fileDump at hd
  rw [Option.map_eq_some_iff] at hd
  obtain ⟨n, hn, hx⟩ := hd
  simp only [Prod.mk.injEq] at hx
  obtain ⟨h1, h2⟩ := hx
  have hnew : fs (dataName n) = none ∧ (n = base ∨ ∃ i ∈ draws, n = base ++ "-" ++ toString i) := by
    unfold dumpName at hn
    rw [hm'] at hn
    simp only [Bool.not_true, Bool.false_eq_true, if_false] at hn
    split at hn
    · rename_i h0
      injection hn with hn
      subst hn
      exact ⟨h0, .inl rfl⟩
    · obtain ⟨h5, h6⟩ := uniqueName_spec hn
      exact ⟨h5, .inr h6⟩
  constructor
  · intro b v hv
    change fs (dataName b) = some v at hv
    show fs' (dataName b) = some v
    rw [← h1, write_ne, write_ne, hv]
    · exact fun h => graphName_ne_dataName n b h.symm
    · intro h
      rw [h, hnew.1] at hv
      cases hv
  · intro name hr
    rw [hr] at h2
    have hnn : n = name := by
      split at h2
      · injection h2
      · cases h2
    subst hnn
    refine ⟨hnew.2, hnew.1, ?_, ?_⟩
    · show fs' (graphName n) = _
      rw [← h1, write_ne _ _ (graphName_ne_dataName n n), write_get]
    · show fs' (dataName n) = _
      rw [← h1, write_get]

/-- a reload of `io4` dumped again under the same name, the first two random numbers being 7: it goes
to another name if this one is taken -/
def redump (fs : Dir) (draws : List Nat) : Option (Dir × Option String) :=
  match fileDump u8Ty io4 fs "a" [] with
  | some (fs', .ok _) =>
    match ((HnswIo.new "a" .default).loadHnsw (listPolicy UInt8) u8Ty exScale u8Dist fs').2 with
    | .ok x => (fileDump u8Ty x.hnsw fs' "a" draws).map fun r => (r.1, r.2.toOption)
    | .error _ => none
  | _ => none

example : (redump (fun _ => none) [7, 7]).map (fun r => (r.2, (r.1 "a.hnsw.data").isSome)) =
    some (some "a-7", true) ∧
    (redump (fun n => if n = "a-7.hnsw.data" then some [1] else none) [7, 3]).map
      (fun r => (r.2, r.1 "a-7.hnsw.data", (r.1 "a-3.hnsw.data").isSome)) =
    some (some "a-3", some [1], true) := by
  constructor <;> decide +kernel

/-- **C63 is false**: a graph file can be overwritten by the dump of a reloaded index: only the data
file is looked for. -/
theorem C63_refuted :
    (redump (fun n => if n = "a-7.hnsw.graph" then some [1] else none) [7]).map
      (fun r => (r.2, decide (r.1 "a-7.hnsw.graph" = some [1]))) = some (some "a-7", false) := by
  decide +kernel

/-- **C63** (partial) No graph file that has a data file beside it is overwritten, nor any other
file than a graph file. -/
theorem C63_partial {io io' : HnswIo} {fs0 : Dir} {dist : Dist T} {x : Loaded T}
    (hx : io.loadHnsw P ty defScale dist fs0 = (io', .ok x)) (s : Idx T) (cfg : Cfg T) (gen : LayerGen)
    {fs fs' : Dir} {base : String} {draws : List Nat} {r : Except Fail String}
    (hd : fileDump ty { x.hnsw with idx := s, cfg := cfg, gen := gen } fs base draws = some (fs', r)) :
    ∀ n v, fs n = some v → fs' n ≠ some v →
      ∃ b, n = b ++ ".hnsw.graph" ∧ fs (b ++ ".hnsw.data") = none := by
  obtain ⟨d, s', idx, m, b, -, -, -, h3, hb⟩ := load_ok_split hx
  have hm : x.hnsw.mapped = true := by rw [h3, hb]; rfl
  generalize hh : ({ x.hnsw with idx := s, cfg := cfg, gen := gen } : Hnsw T) = h' at hd
  have hm' : h'.mapped = true := by rw [← hh]; exact hm
  unfold fileDump at hd
  rw [Option.map_eq_some_iff] at hd
  obtain ⟨n, hn, hx⟩ := hd
  simp only [Prod.mk.injEq] at hx
  obtain ⟨h1, h2⟩ := hx
  have hnew : fs (dataName n) = none := by
    unfold dumpName at hn
    rw [hm'] at hn
    simp only [Bool.not_true, Bool.false_eq_true, if_false] at hn
    split at hn
    · rename_i h0
      injection hn with hn
      subst hn
      exact h0
    · exact (uniqueName_spec hn).1
  intro k v hk hk'
  rw [← h1] at hk'
  by_cases e1 : k = dataName n
  · rw [e1, hnew] at hk; cases hk
  · rw [write_ne _ _ e1] at hk'
    by_cases e2 : k = graphName n
    · exact ⟨n, e2, hnew⟩
    · rw [write_ne _ _ e2] at hk'
      exact absurd hk hk'

/-! ## C49 -/

/-- **C49 is false**: an empty index dumped over a complete dump fails, and leaves files that cannot be
reloaded. -/
theorem C49_refuted :
    (∃ c, HReach (listPolicy UInt8) u8Ty exScale 16 (ioH exScale 3 16 u8Dist []) c) ∧
    (match fileDump u8Ty io4 (fun _ => none) "a" [] with
     | some (fs1, .ok _) =>
       match fileDump u8Ty (ioH exScale 3 16 u8Dist []) fs1 "a" [] with
       | some (fs2, .error .err) =>
         let ok := fun fs : Dir => ((HnswIo.new "a" .default).loadHnsw (listPolicy UInt8) u8Ty exScale
            u8Dist fs).2.toOption.isSome
         some (decide (fs2 (graphName "a") = fs1 (graphName "a")),
           decide (fs2 (dataName "a") = fs1 (dataName "a")), ok fs1, ok fs2)
       | _ => none
     | _ => none) = some (false, false, true, false) :=
  ⟨ioH_reach u8Ty_lawful rfl _ (by decide) _ _ (by decide), by decide +kernel⟩

/-- **C49 is false** in all cases: the files of a dump that fails hold only what it wrote, whatever was
there before (for an index not obtained from `load_hnsw`, which dumps under the name it is given). -/
theorem C49_overwritten {h : Hnsw T} (hm : h.mapped = false) {fs fs' : Dir} {base : String}
    {draws : List Nat} {e : Fail} (hd : fileDump ty h fs base draws = some (fs', .error e)) :
    fs' (base ++ ".hnsw.graph") = some (h.dump ty true).g ∧
    fs' (base ++ ".hnsw.data") = some (h.dump ty true).d := by
  unfold fileDump at hd
  rw [Option.map_eq_some_iff] at hd
  obtain ⟨n, hn, hx⟩ := hd
  simp only [Prod.mk.injEq] at hx
  obtain ⟨h1, h2⟩ := hx
  unfold dumpName at hn
  rw [hm] at hn
  simp only [Bool.not_false, if_true] at hn
  injection hn with hn
  subst hn
  refine ⟨?_, ?_⟩
  · show fs' (graphName base) = _
    rw [← h1, write_ne _ _ (graphName_ne_dataName base base), write_get]
  · show fs' (dataName base) = _
    rw [← h1, write_get]

/-- **C49** (partial) Files stored under other names are unchanged, whether the dump fails or not, and
so are all data files if the index was obtained from `load_hnsw` (`C48_no_overwrite`). -/
theorem C49_other_names_partial {h : Hnsw T} (hm : h.mapped = false) {fs fs' : Dir} {base : String}
    {draws : List Nat} {r : Except Fail String} (hd : fileDump ty h fs base draws = some (fs', r))
    (n : String) (h1 : n ≠ base ++ ".hnsw.graph") (h2 : n ≠ base ++ ".hnsw.data") : fs' n = fs n := by
  unfold fileDump at hd
  rw [Option.map_eq_some_iff] at hd
  obtain ⟨m, hn, hx⟩ := hd
  simp only [Prod.mk.injEq] at hx
  unfold dumpName at hn
  rw [hm] at hn
  simp only [Bool.not_false, if_true] at hn
  injection hn with hn
  subst hn
  rw [← hx.1, write_ne (n := dataName base) _ _ h2, write_ne (n := graphName base) _ _ h1]

/-! ## C61 -/

/-- a call of a method of a `HnswIo` -/
inductive IoCall (T : Type) where
  | setValues (base : String) (o : ReloadOptions)
  | load (P : Policy T) (ty : Ty T) (defScale : Nat → F64) (dist : Dist T) (fs : Dir)

/-- calls one after the other: final state and results of the calls of `set_values` -/
def runCalls (io : HnswIo) : List (IoCall T) → HnswIo × List Bool
  | [] => (io, [])
  | .setValues b o :: cs =>
    let (io', r) := io.setValues b o
    let (io'', rs) := runCalls io' cs
    (io'', r.toOption.isSome :: rs)
  | .load P ty ds dist fs :: cs => runCalls (io.loadHnsw P ty ds dist fs).1 cs

/-- the arguments of the calls of `set_values` -/
def settings : List (IoCall T) → List (String × ReloadOptions)
  | [] => []
  | .setValues b o :: cs => (b, o) :: settings cs
  | .load .. :: cs => settings cs

theorem load_keeps (P : Policy T) (ty : Ty T) (ds : Nat → F64) (dist : Dist T) (fs : Dir) (io : HnswIo) :
    (io.loadHnsw P ty ds dist fs).1.base = io.base ∧ (io.loadHnsw P ty ds dist fs).1.opts = io.opts ∧
      (io.loadHnsw P ty ds dist fs).1.initialized = io.initialized := by
  unfold HnswIo.loadHnsw
  split
  · exact ⟨rfl, rfl, rfl⟩
  · split
    · exact ⟨rfl, rfl, rfl⟩
    · split
      · exact ⟨rfl, rfl, rfl⟩
      · split
        · exact ⟨rfl, rfl, rfl⟩
        · rename_i io' hm
          have : io'.base = io.base ∧ io'.opts = io.opts ∧ io'.initialized = io.initialized := by
            unfold HnswIo.mapData at hm
            split at hm
            · split at hm
              · injection hm with hm; subst hm; exact ⟨rfl, rfl, rfl⟩
              · injection hm with hm; subst hm; exact ⟨rfl, rfl, rfl⟩
              · cases hm
            · injection hm with hm; subst hm; exact ⟨rfl, rfl, rfl⟩
          split <;> exact this

theorem runCalls_init {io : HnswIo} (hi : io.initialized = true) (cs : List (IoCall T)) :
    (runCalls io cs).2 = List.replicate (settings cs).length false ∧
      (runCalls io cs).1.base = io.base ∧ (runCalls io cs).1.opts = io.opts := by
  induction cs generalizing io with
  | nil => exact ⟨rfl, rfl, rfl⟩
  | cons k cs ih =>
    cases k with
    | setValues b o =>
      have : io.setValues b o = (io, .error .err) := by unfold HnswIo.setValues; rw [if_pos hi]
      simp only [runCalls, this, settings]
      refine ⟨?_, (ih hi).2⟩
      rw [(ih hi).1]
      rfl
    | load P ty ds dist fs =>
      simp only [runCalls, settings]
      obtain ⟨h1, h2, h3⟩ := load_keeps P ty ds dist fs io
      obtain ⟨h4, h5, h6⟩ := ih (io := (io.loadHnsw P ty ds dist fs).1) (h3.trans hi)
      exact ⟨h4, h5.trans h1, h6.trans h2⟩

/-- **C61** In any sequence of calls on a default `HnswIo` the first `set_values` succeeds, all the others
fail, and what the first one has set stays. -/
theorem C61_once (cs : List (IoCall T)) :
    (runCalls HnswIo.default cs).2 = (List.range (settings cs).length).map (fun i => i == 0) ∧
    ∀ b o, (settings cs).head? = some (b, o) →
      (runCalls HnswIo.default cs).1.base = b ∧ (runCalls HnswIo.default cs).1.opts = o := by
  have key : ∀ (cs : List (IoCall T)) (io : HnswIo), io.initialized = false →
      (runCalls io cs).2 = (List.range (settings cs).length).map (fun i => i == 0) ∧
      ∀ b o, (settings cs).head? = some (b, o) →
        (runCalls io cs).1.base = b ∧ (runCalls io cs).1.opts = o := by
    intro cs
    induction cs with
    | nil => intro io _; exact ⟨rfl, fun b o h => by cases h⟩
    | cons k cs ih =>
      intro io hi
      cases k with
      | setValues b o =>
        have : io.setValues b o =
            ({ io with base := b, opts := o, datamap := none, initialized := true }, .ok ()) := by
          unfold HnswIo.setValues
          rw [if_neg (by rw [hi]; decide)]
        simp only [runCalls, this, settings]
        obtain ⟨h1, h2, h3⟩ := runCalls_init
          (io := { io with base := b, opts := o, datamap := none, initialized := true }) rfl cs
        refine ⟨?_, ?_⟩
        · rw [h1, List.length_cons, List.range_succ_eq_map, List.map_cons, List.map_map]
          congr 1
          refine (List.eq_replicate_iff.mpr ⟨by simp, ?_⟩).symm
          intro x hx
          obtain ⟨i, -, rfl⟩ := List.mem_map.1 hx
          rfl
        · intro b' o' h
          simp only [List.head?_cons, Option.some.injEq, Prod.mk.injEq] at h
          rw [h2, h3]
          exact h
      | load P ty ds dist fs =>
        simp only [runCalls, settings]
        exact ih _ ((load_keeps P ty ds dist fs io).2.2.trans hi)
  exact key cs _ rfl

/-- **C61** On a `HnswIo` made by `new` or `new_with_options` it never succeeds, and changes nothing. -/
theorem C61_never (base : String) (o : ReloadOptions) (cs : List (IoCall T)) :
    (∀ r ∈ (runCalls (HnswIo.new base o) cs).2, r = false) ∧
    (runCalls (HnswIo.new base o) cs).1.base = base ∧
    (runCalls (HnswIo.new base o) cs).1.opts = o := by
  obtain ⟨h1, h2, h3⟩ := runCalls_init (io := HnswIo.new base o) rfl cs
  refine ⟨?_, h2, h3⟩
  rw [h1]
  intro r hr
  exact List.eq_of_mem_replicate hr

example : (runCalls (T := UInt8) HnswIo.default [.setValues "a" ⟨true, 3⟩,
      .load (listPolicy UInt8) u8Ty exScale u8Dist (fun _ => none), .setValues "b" .default]).2 =
    [true, false] := by decide +kernel

end Verif
