import Verif.Paths
import Verif.Props.Reload
import Verif.Props.Layout

set_option autoImplicit false

/-!
# C109: the directory given to a dump and to a reload

`placeOf cwd dir name`: the file that `dir/name` denotes for a process whose working directory is `cwd`.
-/

namespace Verif
variable {T : Type} {P : Policy T} {ty : Ty T} {defScale : Nat → F64} {ml : Nat} {h : Hnsw T}
  {c : CSt T} {w w' : World} {cwd : List Comp} {dir : FPath} {base name : String} {draws : List Nat}

/-- files are in directories -/
def World.OK (w : World) : Prop := ∀ p b, w.file p = some b → w.isDir p.dropLast = true

/-- a directory other than `..`, `.` and the empty name -/
def Plain (c : Comp) : Prop := c ≠ [] ∧ c ≠ ['.'] ∧ c ≠ ['.', '.']

/-- what happens at the level of paths is what the model with one directory says -/
theorem fileDumpAt_dir {r : Except Fail String} (hd : fileDumpAt ty h w cwd dir base draws = some (w', r))
    (hr : r ≠ .error .panic) :
    ∃ name d', fileDump ty h (w.dirAt cwd dir) base draws = some (d', r) ∧ (∀ n, r = .ok n → n = name) ∧
      w'.isDir = w.isDir ∧
      w'.dirAt cwd dir (graphName name) = d' (graphName name) ∧
      w'.dirAt cwd dir (dataName name) = d' (dataName name) ∧
      ∀ p, p ≠ placeOf cwd dir (graphName name) → p ≠ placeOf cwd dir (dataName name) → w'.file p = w.file p := by
  unfold fileDumpAt at hd
  unfold fileDump
  cases hn : dumpName (w.dirAt cwd dir) base (!h.mapped) draws with
  | none => rw [hn] at hd; cases hd
  | some name =>
    rw [hn] at hd
    simp only [Option.map_some, Option.some.injEq] at hd ⊢
    by_cases h1 : w.isDir (placeOf cwd dir (graphName name)).dropLast = false
    · rw [if_pos h1] at hd
      cases hd
      exact absurd rfl hr
    rw [if_neg h1, ← place_parent, if_neg h1] at hd
    injection hd with hw hr'
    refine ⟨name, _, Prod.ext rfl hr', ?_, ?_, ?_, ?_, ?_⟩
    · intro n e
      rw [← hr'] at e
      split at e
      · injection e with e; exact e.symm
      · cases e
    · rw [← hw]; rfl
    · rw [← hw]
      unfold World.dirAt World.write Dir.write
      simp only [place_ne cwd dir name, graph_ne_data name, if_true, if_false]
    · rw [← hw]
      unfold World.dirAt World.write Dir.write
      simp only [if_true]
    · intro p h1 h2
      rw [← hw]
      unfold World.write
      simp only [h1, h2, if_false]

/-- **C109** `file_dump` writes two files, `name.hnsw.graph` and `name.hnsw.data` in the directory it is given, both in
the same one, and changes no other file, whatever its result; `name` is the one it returns. -/
theorem C109_written {r : Except Fail String} (hd : fileDumpAt ty h w cwd dir base draws = some (w', r)) :
    w'.isDir = w.isDir ∧ ∃ name, (∀ n, r = .ok n → n = name) ∧
      (placeOf cwd dir (graphName name)).dropLast = (placeOf cwd dir (dataName name)).dropLast ∧
      (∀ n, r = .ok n → w'.file (placeOf cwd dir (graphName name)) = some (h.dump ty true).g ∧
        w'.file (placeOf cwd dir (dataName name)) = some (h.dump ty true).d) ∧
      ∀ p, p ≠ placeOf cwd dir (graphName name) → p ≠ placeOf cwd dir (dataName name) → w'.file p = w.file p := by
  unfold fileDumpAt at hd
  cases hn : dumpName (w.dirAt cwd dir) base (!h.mapped) draws with
  | none => rw [hn] at hd; cases hd
  | some name =>
    rw [hn] at hd
    simp only [Option.map_some, Option.some.injEq] at hd
    by_cases h1 : w.isDir (placeOf cwd dir (graphName name)).dropLast = false
    · rw [if_pos h1] at hd
      cases hd
      exact ⟨rfl, name, fun n e => (by cases e), place_parent _ _ _, fun n e => (by cases e), fun _ _ _ => rfl⟩
    rw [if_neg h1, ← place_parent, if_neg h1] at hd
    injection hd with hw hr
    subst hw
    refine ⟨rfl, name, ?_, place_parent _ _ _, fun n _ => ⟨?_, ?_⟩, ?_⟩
    · intro n e
      rw [← hr] at e
      split at e
      · injection e with e; exact e.symm
      · cases e
    · simp only [World.write, place_ne cwd dir name, if_true, if_false]
    · simp only [World.write, if_true]
    · intro p h1 h2
      simp only [World.write, h1, h2, if_false]

/-- **C109** (partial: with a memory map, only for an absolute directory or the working directory itself; otherwise
vectors of one length, sizes that fit, as in C40) A reload from the same directory and working directory, under the
returned name, gives the dumped index. -/
theorem C109_reload_partial (L : P.Lawful) (hT : ty.Lawful) (hn : ty.noData = false)
    (hr : HReach P ty defScale ml h c) (hs : Sizes ty h) (hu : SameDim h.idx)
    (hfd : fileDumpAt ty h w cwd dir base draws = some (w', .ok name)) (o : ReloadOptions)
    (ho : o.datamap = true → DistinctIds h.idx)
    (hdir : o.datamap = true → dir.abs = true ∨ ∀ x ∈ dir.comps, x = [] ∨ x = ['.'])
    (dist : Dist T) (hdn : dist.name = h.distName) :
    ∃ io' x, (HnswIo.new name o).loadHnswAt P ty defScale dist w' cwd dir = (io', .ok x) ∧
      x.hnsw.idx.layers = h.idx.layers ∧ x.hnsw.idx.entry = h.idx.entry ∧
      x.hnsw.idx.nbPoint = h.idx.nbPoint ∧
      (∀ p l, x.hnsw.idx.nb p l = P.sort (h.idx.nb p l)) ∧ SameGraph h.idx x.hnsw.idx := by
  obtain ⟨name', d', h1, h2, -, h3, h4, -⟩ := fileDumpAt_dir hfd (by intro e; cases e)
  cases h2 name rfl
  rw [loadHnswAt_eq P ty defScale dist (io := HnswIo.new name o) (w := w') (cwd := cwd) (dir := dir) (d := d') h3 h4]
  · exact C40_reload_same_partial L hT hn hr hs hu h1 o ho dist hdn
  · intro hm
    rcases hdir hm with ha | hd
    · unfold FPath.push
      rw [if_pos ha]
    · have hw : ∀ (cs : List Comp) (a : List Comp), (∀ x ∈ cs, x = [] ∨ x = ['.']) → cs.foldl walk a = a := by
        intro cs
        induction cs with
        | nil => intro a _; rfl
        | cons x xs ih =>
          intro a hx
          rw [List.foldl_cons, show walk a x = a by unfold walk; rw [if_pos (hx x (List.mem_cons_self))]]
          exact ih a fun y hy => hx y (List.mem_cons_of_mem _ hy)
      unfold FPath.resolve FPath.push
      split
      · rfl
      · rw [List.foldl_append, hw _ _ hd, hw _ _ hd]

/-- **C109** (`load_hnsw_with_dist`, no map) From any directory, relative or not, `load_hnsw_with_dist` gives the index dumped
there. -/
theorem C109_with_dist (L : P.Lawful) (hT : ty.Lawful) (hn : ty.noData = false)
    (hr : HReach P ty defScale ml h c) (hs : Sizes ty h) (hu : SameDim h.idx)
    (hfd : fileDumpAt ty h w cwd dir base draws = some (w', .ok name)) (o : ReloadOptions)
    (ho : o.datamap = false) (dist : Dist T) (hdn : dist.name = h.distName) :
    ∃ x, (HnswIo.new name o).loadHnswWithDistAt P ty defScale dist w' cwd dir = .ok x ∧ x.hnsw.mapped = false ∧
      x.hnsw.idx.layers = h.idx.layers ∧ x.hnsw.idx.entry = h.idx.entry ∧
      x.hnsw.idx.nbPoint = h.idx.nbPoint ∧ ∀ p l, x.hnsw.idx.nb p l = P.sort (h.idx.nb p l) := by
  obtain ⟨name', d', h1, h2, -, h3, h4, -⟩ := fileDumpAt_dir hfd (by intro e; cases e)
  cases h2 name rfl
  obtain ⟨x, hx, h⟩ := C78_reload L hT hn hr hs hu h1 o ho dist hdn
  refine ⟨x, ?_, h⟩
  rw [← hx]
  unfold HnswIo.loadHnswWithDistAt HnswIo.loadHnswWithDist
  rw [init_congr (io := HnswIo.new name o) h3 h4]

theorem foldl_walk_plain : ∀ (cs : List Comp) (a : List Comp), (∀ x ∈ cs, Plain x) → cs.foldl walk a = a ++ cs := by
  intro cs
  induction cs with
  | nil => intro a _; simp
  | cons x xs ih =>
    intro a hx
    obtain ⟨p1, p2, p3⟩ := hx x List.mem_cons_self
    rw [List.foldl_cons, show walk a x = a ++ [x] by
      unfold walk; rw [if_neg (by simp [p1, p2]), if_neg p3]]
    rw [ih _ fun y hy => hx y (List.mem_cons_of_mem _ hy)]
    simp

/-- **C109**, what goes wrong: from any relative directory `a/b/..`, the map looks for the graph file in
`a/b/../a/b/..`. If there is no such file the process ends (`std::process::exit`), for all files that can be loaded without a map. -/
theorem C109_exit (hrel : dir.abs = false) {io : HnswIo} {x : Loaded T} (dist : Dist T)
    (hload : (({ io with opts := .default } : HnswIo).loadHnswAt P ty defScale dist w cwd dir).2 = .ok x)
    (hmap : io.opts.datamap = true)
    (hno : w.file (placeOf cwd ⟨false, dir.comps ++ dir.comps⟩ (graphName io.base)) = none) :
    (io.loadHnswAt P ty defScale dist w cwd dir).2 = .error .exit := by
  have hm : io.mapData ty (w.mapDirAt cwd dir io.base) = .error .exit := by
    unfold HnswIo.mapData
    rw [if_pos hmap]
    have : w.mapDirAt cwd dir io.base (graphName io.base) = none := by
      unfold World.mapDirAt World.dirAt
      rw [if_pos rfl, ← hno]
      unfold FPath.push
      rw [hrel, if_neg (by simp)]
    unfold DataMap.fromDump
    rw [this]
  unfold HnswIo.loadHnswAt at hload ⊢
  have hi : ({ io with opts := .default } : HnswIo).init (w.dirAt cwd dir) = io.init (w.dirAt cwd dir) := rfl
  rw [hi] at hload
  rcases hq : io.init (w.dirAt cwd dir) with e | ⟨dd, s⟩
  · rw [hq] at hload; cases hload
  rw [hq] at hload
  simp only [] at hload ⊢
  rcases hq2 : loadDataHeader dd s with e | ⟨_, s2⟩
  · rw [hq2] at hload; cases hload
  rw [hq2] at hload
  simp only [] at hload ⊢
  rcases hq3 : checkDist ty dist.name dd with e | _
  · rw [hq3] at hload; cases hload
  simp only [hm]

theorem splitSlash_none : ∀ (b : List Char), '/' ∉ b → splitSlash b = [b] := by
  intro b
  induction b with
  | nil => intro _; rfl
  | cons c cs ih =>
    intro h
    rw [List.mem_cons, not_or] at h
    rw [splitSlash, if_neg (Ne.symm h.1), ih h.2]

/-- a name without slash is in the directory -/
theorem place_plain (hb : '/' ∉ base.toList) (suf : String) (hs : '/' ∉ suf.toList) (h3 : 3 ≤ suf.toList.length) :
    placeOf cwd dir (base ++ suf) = dir.resolve cwd ++ [base.toList ++ suf.toList] := by
  have hn : '/' ∉ base.toList ++ suf.toList := by simp [hb, hs]
  have h4 : 3 ≤ (base.toList ++ suf.toList).length := by rw [List.length_append]; omega
  unfold placeOf FPath.ofString FPath.ofChars
  rw [String.toList_append, splitSlash_none _ hn]
  generalize base.toList ++ suf.toList = t at hn h4
  have ha : (t.head? == some '/') = false := by
    cases t with
    | nil => rfl
    | cons x xs => simp at hn ⊢; exact fun e => hn.1 e.symm
  have hw : ∀ a, walk a t = a ++ [t] := by
    intro a
    unfold walk
    rw [if_neg, if_neg]
    · intro e; rw [e] at h4; simp at h4
    · rintro (e | e) <;> (rw [e] at h4; simp at h4)
  rw [ha]
  unfold FPath.push FPath.resolve
  simp only [Bool.false_eq_true, if_false, List.foldl_append, List.foldl_cons, List.foldl_nil, hw]

/-- **C109** (the place, for a name without slash and a relative directory `a/b/..` without dots) The files are
`cwd/a/b/../name.hnsw.graph` and `cwd/a/b/../name.hnsw.data`. -/
theorem C109_place (hb : '/' ∉ name.toList) (hrel : dir.abs = false) (hp : ∀ x ∈ dir.comps, Plain x) :
    placeOf cwd dir (graphName name) = cwd ++ dir.comps ++ [name.toList ++ ".hnsw.graph".toList] ∧
    placeOf cwd dir (dataName name) = cwd ++ dir.comps ++ [name.toList ++ ".hnsw.data".toList] := by
  have : dir.resolve cwd = cwd ++ dir.comps := by
    unfold FPath.resolve
    rw [hrel]
    exact foldl_walk_plain _ _ hp
  unfold graphName dataName
  rw [place_plain hb _ (by decide) (by decide), place_plain hb _ (by decide) (by decide), this]
  exact ⟨rfl, rfl⟩

/-- **C109** (dots) `d/x/../e` is the directory `d/e`, and `d/./e` and `d//e` too: the files are at the same places. -/
theorem C109_parent {abs : Bool} {ds es : List Comp} {x : Comp} (hx : Plain x) {n : String} :
    placeOf cwd ⟨abs, ds ++ [x, ['.', '.']] ++ es⟩ n = placeOf cwd ⟨abs, ds ++ es⟩ n ∧
    placeOf cwd ⟨abs, ds ++ [['.']] ++ es⟩ n = placeOf cwd ⟨abs, ds ++ es⟩ n ∧
    placeOf cwd ⟨abs, ds ++ [[]] ++ es⟩ n = placeOf cwd ⟨abs, ds ++ es⟩ n := by
  have hw : ∀ a, walk (walk a x) ['.', '.'] = a := fun a => by
    have : walk a x = a ++ [x] := by simpa using foldl_walk_plain [x] a (by simpa using hx)
    rw [this]
    simp [walk]
  have h1 : ∀ a, walk a ['.'] = a := fun a => by simp [walk]
  have h2 : ∀ a, walk a [] = a := fun a => by simp [walk]
  unfold placeOf FPath.push
  split
  · exact ⟨rfl, rfl, rfl⟩
  · simp [FPath.resolve, List.foldl_append, hw, h1, h2]

example : Plain "data".toList ∧ placeOf ["home".toList] (.ofString "data/../x") "a" = ["home".toList, ['x'], ['a']] := by
  unfold Plain
  decide +kernel

/-- **C109**, `file_dump` in a directory that does not exist: a panic and not an `Err`; nothing is written. -/
theorem C109_no_dir (hw : w.OK) (hb : '/' ∉ base.toList) (hd : w.isDir (dir.resolve cwd) = false) :
    fileDumpAt ty h w cwd dir base draws = some (w, .error .panic) := by
  have hg : placeOf cwd dir (graphName base) = _ := place_plain hb ".hnsw.graph" (by decide) (by decide)
  have hdt : placeOf cwd dir (dataName base) = _ := place_plain hb ".hnsw.data" (by decide) (by decide)
  have hn : dumpName (w.dirAt cwd dir) base (!h.mapped) draws = some base := by
    unfold dumpName
    split
    · rfl
    · rw [if_pos]
      unfold World.dirAt
      cases hf : w.file (placeOf cwd dir (dataName base)) with
      | none => rfl
      | some b =>
        have := hw _ _ hf
        rw [hdt, List.dropLast_concat, hd] at this
        cases this
  unfold fileDumpAt
  rw [hn, Option.map_some]
  simp only []
  rw [if_pos]
  rw [hg, List.dropLast_concat]
  exact hd

/-- the file system of the examples: the directory `/home/data`, without files -/
def exWorld : World where
  file _ := none
  isDir p := p == [] || p == ["home".toList] || p == ["home".toList, "data".toList]

/-- the dump of an index of four points in `data` -/
def exDumped : World :=
  match fileDumpAt u8Ty io4 exWorld ["home".toList] (.ofString "data") "a" [] with
  | some (w, _) => w
  | none => exWorld

/-- **C109 is false** for a relative directory with a memory map: an index dumped in `data` can be reloaded from there, but not
with a map: the process ends. -/
theorem C109_refuted : (∃ c, HReach (listPolicy UInt8) u8Ty exScale 16 io4 c) ∧ exWorld.OK ∧
    fileDumpAt u8Ty io4 exWorld ["home".toList] (.ofString "data") "a" [] = some (exDumped, .ok "a") ∧
    (∃ io x, (HnswIo.new "a" .default).loadHnswAt (listPolicy UInt8) u8Ty exScale u8Dist exDumped ["home".toList]
      (.ofString "data") = (io, .ok x)) ∧
    ((HnswIo.new "a" ⟨true, 0⟩).loadHnswAt (listPolicy UInt8) u8Ty exScale u8Dist exDumped ["home".toList]
      (.ofString "data")).2 = .error .exit := by
  have hd : fileDumpAt u8Ty io4 exWorld ["home".toList] (.ofString "data") "a" [] = some (exDumped, .ok "a") := by
    rfl
  obtain ⟨c, hc⟩ := io4_reach
  have hdim : SameDim io4.idx := by
    unfold SameDim Stored; decide +kernel
  obtain ⟨io, x, h1, -⟩ := C109_reload_partial listPolicy_lawful u8Ty_lawful rfl hc io4_sizes hdim hd .default
    (by intro h; cases h) (by intro h; cases h) u8Dist rfl
  refine ⟨⟨c, hc⟩, ?_, hd, ⟨io, x, h1⟩, ?_⟩
  · intro p b h; cases h
  · exact C109_exit (io := HnswIo.new "a" ⟨true, 0⟩) rfl u8Dist (x := x)
      (by rw [show ({ HnswIo.new "a" ⟨true, 0⟩ with opts := .default } : HnswIo) = HnswIo.new "a" .default from rfl, h1])
      rfl (by rfl)

/-- absolute directories, the working directory, and one that is neither -/
example : (FPath.ofString "/home/data").abs = true ∧
    (∀ x ∈ (FPath.ofString ".").comps, x = [] ∨ x = ['.']) ∧
    (FPath.ofString "../data").abs = false ∧ (FPath.ofString "../data").comps = ["..".toList, "data".toList] := by
  decide

/-- a dump in an absolute directory, one in the working directory, one with a directory in its name, one whose name is absolute -/
example :
    (fileDumpAt u8Ty io4 exWorld ["home".toList] (.ofString "/home/data") "a" []).map (·.2.toOption) = some (some "a") ∧
    (fileDumpAt u8Ty io4 exWorld ["home".toList, "data".toList] (.ofString ".") "a" []).map (·.2.toOption) =
      some (some "a") ∧
    placeOf ["home".toList] (.ofString "data") (graphName "../b") = ["home".toList, "b.hnsw.graph".toList] ∧
    placeOf ["home".toList] (.ofString "data") (dataName "/tmp/b") = ["tmp".toList, "b.hnsw.data".toList] := by
  decide +kernel

/-- a directory that does not exist -/
example : exWorld.isDir ((FPath.ofString "none").resolve ["home".toList]) = false ∧ '/' ∉ "a".toList := by decide

/-- `load_hnsw_with_dist` from the relative directory -/
example : ∃ x, (HnswIo.new "a" .default).loadHnswWithDistAt (listPolicy UInt8) u8Ty exScale u8Dist exDumped ["home".toList]
    (.ofString "data") = .ok x ∧ x.hnsw.idx.points = io4.idx.points := by
  obtain ⟨c, hc⟩ := io4_reach
  have hd : fileDumpAt u8Ty io4 exWorld ["home".toList] (.ofString "data") "a" [] = some (exDumped, .ok "a") := by
    rfl
  obtain ⟨x, hx, -, h1, -⟩ := C109_with_dist listPolicy_lawful u8Ty_lawful rfl hc io4_sizes
    (by unfold SameDim Stored; decide +kernel) hd .default rfl u8Dist rfl
  exact ⟨x, hx, by unfold Idx.points; rw [h1]⟩

end Verif
