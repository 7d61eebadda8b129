import Verif.Load

set_option autoImplicit false

/-!
# Directories and paths

The other modules see a dump as two names in one directory (`Dir`). Here is how the functions of /repo/src/api.rs,
/repo/src/hnswio.rs and /repo/src/datamap.rs get from their `dir: &Path` argument to the files they open.
No symbolic links and no permissions; the working directory does not change; all the directories that a path goes through
exist, apart from the one that is to hold the files (`World.isDir`).
-/

namespace Verif
variable {T : Type}

/-- a component of a path -/
abbrev Comp := List Char

/-- the pieces between slashes -/
def splitSlash : List Char → List Comp
  | [] => [[]]
  | c :: cs =>
    if c = '/' then [] :: splitSlash cs
    else
      match splitSlash cs with
      | [] => [[c]]
      | p :: ps => (c :: p) :: ps

/-- `std::path::PathBuf` -/
structure FPath where
  abs : Bool
  comps : List Comp
deriving DecidableEq

/-- `Path::new` -/
def FPath.ofChars (s : List Char) : FPath := ⟨s.head? == some '/', splitSlash s⟩

/-- `Path::new` -/
def FPath.ofString (s : String) : FPath := .ofChars s.toList

/-- `PathBuf::push`: an absolute path replaces what was there. -/
def FPath.push (p q : FPath) : FPath := if q.abs then q else ⟨p.abs, p.comps ++ q.comps⟩

/-- one component followed by the operating system -/
def walk (at_ : List Comp) (c : Comp) : List Comp :=
  if c = [] ∨ c = ['.'] then at_
  else if c = ['.', '.'] then at_.dropLast
  else at_ ++ [c]

/-- the place of a path, as components from the root on -/
def FPath.resolve (cwd : List Comp) (p : FPath) : List Comp :=
  p.comps.foldl walk (if p.abs then [] else cwd)

/-- the file system -/
structure World where
  file : List Comp → Option Bytes
  isDir : List Comp → Bool

/-- create or truncate a file and give it a content -/
def World.write (w : World) (p : List Comp) (b : Bytes) : World :=
  { w with file := fun q => if q = p then some b else w.file q }

/-- place of the file `name` for a function called with `dir`:
`let mut path = PathBuf::from(dir); path.push(name)` (/repo/src/hnswio.rs 162-163, 194-195, 212-213, 373-374, 394-395,
/repo/src/datamap.rs 87-91). -/
def placeOf (cwd : List Comp) (dir : FPath) (name : String) : List Comp :=
  (dir.push (.ofString name)).resolve cwd

/-- what a function called with `dir` sees under each name -/
def World.dirAt (w : World) (cwd : List Comp) (dir : FPath) : Dir := fun n => w.file (placeOf cwd dir n)

/-- `file_dump` (/repo/src/api.rs 69-86) with `DumpInit::new` (/repo/src/hnswio.rs 152-233): a panic if a file
cannot be created. -/
def fileDumpAt (ty : Ty T) (h : Hnsw T) (w : World) (cwd : List Comp) (dir : FPath) (base : String)
    (draws : List Nat) : Option (World × Except Fail String) :=
  (dumpName (w.dirAt cwd dir) base (!h.mapped) draws).map fun name =>
    let gp := placeOf cwd dir (graphName name)
    let dp := placeOf cwd dir (dataName name)
    if w.isDir gp.dropLast = false then (w, .error .panic)
    else if w.isDir dp.dropLast = false then (w.write gp [], .error .panic)
    else
      let out := h.dump ty true
      ((w.write gp out.g).write dp out.d,
        match out.res with
        | .ok _ => .ok name
        | .error e => .error e)

/-- what `DataMap::from_hnswdump` sees (/repo/src/datamap.rs 49-54, 87-91): for the graph file the directory is
pushed twice, `PathBuf::from(dir)` then `push(dir)`. -/
def World.mapDirAt (w : World) (cwd : List Comp) (dir : FPath) (base : String) : Dir := fun n =>
  if n = graphName base then w.dirAt cwd (dir.push dir) n else w.dirAt cwd dir n

/-- `load_hnsw` (/repo/src/hnswio.rs 431-524) of an `HnswIo` whose directory is `dir`. -/
def HnswIo.loadHnswAt (P : Policy T) (ty : Ty T) (defScale : Nat → F64) (dist : Dist T) (io : HnswIo)
    (w : World) (cwd : List Comp) (dir : FPath) : HnswIo × Except Fail (Loaded T) :=
  match io.init (w.dirAt cwd dir) with
  | .error e => (io, .error e)
  | .ok (d, s) =>
    match loadDataHeader d s with
    | .error e => (io, .error e)
    | .ok (_, s) =>
      match checkDist ty dist.name d with
      | .error e => (io, .error e)
      | .ok _ =>
        match io.mapData ty (w.mapDirAt cwd dir io.base) with
        | .error e => (io, .error e)
        | .ok io' =>
          match loadIndexation P ty d io'.datamap io'.opts s with
          | .error e => (io', .error e)
          | .ok ((idx, m), _) => (io', .ok ⟨mkHnsw defScale dist d idx true, m⟩)

/-- `load_hnsw_with_dist` (/repo/src/hnswio.rs 531-613): no other file than those of `init` -/
def HnswIo.loadHnswWithDistAt (P : Policy T) (ty : Ty T) (defScale : Nat → F64) (dist : Dist T) (io : HnswIo)
    (w : World) (cwd : List Comp) (dir : FPath) : Except Fail (Loaded T) :=
  io.loadHnswWithDist P ty defScale dist (w.dirAt cwd dir)

/-! ## Lemmas -/

theorem splitSlash_suffix (b : List Char) : ∃ pre x, ∀ suf : List Char, '/' ∉ suf →
    splitSlash (b ++ suf) = pre ++ [x ++ suf] := by
  have hn : ∀ suf : List Char, '/' ∉ suf → splitSlash suf = [suf] := by
    intro suf
    induction suf with
    | nil => intro _; rfl
    | cons c cs ih =>
      intro h
      rw [List.mem_cons, not_or] at h
      rw [splitSlash, if_neg (Ne.symm h.1), ih h.2]
  induction b with
  | nil => exact ⟨[], [], fun suf h => by simpa using hn suf h⟩
  | cons c cs ih =>
    obtain ⟨pre, x, h⟩ := ih
    by_cases hc : c = '/'
    · refine ⟨[] :: pre, x, fun suf hs => ?_⟩
      rw [List.cons_append, splitSlash, if_pos hc, h suf hs]
      rfl
    · cases pre with
      | nil =>
        refine ⟨[], c :: x, fun suf hs => ?_⟩
        rw [List.cons_append, splitSlash, if_neg hc, h suf hs]
        rfl
      | cons y ys =>
        refine ⟨(c :: y) :: ys, x, fun suf hs => ?_⟩
        rw [List.cons_append, splitSlash, if_neg hc, h suf hs]
        rfl

/-- the two names of a dump lead to one directory -/
theorem place_split (cwd : List Comp) (dir : FPath) (base : String) : ∃ D x,
    placeOf cwd dir (graphName base) = D ++ [x ++ ".hnsw.graph".toList] ∧
    placeOf cwd dir (dataName base) = D ++ [x ++ ".hnsw.data".toList] := by
  obtain ⟨pre, x, h⟩ := splitSlash_suffix base.toList
  have habs : ∀ suf : List Char, suf.head? = some '.' →
      ((base.toList ++ suf).head? == some '/') = (base.toList.head? == some '/') := by
    intro suf hs
    cases base.toList with
    | nil => simp [hs]
    | cons c cs => rfl
  have key : ∀ suf : List Char, '/' ∉ suf → suf.head? = some '.' → 3 ≤ suf.length →
      (dir.push (.ofChars (base.toList ++ suf))).resolve cwd =
        (dir.push ⟨base.toList.head? == some '/', pre⟩).resolve cwd ++ [x ++ suf] := by
    intro suf h1 h2 h3
    have hw : ∀ a, walk a (x ++ suf) = a ++ [x ++ suf] := by
      intro a
      have hlen : 3 ≤ (x ++ suf).length := by rw [List.length_append]; omega
      unfold walk
      rw [if_neg, if_neg]
      · intro e; rw [e] at hlen; simp at hlen
      · rintro (e | e) <;> (rw [e] at hlen; simp at hlen)
    unfold FPath.push FPath.ofChars FPath.resolve
    simp only [habs suf h2, h suf h1]
    split
    · rw [List.foldl_append]
      exact hw _
    · rw [List.foldl_append, List.foldl_append, List.foldl_append]
      exact hw _
  refine ⟨(dir.push ⟨base.toList.head? == some '/', pre⟩).resolve cwd, x, ?_, ?_⟩
  · unfold placeOf FPath.ofString graphName
    rw [String.toList_append]
    exact key _ (by decide) rfl (by decide)
  · unfold placeOf FPath.ofString dataName
    rw [String.toList_append]
    exact key _ (by decide) rfl (by decide)

theorem place_ne (cwd : List Comp) (dir : FPath) (base : String) :
    placeOf cwd dir (graphName base) ≠ placeOf cwd dir (dataName base) := by
  obtain ⟨D, x, h1, h2⟩ := place_split cwd dir base
  rw [h1, h2]
  intro h
  have := List.append_cancel_left h
  simp at this

theorem place_parent (cwd : List Comp) (dir : FPath) (base : String) :
    (placeOf cwd dir (graphName base)).dropLast = (placeOf cwd dir (dataName base)).dropLast := by
  obtain ⟨D, x, h1, h2⟩ := place_split cwd dir base
  rw [h1, h2]
  simp

theorem graph_ne_data (b : String) : graphName b ≠ dataName b := fun h =>
  place_ne [] ⟨false, []⟩ b (by rw [h])

/-- a directory and itself pushed onto it are the same place -/
theorem place_double {cwd : List Comp} {dir : FPath} (h : (dir.push dir).resolve cwd = dir.resolve cwd) (n : String) :
    placeOf cwd (dir.push dir) n = placeOf cwd dir n := by
  unfold placeOf
  generalize FPath.ofString n = q
  by_cases hq : q.abs = true
  · simp only [FPath.push, hq, if_true]
  · have : ∀ d : FPath, (d.push q).resolve cwd = q.comps.foldl walk (d.resolve cwd) := by
      intro d
      unfold FPath.resolve
      rw [show d.push q = ⟨d.abs, d.comps ++ q.comps⟩ by simp [FPath.push, hq]]
      exact List.foldl_append
    rw [this, this, h]

theorem init_congr {io : HnswIo} {a b : Dir} (hg : a (graphName io.base) = b (graphName io.base))
    (hd : a (dataName io.base) = b (dataName io.base)) : io.init a = io.init b := by
  unfold HnswIo.init
  rw [hg, hd]

theorem mapData_congr (ty : Ty T) {io : HnswIo} {a b : Dir} (hg : a (graphName io.base) = b (graphName io.base))
    (hd : a (dataName io.base) = b (dataName io.base)) : io.mapData ty a = io.mapData ty b := by
  unfold HnswIo.mapData DataMap.fromDump
  rw [hg, hd]

/-- `load_hnsw` looks at two names, and at the graph a second time when it maps -/
theorem loadHnswAt_eq (P : Policy T) (ty : Ty T) (defScale : Nat → F64) (dist : Dist T) {io : HnswIo} {w : World}
    {cwd : List Comp} {dir : FPath} {d : Dir} (hg : w.dirAt cwd dir (graphName io.base) = d (graphName io.base))
    (hd : w.dirAt cwd dir (dataName io.base) = d (dataName io.base))
    (hm : io.opts.datamap = true → (dir.push dir).resolve cwd = dir.resolve cwd) :
    io.loadHnswAt P ty defScale dist w cwd dir = io.loadHnsw P ty defScale dist d := by
  unfold HnswIo.loadHnswAt HnswIo.loadHnsw
  rw [init_congr hg hd]
  have : io.mapData ty (w.mapDirAt cwd dir io.base) = io.mapData ty d := by
    by_cases ho : io.opts.datamap = true
    · refine mapData_congr ty ?_ ?_
      · rw [← hg]
        unfold World.mapDirAt
        rw [if_pos rfl]
        unfold World.dirAt
        rw [place_double (hm ho)]
      · rw [← hd]
        unfold World.mapDirAt
        rw [if_neg (Ne.symm (graph_ne_data _))]
    · unfold HnswIo.mapData
      rw [if_neg ho, if_neg ho]
  rw [this]
  rcases io.init d with e | ⟨dd, s⟩
  · rfl
  simp only []
  rcases loadDataHeader dd s with e | ⟨_, s⟩
  · rfl
  simp only []
  rcases checkDist ty dist.name dd with e | _
  · rfl
  simp only []
  rcases io.mapData ty d with e | io'
  · rfl
  simp only []
  rcases loadIndexation P ty dd io'.datamap io'.opts s with e | ⟨⟨_, _⟩, _⟩ <;> rfl

end Verif
