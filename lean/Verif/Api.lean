import Verif.Load
import Verif.ExecLemmas

set_option autoImplicit false

/-!
# The life of an index

Creation, settings, insertions, dumps and reloads of a whole `Hnsw`.
-/

namespace Verif
variable {T : Type}

/-- `Hnsw::new` (/repo/src/hnsw.rs 768-804): the process exits if `max_nb_connection > 256`.
`max_elements` only sizes allocations. -/
def Hnsw.new (defScale : Nat → F64) (maxNb maxLayer ef : Nat) (dist : Dist T) : Except Fail (Hnsw T) :=
  if maxNb > 256 then .error .exit
  else .ok {
    idx := Idx.new (min nbLayerMax maxLayer)
    cfg := { maxNb, efC := ef, extend := false, keepPruned := false,
             maxLayer := min nbLayerMax maxLayer, eval := dist.eval }
    gen := LayerGen.new defScale maxNb (min nbLayerMax maxLayer)
    distName := dist.name
    mapped := false }

/-- `set_extend_candidates` and `set_keeping_pruned` (/repo/src/hnsw.rs 842-857). -/
def Hnsw.setFlags (h : Hnsw T) (extend keepPruned : Bool) : Hnsw T :=
  { h with cfg := h.cfg.withFlags extend keepPruned }

/-- `modify_level_scale` (/repo/src/hnsw.rs 869-894). -/
def Hnsw.modifyScale (h : Hnsw T) (f : F64) : Hnsw T := { h with gen := h.gen.modifyLevelScale f }

/-- `PointIndexation::get_level_scale` (/repo/src/hnsw.rs 478-480). -/
def Hnsw.getLevelScale (h : Hnsw T) : F64 := h.gen.scale

/-- The numbers and names of an index fit the fields of the files: ranks are `i32`, lengths are
`u64`, and names are read back only if they have at most 256 bytes. -/
structure Sizes (ty : Ty T) (h : Hnsw T) : Prop where
  ranks : ∀ l ∈ h.idx.layers, l.length < 2 ^ 31
  ef : h.cfg.efC < 2 ^ 64
  named : h.distName ≠ ""
  dist : (strBytes h.distName).length ≤ 256
  tname : (strBytes ty.name).length ≤ 256
  vec : ∀ p ∈ h.idx.points, (ty.encVec p.data).length < 2 ^ 64 ∧ p.data.length < 2 ^ 64

/-- all the vectors have the same length (that of the entry point) -/
def SameDim (s : Idx T) : Prop := ∀ p, Stored s p → p.data.length = getDataDimension s

/-- ids are distinct -/
def DistinctIds (s : Idx T) : Prop := (s.points.map (·.origin)).Nodup

/-- The indexes a program can have, `ml` being the `max_layer` argument of the creation: settings may
change, batches of insertions run concurrently, at levels given by the generator of the index, until
each has returned or panicked; and the program may go on with a reload of a dump of the index, mapped
or not, made with the same distance, by `load_hnsw` or by `load_hnsw_with_dist`.  The last two cases leave
out what is refuted elsewhere: vectors of different lengths (`C40_refuted`), duplicate ids with a map
(`C52_refuted`), 256 connections (`C45_refuted`), `load_hnsw_with_dist` with a map (`C78_mapped_refuted`),
and numbers that do not fit the file. -/
inductive HReach (P : Policy T) (ty : Ty T) (defScale : Nat → F64) (ml : Nat) : Hnsw T → CSt T → Prop
  | new {maxNb ef : Nat} {dist : Dist T} {h : Hnsw T} :
      Hnsw.new defScale maxNb ml ef dist = .ok h → HReach P ty defScale ml h (CSt.new h.cfg.maxLayer)
  | flags {h : Hnsw T} {c : CSt T} (extend keepPruned : Bool) :
      HReach P ty defScale ml h c → HReach P ty defScale ml (h.setFlags extend keepPruned) c
  | scale {h : Hnsw T} {c : CSt T} (f : F64) :
      HReach P ty defScale ml h c → HReach P ty defScale ml (h.modifyScale f) c
  | batch {h : Hnsw T} {c0 : CSt T} (jobs : List (Job T)) {c : CSt T} {ts : List (Prog (CSt T) Unit)} :
      HReach P ty defScale ml h c0 →
      (∀ j ∈ jobs, ∃ level draw, draw < h.gen.maxlevel ∧ h.gen.generate level draw = .ok j.level) →
      Exec P h.cfg c0 jobs c ts → (∀ t ∈ ts, t.Finished) →
      HReach P ty defScale ml { h with idx := c.idx } c
  | reload {h : Hnsw T} {c : CSt T} {fs fs' : Dir} {base name : String} {draws : List Nat}
      (o : ReloadOptions) {dist : Dist T} {io : HnswIo} {x : Loaded T} :
      HReach P ty defScale ml h c → Sizes ty h → SameDim h.idx → h.cfg.maxNb ≤ 255 →
      (o.datamap = true → DistinctIds h.idx) →
      fileDump ty h fs base draws = some (fs', .ok name) →
      dist.name = h.distName → dist.eval = h.cfg.eval →
      (HnswIo.new name o).loadHnsw P ty defScale dist fs' = (io, .ok x) →
      HReach P ty defScale ml x.hnsw { c with idx := x.hnsw.idx }
  | reloadWithDist {h : Hnsw T} {c : CSt T} {fs fs' : Dir} {base name : String} {draws : List Nat}
      (o : ReloadOptions) {dist : Dist T} {x : Loaded T} :
      HReach P ty defScale ml h c → Sizes ty h → SameDim h.idx → h.cfg.maxNb ≤ 255 →
      o.datamap = false →
      fileDump ty h fs base draws = some (fs', .ok name) →
      dist.name = h.distName → dist.eval = h.cfg.eval →
      (HnswIo.new name o).loadHnswWithDist P ty defScale dist fs' = .ok x →
      HReach P ty defScale ml x.hnsw { c with idx := x.hnsw.idx }

end Verif
