import Verif.Ffi
import Verif.ApiLemmas

set_option autoImplicit false

/-!
# Indexes made and filled through the C interface

The other constructors of /repo/src/libext.rs, and sequences of calls.
-/

namespace Verif
variable {T : Type}

/-- distances accepted by `new_hnsw_f32` (/repo/src/libext.rs 529-617) and `new_hnsw_u16` (960-1023);
there is no such function for the other types -/
def cNewNames : CTy → List String
  | .f32 => ["DistL1", "DistL2", "DistDot", "DistHellinger", "DistJeffreys", "DistJensenShannon"]
  | .u16 => ["DistL1", "DistL2", "DistHamming", "DistJaccard", "DistLevenshtein"]
  | _ => []

/-- `new_hnsw_*` (/repo/src/libext.rs 529-617, 960-1023): as `init_hnsw_*` with the number of layers
(`max_elements` only sizes allocations). -/
def cNew (defScale : Nat → F64) (distOf : String → Dist T) (ct : CTy) (maxNb ef : Nat) (name : String)
    (maxLayer : Nat) : Except Fail (Option (Hnsw T)) :=
  if name ∈ cNewNames ct then
    match Hnsw.new defScale maxNb maxLayer ef (distOf name) with
    | .ok h => .ok (some h)
    | .error e => .error e
  else .ok none

/-- `init_hnsw_ptrdist_*` (/repo/src/libext.rs 636-648, 809-821, 880-892, 1026-1038, 1094-1106): the
distance is a C function, of Rust type `DistCFFI<T>`. -/
def cInitPtr (defScale : Nat → F64) (dist : Dist T) (maxNb ef : Nat) : Except Fail (Hnsw T) :=
  Hnsw.new defScale maxNb 16 ef dist

/-- The memory given to `parallel_insert_*`, as pairs: the first `vl` values at each of the first `nb`
pointers, and the first `nb` ids. -/
def cPairs (nb vl : Nat) (datas : List (List T)) (ids : List DataId) : List (List T × DataId) :=
  ((datas.take nb).map (·.take vl)).zip (ids.take nb)

/-- the insertions of a request with the levels drawn -/
def reqJobs (r : List (List T × DataId)) (levels : List Nat) : List (Job T) :=
  List.zipWith (fun x l => ⟨x.1, x.2, l⟩) r levels

/-- `log` are the pairs passed by a C program that has created an index, inserted one by one or in
parallel (no panic: it would abort the process), and possibly replaced the index by a dump of it loaded
with the same distance.  The conditions of the last case are those of `HReach.reload`. -/
inductive CHist (P : Policy T) (ty : Ty T) (defScale : Nat → F64) (distOf : String → Dist T) (ct : CTy) :
    List (List T × DataId) → Hnsw T → CSt T → Prop
  | init {maxNb ef : Nat} {name : String} {h : Hnsw T} :
      cInit defScale distOf ct maxNb ef name = .ok (some h) →
      CHist P ty defScale distOf ct [] h (CSt.new h.cfg.maxLayer)
  | new {maxNb ef maxLayer : Nat} {name : String} {h : Hnsw T} :
      cNew defScale distOf ct maxNb ef name maxLayer = .ok (some h) →
      CHist P ty defScale distOf ct [] h (CSt.new h.cfg.maxLayer)
  | ptr {maxNb ef : Nat} {dist : Dist T} {h : Hnsw T} :
      cInitPtr defScale dist maxNb ef = .ok h →
      CHist P ty defScale distOf ct [] h (CSt.new h.cfg.maxLayer)
  | insert {log : List (List T × DataId)} {h : Hnsw T} {c0 c : CSt T} {len : Nat} {data : List T}
      {id : DataId} {x : List T × DataId} {l : Nat} {ts : List (Prog (CSt T) Unit)} :
      CHist P ty defScale distOf ct log h c0 →
      cInsertArg len data id = .ok x →
      (∃ level draw, draw < h.gen.maxlevel ∧ h.gen.generate level draw = .ok l) →
      Exec P h.cfg c0 [⟨x.1, x.2, l⟩] c ts → (∀ t ∈ ts, t = .ret ()) →
      CHist P ty defScale distOf ct (log ++ [(data.take len, id)]) { h with idx := c.idx } c
  | parallel {log : List (List T × DataId)} {h : Hnsw T} {c0 c : CSt T} {nb vl : Nat}
      {datas : List (List T)} {ids : List DataId} {r : List (List T × DataId)} {levels : List Nat}
      {ts : List (Prog (CSt T) Unit)} :
      CHist P ty defScale distOf ct log h c0 →
      cParallelInsertArg nb vl datas ids = .ok r → levels.length = r.length →
      (∀ l ∈ levels, ∃ level draw, draw < h.gen.maxlevel ∧ h.gen.generate level draw = .ok l) →
      Exec P h.cfg c0 (reqJobs r levels) c ts → (∀ t ∈ ts, t = .ret ()) →
      CHist P ty defScale distOf ct (log ++ cPairs nb vl datas ids) { h with idx := c.idx } c
  | load {log : List (List T × DataId)} {h h' : Hnsw T} {c : CSt T} {fs fs' : Dir} {base name : String}
      {draws : List Nat} {dist : Dist T} {io : HnswIo} :
      CHist P ty defScale distOf ct log h c → Sizes ty h → SameDim h.idx → h.cfg.maxNb ≤ 255 →
      fileDump ty h fs base draws = some (fs', .ok name) →
      dist.name = h.distName → dist.eval = h.cfg.eval →
      cLoad P ty defScale dist (cGetHnswio name) fs' = (io, .ok (some h')) →
      CHist P ty defScale distOf ct log h' { c with idx := h'.idx }

end Verif
