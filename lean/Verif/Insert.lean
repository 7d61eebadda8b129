import Verif.Search
import Verif.Prog

set_option autoImplicit false

/-!
# Insertion

`insert_slice` (/repo/src/hnsw.rs 1055-1193) and what it calls, as a program made of atomic lock
sections.
-/

namespace Verif
variable {T : Type}

/-- Shared state of a running index: the index, the read guards that are held by some thread while
it waits for other locks (only `reverse_update_neighborhood_simple` does that, /repo/src/hnsw.rs
1224), and `pub`, a history variable without influence on the execution: the ids of the points
that were made visible to the other threads. -/
structure CSt (T : Type) where
  idx : Idx T
  held : List PointId
  pub : List PointId

/-- number of layers to visit, from `hi` down to `lo` included:
`(lo..hi+1).rev()` (/repo/src/hnsw.rs 1092, 1136, 1223). -/
def layersDown (hi lo : Nat) : List Nat := (List.range' lo (hi + 1 - lo)).reverse

section
variable (P : Policy T) (cfg : Cfg T)

/-- the loop of `search_layer` reading the neighbour lists of each candidate under its lock
(/repo/src/hnsw.rs 960-1041). -/
def loopP (q : List T) (ef layer : Nat) : Nat → SL P → Prog (CSt T) P.H
  | 0, _ => .fail .fuel
  | n + 1, st =>
    match head P ef none st with
    | .done r => .ret r
    | .panic e => .fail e
    | .expand c st' =>
      .read fun s =>
        match scanList P cfg.eval q ef none (s.idx.nb c.pid layer) st' with
        | .error x => .fail x
        | .ok (.stop r) => .ret r
        | .ok (.go st'') => loopP q ef layer n st''

/-- `search_layer` as called by insertion, i.e. without filter (/repo/src/hnsw.rs 911-1042). -/
def searchLayerP (fuel : Nat) (q : List T) (ep : Ref T) (ef layer : Nat) : Prog (CSt T) P.H :=
  .read fun s =>
    match s.idx.layers[layer]? with
    | none => .fail .index
    | some [] => .ret P.empty
    | some (_ :: _) => loopP P cfg q ef layer fuel (slInit P cfg.eval q ep)

/-- `from_positive_binaryheap_to_negative_binary_heap` (/repo/src/hnsw.rs 1619-1636), on the
iteration list of the heap. -/
def fromPositive : List (PWO T) → P.H → Except Panic P.H
  | [], h => .ok h
  | p :: ps, h =>
    if F32.zero.le p.dist = false then .error .assertion
    else
      match P.pushC h ⟨p.pt, p.dist.neg⟩ with
      | .error e => .error e
      | .ok h' => fromPositive ps h'

/-- transfer of all candidates (/repo/src/hnsw.rs 1296-1302); the counter is the heap's size. -/
def transferAll : Nat → P.H → List (PWO T) → Except Panic (List (PWO T))
  | 0, _, acc => .ok acc
  | n + 1, h, acc =>
    match P.pop h with
    | none => .ok acc
    | some (p, h') =>
      if F32.zero.le p.dist.neg = false then .error .assertion
      else transferAll n h' (acc ++ [⟨p.pt, p.dist.neg⟩])

/-- the neighbours of the candidates (/repo/src/hnsw.rs 1316-1327): `cands` is the set of
candidates, the first list those whose neighbours remain to be read, each under its lock. -/
def extendP (layer : Nat) (cands : List (Ref T)) : List (Ref T) → List (Ref T) →
    Prog (CSt T) (List (Ref T))
  | [], acc => .ret acc
  | p :: ps, acc =>
    .read fun s =>
      extendP layer cands ps
        ((s.idx.nb p.pid layer).foldl (fun acc q =>
          if q.pt.pid ∉ cands.map (·.pid) ∧ q.pt.pid ∉ acc.map (·.pid) then acc ++ [q.pt]
          else acc) acc)

/-- the selection loop (/repo/src/hnsw.rs 1339-1370); the counter is the heap's size. Result:
selected neighbours and discarded ones. -/
def selLoop (asked : Nat) (keepPruned : Bool) : Nat → P.H → List (PWO T) → P.H →
    Except Panic (List (PWO T) × P.H)
  | 0, _, acc, disc => .ok (acc, disc)
  | n + 1, h, acc, disc =>
    if asked ≤ acc.length then .ok (acc, disc)
    else
      match P.pop h with
      | none => .ok (acc, disc)
      | some (e, h') =>
        if e.dist.le F32.zero = false then .error .assertion
        else if acc.any (fun d => (cfg.eval e.pt.data d.pt.data).le e.dist.neg) = false then
          selLoop asked keepPruned n h' (acc ++ [⟨e.pt, e.dist.neg⟩]) disc
        else if keepPruned then
          match P.pushC disc ⟨e.pt, e.dist⟩ with
          | .error x => .error x
          | .ok disc' => selLoop asked keepPruned n h' acc disc'
        else selLoop asked keepPruned n h' acc disc

/-- refill from the discarded points (/repo/src/hnsw.rs 1374-1384). -/
def refill (asked : Nat) : Nat → P.H → List (PWO T) → Except Panic (List (PWO T))
  | 0, _, acc => .ok acc
  | n + 1, disc, acc =>
    if asked ≤ acc.length then .ok acc
    else
      match P.pop disc with
      | none => .ok acc
      | some (e, disc') =>
        if e.dist.le F32.zero = false then .error .assertion
        else refill asked n disc' (acc ++ [⟨e.pt, e.dist.neg⟩])

/-- second part of `select_neighbours`, from the (extended) candidates
(/repo/src/hnsw.rs 1339-1396). -/
def selectFrom (asked : Nat) (keepPruned : Bool) (cands : P.H) : Except Panic (List (PWO T)) :=
  match selLoop P cfg asked keepPruned (P.len cands) cands [] P.empty with
  | .error e => .error e
  | .ok (acc, disc) =>
    if keepPruned then refill P asked (P.len disc) disc acc else .ok acc

/-- `select_neighbours` (/repo/src/hnsw.rs 1274-1396) for the new point `p`.
The candidate set (a hash map keyed by id, 1312-1315) is the list of candidate points: their ids
are distinct. -/
def selectP (p : Ref T) (cands : P.H) (asked : Nat) (extendAsked : Bool) (layer : Nat)
    (keepPruned : Bool) : Prog (CSt T) (List (PWO T)) :=
  if P.len cands ≤ asked ∧ extendAsked = false then
    .ofExcept (transferAll P (P.len cands) cands []) .ret
  else if P.len cands ≤ asked then
    let cset := (P.items cands).map (·.pt)
    (extendP layer cset (P.hashOrder p.pid layer 0 cset) []).bind fun news =>
      .ofExcept (P.pushAll cands ((P.hashOrder p.pid layer 1 news).map fun r =>
          ⟨r, (cfg.eval p.data r.data).neg⟩)) fun cands' =>
        .ofExcept (selectFrom P cfg asked keepPruned cands') .ret
  else .ofExcept (selectFrom P cfg asked keepPruned cands) .ret

/-- descent through the layers above the new point (/repo/src/hnsw.rs 1088-1133). -/
def upperP (fuel : Nat) (p : Ref T) : List Nat → Ref T → F32 → Prog (CSt T) (Ref T)
  | [], ep, _ => .ret ep
  | l :: ls, ep, d =>
    (searchLayerP P cfg fuel p.data ep 1 l).bind fun h =>
      if 1 < P.len h then .fail .tooMany
      else
        match P.pop h with
        | none => upperP fuel p ls ep d
        | some (e, _) =>
          let next : Prog (CSt T) (Ref T) :=
            if (cfg.eval p.data e.pt.data).lt d = true then
              upperP fuel p ls e.pt (cfg.eval p.data e.pt.data)
            else upperP fuel p ls ep d
          .read fun s =>
            if (s.idx.nb p.pid l).length < cfg.maxNbU8 then
              .act (fun s => decide (p.pid ∉ s.held))
                (fun s => { s with idx := s.idx.setNb p.pid l (s.idx.nb p.pid l ++ [e]) })
                (fun _ => next)
            else next

/-- linking of the new point in its own layers (/repo/src/hnsw.rs 1134-1183). -/
def lowerP (fuel : Nat) (p : Ref T) : List Nat → Ref T → Prog (CSt T) Unit
  | [], _ => .ret ()
  | l :: ls, ep =>
    (searchLayerP P cfg fuel p.data ep cfg.efC l).bind fun h =>
      .ofExcept (fromPositive P (P.items h) P.empty) fun nh =>
        if P.items nh = [] then lowerP fuel p ls ep
        else
          (selectP P cfg p nh (if l = 0 then 2 * cfg.maxNb else cfg.maxNb)
              (if l = 0 then cfg.extend else false) l cfg.keepPruned).bind fun v =>
            .ofExcept (P.sortC v) fun nbrs =>
              .act (fun s => decide (p.pid ∉ s.held))
                (fun s => { s with idx := s.idx.setNb p.pid l nbrs })
                (fun _ => match nbrs with
                  | [] => lowerP fuel p ls ep
                  | n :: _ => lowerP fuel p ls n.pt)

/-- the new list of a neighbour `q` that receives the new point, and whether the sort panicked
(/repo/src/hnsw.rs 1228-1259).  The layer written is the level of the new point, whatever layer
`q` was found in.  A sort that panics leaves the list in some order (that of `P.sort`, of which nothing is
said when it panics). -/
def revList (p : Ref T) (q : PWO T) (old : List (PWO T)) : List (PWO T) × Option Panic :=
  if old.any (fun o => o.pt.pid = p.pid) then (old, none)
  else
    let thr := if 0 < p.pid.layer then cfg.maxNb else 2 * cfg.maxNb
    let pushed : List (PWO T) := old ++ [⟨p, q.dist⟩]
    match P.sortC pushed with
    | .error e => (P.sort pushed, some e)
    | .ok v => (if thr < pushed.length then v.dropLast else v, none)

/-- release of the read guard on the new point's own neighbours. -/
def release (p : PointId) (s : CSt T) : CSt T := { s with held := s.held.erase p }

/-- inner loop of the reverse update (/repo/src/hnsw.rs 1224-1261), the read guard on the new
point being held. -/
def revInner (p : Ref T) (k : Prog (CSt T) Unit) : List (PWO T) → Prog (CSt T) Unit
  | [] => .act (fun _ => true) (release p.pid) (fun _ => k)
  | q :: qs =>
    if p.pid = q.pt.pid then revInner p k qs
    else
      .act (fun s => decide (q.pt.pid ∉ s.held))
        (fun s =>
          { s with
            idx := s.idx.setNb q.pt.pid p.pid.layer
              (revList P cfg p q (s.idx.nb q.pt.pid p.pid.layer)).1,
            pub := p.pid :: s.pub })
        (fun s =>
          match (revList P cfg p q (s.idx.nb q.pt.pid p.pid.layer)).2 with
          | some e => .act (fun _ => true) (release p.pid) (fun _ => .fail e)
          | none => revInner p k qs)

/-- `reverse_update_neighborhood_simple` (/repo/src/hnsw.rs 1216-1264). -/
def reverseP (p : Ref T) (k : Prog (CSt T) Unit) : List Nat → Prog (CSt T) Unit
  | [] => k
  | l :: ls =>
    .act (fun _ => true) (fun s => { s with held := p.pid :: s.held })
      (fun s => revInner P cfg p (reverseP p k ls) (s.idx.nb p.pid l))

/-- `check_entry_point` (/repo/src/hnsw.rs 530-553). -/
def checkEntry (p : Ref T) (s : CSt T) : CSt T :=
  { s with
    idx := { s.idx with
      entry := match s.idx.entry with
        | none => some p
        | some e => if e.pid.layer < p.pid.layer then some p else some e }
    pub := p.pid :: s.pub }

/-- the program `check_entry_point` followed by the end of the insertion. -/
def checkEntryP (p : Ref T) : Prog (CSt T) Unit :=
  .act (fun _ => true) (checkEntry p) (fun _ => .ret ())

/-- first part of `generate_new_point`: push in the table (/repo/src/hnsw.rs 503-513). -/
def addPoint (item : List T × DataId) (level : Nat) (s : Idx T) : Idx T :=
  { s with
    layers := s.layers.modify level (fun l => l ++ [⟨⟨level, l.length⟩, item.2, item.1⟩]) }

/-- the point `addPoint` creates. -/
def newRef (item : List T × DataId) (level : Nat) (s : Idx T) : Ref T :=
  ⟨⟨level, (s.layer level).length⟩, item.2, item.1⟩

/-- `insert_slice` after the creation of the point (/repo/src/hnsw.rs 1066-1192). -/
def linkP (fuel : Nat) (p : Ref T) (rank : Nat) : Prog (CSt T) Unit :=
  .read fun s =>
    match s.idx.entry with
    | none => checkEntryP p
    | some ep =>
      if rank = 1 then .ret ()
      else
        (upperP P cfg fuel p (layersDown ep.pid.layer (p.pid.layer + 1)) ep
            (cfg.eval p.data ep.data)).bind fun ep' =>
          (lowerP P cfg fuel p (layersDown p.pid.layer 0) ep').bind fun _ =>
            reverseP P cfg p (checkEntryP p) (layersDown p.pid.layer 0)

/-- second part of `generate_new_point`: the counter (/repo/src/hnsw.rs 515-523), and the rest. -/
def countP (fuel : Nat) (p : Ref T) : Prog (CSt T) Unit :=
  .act (fun _ => true) (fun s => { s with idx := { s.idx with nbPoint := s.idx.nbPoint + 1 } })
    (fun s => linkP P cfg fuel p (s.idx.nbPoint + 1))

/-- `insert_slice` (/repo/src/hnsw.rs 1055-1193), the level drawn by the generator being an
argument.  `fuel` bounds the iterations of each search loop. -/
def insertP (fuel : Nat) (item : List T × DataId) (level : Nat) : Prog (CSt T) Unit :=
  .act (fun _ => true) (fun s => { s with idx := addPoint item level s.idx })
    (fun s => if level < s.idx.layers.length then countP P cfg fuel (newRef item level s.idx)
      else .fail .index)

/-- A new index (`Hnsw::new`, /repo/src/hnsw.rs 768-804) as a shared state. -/
def CSt.new (maxLayer : Nat) : CSt T := ⟨Idx.new maxLayer, [], []⟩

/-- `Hnsw::insert` called by a single thread (/repo/src/hnsw.rs 1047-1049). -/
def insert (c : CSt T) (item : List T × DataId) (level : Nat) : Outcome (CSt T) Unit :=
  (insertP P cfg (c.idx.points.length + 3) item level).run c

end

end Verif
