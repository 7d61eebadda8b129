import Verif.Insert

set_option autoImplicit false

/-!
# Reading an index

Accessors and iterators of `PointIndexation` and `Point`.
-/

namespace Verif
variable {T : Type}

/-- `get_nb_point` (/repo/src/hnsw.rs 555-558). -/
def getNbPoint (s : Idx T) : Nat := s.nbPoint

/-- `get_layer_nb_point` (/repo/src/hnsw.rs 560-568). -/
def getLayerNbPoint (s : Idx T) (layer : Nat) : Nat :=
  if h : layer < s.layers.length then s.layers[layer].length else 0

/-- `get_max_level_observed` (/repo/src/hnsw.rs 469-476). -/
def getMaxLevelObserved (s : Idx T) : Nat :=
  match s.entry with
  | some e => e.pid.layer
  | none => 0

/-- `get_data_dimension` (/repo/src/hnsw.rs 570-578). -/
def getDataDimension (s : Idx T) : Nat :=
  match s.entry with
  | some e => e.data.length
  | none => 0

/-- `get_point` (/repo/src/hnsw.rs 602-613); the rank of a `PointId` is an `i32`. -/
def getPoint (s : Idx T) (layer : Nat) (rank : Int) : Option (Ref T) :=
  if rank < 0 then none
  else if layer ≤ getMaxLevelObserved s ∧ rank.toNat < getLayerNbPoint s layer then
    (s.layer layer)[rank.toNat]?
  else none

/-- `get_point_data` (/repo/src/hnsw.rs 584-595): same test, then a copy of the vector. -/
def getPointData (s : Idx T) (layer : Nat) (rank : Int) : Option (List T) :=
  if rank < 0 then none
  else if layer ≤ getMaxLevelObserved s ∧ rank.toNat < getLayerNbPoint s layer then
    ((s.layer layer)[rank.toNat]?).map (·.data)
  else none

/-- one entry of `get_neighborhood_id` -/
def neighbourOf (e : PWO T) : Neighbour := ⟨e.pt.origin, e.dist, e.pt.pid⟩

/-- `Point::get_neighborhood_id` (/repo/src/hnsw.rs 219-241): one list by layer, `NB_LAYER_MAX` of
them (allocated by `Point::new`, 175-190). -/
def getNeighborhoodId (s : Idx T) (p : Ref T) : List (List Neighbour) :=
  (List.range nbLayerMax).map fun l => (s.nb p.pid l).map neighbourOf

/-! ## Iterators -/

/-- Position of an `IterPoint` (/repo/src/hnsw.rs 626-631): `none` is the initial `layer = -1`,
otherwise layer and slot. -/
abbrev IterPos := Option (Nat × Nat)

/-- the `while` loop looking for a non empty layer (/repo/src/hnsw.rs 661-665), `n` being the number
of layers left up to the one of the entry point. Indexing panics past the last layer. -/
def skipEmpty (s : Idx T) : Nat → Nat → Except Panic Nat
  | 0, l => .ok l
  | n + 1, l =>
    match s.layers[l]? with
    | none => .error .index
    | some [] => skipEmpty s n (l + 1)
    | some (_ :: _) => .ok l

/-- `IterPoint::next` (/repo/src/hnsw.rs 646-680). -/
def iterNext (s : Idx T) (pos : IterPos) : Except Panic (Option (Ref T) × IterPos) :=
  let (l, r) := pos.getD (0, 0)
  match s.layers[l]? with
  | none => .error .index
  | some layer =>
    match layer[r]? with
    | some p => .ok (some p, some (l, r + 1))
    | none =>
      match s.entry with
      | none => .error .unwrapNone
      | some e =>
        match skipEmpty s (e.pid.layer + 1 - (l + 1)) (l + 1) with
        | .error x => .error x
        | .ok l' =>
          if l' ≤ e.pid.layer then
            match s.layers[l']? with
            | none => .error .index
            | some layer' =>
              match layer'[0]? with
              | none => .error .index
              | some p => .ok (some p, some (l', 1))
          else .ok (none, some (l', 0))

/-- the results of `n` successive calls of `next` -/
def iterCalls (s : Idx T) : Nat → IterPos → Except Panic (List (Option (Ref T)))
  | 0, _ => .ok []
  | n + 1, pos =>
    match iterNext s pos with
    | .error x => .error x
    | .ok (o, pos') =>
      match iterCalls s n pos' with
      | .error x => .error x
      | .ok os => .ok (o :: os)

/-- `IterPointLayer::next` (/repo/src/hnsw.rs 717-725). -/
def layerIterNext (s : Idx T) (layer slot : Nat) : Except Panic (Option (Ref T) × Nat) :=
  match s.layers[layer]? with
  | none => .error .index
  | some v =>
    match v[slot]? with
    | some p => .ok (some p, slot + 1)
    | none => .ok (none, slot)

/-- the results of `n` successive calls of `next` on a layer iterator -/
def layerIterCalls (s : Idx T) (layer : Nat) : Nat → Nat → Except Panic (List (Option (Ref T)))
  | 0, _ => .ok []
  | n + 1, slot =>
    match layerIterNext s layer slot with
    | .error x => .error x
    | .ok (o, slot') =>
      match layerIterCalls s layer n slot' with
      | .error x => .error x
      | .ok os => .ok (o :: os)

/-! ## Drop -/

/-- `clear_neighborhoods` (/repo/src/hnsw.rs 416-423). -/
def clearNb (p : PointId) (nb : PointId → Nat → List (PWO T)) : PointId → Nat → List (PWO T) :=
  fun q l => if q = p then [] else nb q l

/-- `Drop for PointIndexation` (/repo/src/hnsw.rs 409-445): clears the neighbours of the entry
point, then for the layers `0..=get_max_level_observed()` clears the neighbours of each point and
empties the layer.  Indexing panics if there is no such layer. -/
def dropLayers (s : Idx T) : List Nat → Except Panic (Idx T)
  | [] => .ok s
  | l :: ls =>
    match s.layers[l]? with
    | none => .error .index
    | some v =>
      dropLayers { s with
        nb := v.foldl (fun nb p => clearNb p.pid nb) s.nb
        layers := s.layers.set l [] } ls

/-- `PointIndexation::drop`. -/
def dropIdx (s : Idx T) : Except Panic (Idx T) :=
  let s1 : Idx T := match s.entry with
    | some e => { s with nb := clearNb e.pid s.nb }
    | none => s
  dropLayers s1 (List.range (getMaxLevelObserved s + 1))

end Verif
