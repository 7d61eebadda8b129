import Verif.Basic

set_option autoImplicit false

/-!
# Specification vocabulary

Small definitions used in the statements of the properties, independent of the algorithms.
-/

namespace Verif
variable {T : Type}

/-- `b` can be reached from `a` by following links of the graph `nbf`. -/
inductive Reaches (nbf : PointId → List (PWO T)) (a : Ref T) : Ref T → Prop
  | refl : Reaches nbf a a
  | step {b : Ref T} {e : PWO T} : Reaches nbf a b → e ∈ nbf b.pid → Reaches nbf a e.pt

/-- the point is in the table of the index. -/
def Stored (s : Idx T) (p : Ref T) : Prop := p ∈ s.points

/-- the links of layer `l`. -/
def links (s : Idx T) (l : Nat) : PointId → List (PWO T) := fun p => s.nb p l

/-- `l` is the lowest layer holding a point. -/
def IsLowest (s : Idx T) (l : Nat) : Prop :=
  s.layer l ≠ [] ∧ ∀ l' < l, s.layer l' = []

/-- The distance function is legal on query `q`: never NaN, never negative on a stored point. -/
def LegalOn (eval : List T → List T → F32) (s : Idx T) (q : List T) : Prop :=
  ∀ v, Stored s v → (eval q v.data).Legal

/-- `b` is one of the nearest to `q` among `c`. -/
def Nearest (eval : List T → List T → F32) (q : List T) (c : List (Ref T)) (b : Ref T) : Prop :=
  b ∈ c ∧ ∀ x ∈ c, (eval q b.data).key ≤ (eval q x.data).key

/-- `ps` is the sequence of pivots of a greedy descent starting at `a` in layer `l`: each one is a
nearest point among the previous one and its neighbours in the layer, down to layer 1. -/
inductive Descent (eval : List T → List T → F32) (q : List T) (s : Idx T) :
    Nat → Ref T → List (Ref T) → Prop
  | stop (a : Ref T) : Descent eval q s 0 a [a]
  | step {l : Nat} {a b : Ref T} {ps : List (Ref T)} :
      Nearest eval q (a :: (s.nb a.pid (l + 1)).map (·.pt)) b → Descent eval q s l b ps →
      Descent eval q s (l + 1) a (a :: ps)

/-- The answer record a user expects for a stored point: its id, its exact distance to the query,
its internal id. -/
def answer (eval : List T → List T → F32) (q : List T) (p : Ref T) : Neighbour :=
  ⟨p.origin, eval q p.data, p.pid⟩

/-- `ns` are the `k` points nearest to `q` among the points satisfying `S` (all of them if there
are fewer), by increasing distance. -/
def IsKNearest (eval : List T → List T → F32) (q : List T) (k : Nat) (S : Ref T → Prop)
    (ns : List Neighbour) : Prop :=
  ∃ v : List (Ref T), ns = v.map (answer eval q) ∧ v.Nodup ∧ (∀ p ∈ v, S p) ∧
    v.Pairwise (fun a b => (eval q a.data).key ≤ (eval q b.data).key) ∧
    (∀ R : List (Ref T), R.Nodup → (∀ p, p ∈ R ↔ S p) → v.length = min k R.length) ∧
    ∀ p, S p → p ∉ v → ∀ x ∈ v, (eval q x.data).key ≤ (eval q p.data).key

/-- Answers are in non-decreasing order of distance. -/
def SortedAnswers (ns : List Neighbour) : Prop :=
  ns.Pairwise (fun a b => a.distance.key ≤ b.distance.key)

end Verif

namespace Verif
variable {T : Type}

/-- Maximum length of a neighbour list of layer `l`. -/
def degreeBound (cfg : Cfg T) (l : Nat) : Nat := if l = 0 then 2 * cfg.maxNb else cfg.maxNb

/-- What may become of a list of links as time passes, `n` being its capacity: it gets no shorter and no longer
than `n` allows, its nearest, second nearest, … link get no farther, and a link is lost only when the list is
full and holds no farther one. -/
structure Improves (n : Nat) (a b : List (PWO T)) : Prop where
  len : a.length ≤ b.length
  cap : b.length ≤ max a.length n
  nearer : ∀ (i : Nat) x y, a[i]? = some x → b[i]? = some y → y.dist.key ≤ x.dist.key
  lost : ∀ e ∈ a, e ∉ b → n ≤ b.length ∧ ∀ e' ∈ b, e'.dist.key ≤ e.dist.key

/-- The table has `maxLayer` layers and the point of rank `r` in layer `l` has id `(l, r)`. -/
structure TableOK (maxLayer : Nat) (s : Idx T) : Prop where
  len : s.layers.length = maxLayer
  ids : ∀ l r (p : Ref T), (s.layer l)[r]? = some p → p.pid = ⟨l, r⟩

/-- Structural invariants of an index: what a user relies on when reading the graph. -/
structure IdxOK (cfg : Cfg T) (s : Idx T) : Prop where
  tab : TableOK cfg.maxLayer s
  /-- only stored points have neighbours -/
  owner : ∀ p l, s.nb p l ≠ [] → ∃ o, Stored s o ∧ o.pid = p
  /-- neighbours only exist for the layers of the index -/
  lay : ∀ p l, s.nb p l ≠ [] → l < cfg.maxLayer
  /-- links lead to stored points -/
  stored : ∀ p l, ∀ e ∈ s.nb p l, Stored s e.pt
  /-- no self link -/
  noSelf : ∀ p l, ∀ e ∈ s.nb p l, e.pt.pid ≠ p
  /-- the distance of a link is the distance of its two ends -/
  dist : ∀ o, Stored s o → ∀ l, ∀ e ∈ s.nb o.pid l,
    e.dist = cfg.eval o.data e.pt.data ∨ e.dist = cfg.eval e.pt.data o.data
  /-- and is neither NaN nor negative -/
  legal : ∀ p l, ∀ e ∈ s.nb p l, e.dist.Legal
  sorted : ∀ p l, (s.nb p l).Pairwise (fun a b => a.dist.key ≤ b.dist.key)
  nodup : ∀ p l, ((s.nb p l).map (·.pt.pid)).Nodup
  bound : ∀ p l, (s.nb p l).length ≤ degreeBound cfg l
  entry : ∀ e, s.entry = some e → Stored s e

/-- What an index has inherited from files: some of its links, the length its lists had, points that
may be above the entry point, and which lists had a NaN. -/
structure Base (T : Type) where
  link : PointId → Nat → PWO T → Prop
  len : PointId → Nat → Nat
  high : PointId → Prop
  wild : PointId → Nat → Prop

/-- nothing is inherited -/
def Base.none : Base T := ⟨fun _ _ _ => False, fun _ _ => 0, fun _ => False, fun _ _ => False⟩

/-- some list had a NaN -/
def Base.Wild (B : Base T) : Prop := ∃ p l, B.wild p l

/-- the links and the points of `s` are inherited -/
def Base.of (s : Idx T) : Base T := ⟨fun p l e => e ∈ s.nb p l, fun p l => (s.nb p l).length,
  fun p => ∃ o, Stored s o ∧ o.pid = p, fun p l => ∃ e ∈ s.nb p l, e.dist.isNaN = true⟩

/-- Structural invariants of an index, not claimed for the links inherited from files (except that
they lead to stored points and, in the lists that had no NaN, are sorted and have no NaN). -/
structure IdxOKB (B : Base T) (cfg : Cfg T) (s : Idx T) : Prop where
  tab : TableOK cfg.maxLayer s
  owner : ∀ p l, s.nb p l ≠ [] → ∃ o, Stored s o ∧ o.pid = p
  lay : ∀ p l, s.nb p l ≠ [] → l < cfg.maxLayer ∨ B.len p l ≠ 0
  stored : ∀ p l, ∀ e ∈ s.nb p l, Stored s e.pt
  noSelf : ∀ p l, ∀ e ∈ s.nb p l, e.pt.pid ≠ p ∨ B.link p l e
  dist : ∀ o, Stored s o → ∀ l, ∀ e ∈ s.nb o.pid l,
    (e.dist = cfg.eval o.data e.pt.data ∨ e.dist = cfg.eval e.pt.data o.data) ∨ B.link o.pid l e
  num : ∀ p l, B.wild p l ∨ ∀ e ∈ s.nb p l, e.dist.isNaN = false
  legal : ∀ p l, ∀ e ∈ s.nb p l, e.dist.Legal ∨ B.link p l e
  sorted : ∀ p l, B.wild p l ∨ (s.nb p l).Pairwise (fun a b => a.dist.key ≤ b.dist.key)
  nodup : ∀ p l, (s.nb p l).Pairwise
    (fun a b => a.pt.pid ≠ b.pt.pid ∨ B.link p l a ∧ B.link p l b)
  bound : ∀ p l, B.wild p l ∨ (s.nb p l).length ≤ max (degreeBound cfg l) (B.len p l)
  entry : ∀ e, s.entry = some e → Stored s e

theorem idxOKB_none {cfg : Cfg T} {s : Idx T} : IdxOKB Base.none cfg s ↔ IdxOK cfg s := by
  constructor
  · intro h
    refine ⟨h.tab, h.owner, fun p l hn => (h.lay p l hn).resolve_right (fun h => h rfl), h.stored,
      fun p l e he => (h.noSelf p l e he).resolve_right id,
      fun o ho l e he => (h.dist o ho l e he).resolve_right id,
      fun p l e he => (h.legal p l e he).resolve_right id, fun p l => (h.sorted p l).resolve_left id,
      fun p l => ?_, fun p l => ?_,
      h.entry⟩
    · rw [List.Nodup, List.pairwise_map]
      exact (h.nodup p l).imp fun hx => hx.resolve_right fun hx => hx.1
    · have := (h.bound p l).resolve_left id
      simpa [Base.none] using this
  · intro h
    refine ⟨h.tab, h.owner, fun p l hn => Or.inl (h.lay p l hn), h.stored, fun p l e he => Or.inl (h.noSelf p l e he),
      fun o ho l e he => Or.inl (h.dist o ho l e he), fun p l => Or.inr fun e he => (h.legal p l e he).1,
      fun p l e he => Or.inl (h.legal p l e he), fun p l => Or.inr (h.sorted p l), fun p l => ?_, fun p l => ?_, h.entry⟩
    · have := h.nodup p l
      rw [List.Nodup, List.pairwise_map] at this
      exact this.imp Or.inl
    · exact Or.inr (Nat.le_trans (h.bound p l) (Nat.le_max_left _ _))

/-- There is an entry point and it is on the highest populated layer. -/
def TopEntry (s : Idx T) : Prop :=
  ∃ e, s.entry = some e ∧ Stored s e ∧ ∀ p, Stored s p → p.pid.layer ≤ e.pid.layer

end Verif
