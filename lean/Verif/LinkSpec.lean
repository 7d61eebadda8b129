import Verif.Props.Select

set_option autoImplicit false

/-!
# Vocabulary for what one insertion does to the graph
-/

namespace Verif
variable {T : Type}

/-- `F` is what a best-first search of width `ef` for `q`, started at `a`, may find in layer `l`:
points that can be reached from `a`, with their distances, each once; one of them is at least as near
as `a`; a neighbour of a found point is found or is not nearer than any found point; and all points that
can be reached are found if fewer than `ef` are. -/
structure Beam (eval : List T → List T → F32) (s : Idx T) (q : List T) (l ef : Nat) (a : Ref T)
    (F : List (PWO T)) : Prop where
  reach : ∀ x ∈ F, Reaches (links s l) a x.pt
  dist : ∀ x ∈ F, x.dist = eval q x.pt.data
  nodup : (F.map (·.pt.pid)).Nodup
  len : F.length ≤ max ef 1
  best : ∃ x ∈ F, x.dist.key ≤ (eval q a.data).key
  localOpt : ∀ x ∈ F, ∀ e ∈ s.nb x.pt.pid l,
    (∃ y ∈ F, y.pt = e.pt) ∨ ∀ y ∈ F, y.dist.key ≤ (eval q e.pt.data).key
  full : F.length < ef → ∀ v, Reaches (links s l) a v → ∃ x ∈ F, x.pt = v

/-- `v` is selected from the found points `F` as the parameters say: everything if there is no more than
`asked` and no extension; otherwise by the heuristic, completed by the nearest left out points when
pruned points are kept. -/
def Selected (cfg : Cfg T) (s : Idx T) (p : Ref T) (l asked : Nat) (ext kp : Bool)
    (F v : List (PWO T)) : Prop :=
  ∃ pool, IsPool cfg s p l F (F.length ≤ asked ∧ ext = true) pool ∧
    ((F.length ≤ asked ∧ ext = false ∧ v.Perm pool) ∨
     ((asked < F.length ∨ ext = true) ∧ kp = false ∧ Diversified cfg asked pool v) ∨
     ((asked < F.length ∨ ext = true) ∧ kp = true ∧ ∃ v0 w, v = v0 ++ w ∧
        Diversified cfg asked pool v0 ∧ (∀ y ∈ v, y ∈ pool) ∧ (v.map (·.pt.pid)).Nodup ∧
        v.length = min asked pool.length ∧ w.Pairwise (fun a b => a.dist.key ≤ b.dist.key) ∧
        ∀ x ∈ pool, x ∉ v → ∀ y ∈ w, y.dist.key ≤ x.dist.key))

/-- Effect of the layer `l` above the level of the new point `p`: from the pivot `a` to the pivot `b`,
`own` being the list of `p` in this layer. -/
def UpperStep (cfg : Cfg T) (s : Idx T) (p : Ref T) (l : Nat) (a b : Ref T) (own : List (PWO T)) : Prop :=
  (s.layer l = [] ∧ b = a ∧ own = []) ∨
  (s.layer l ≠ [] ∧ ∃ e, Beam cfg.eval s p.data l 1 a [e] ∧
    own = (if 0 < cfg.maxNb % 256 then [e] else []) ∧
    ((e.dist.key < (cfg.eval p.data a.data).key ∧ b = e.pt) ∨
     (e.dist.key = (cfg.eval p.data a.data).key ∧ b = a)))

/-- Effect of the layer `l` at or below the level of the new point. -/
def LowerStep (cfg : Cfg T) (s : Idx T) (p : Ref T) (l : Nat) (a b : Ref T) (own : List (PWO T)) : Prop :=
  (s.layer l = [] ∧ l ≠ p.pid.layer ∧ b = a ∧ own = []) ∨
  ((s.layer l ≠ [] ∨ l = p.pid.layer) ∧ ∃ F v, Beam cfg.eval s p.data l cfg.efC a F ∧
    Selected cfg s p l (degreeBound cfg l) (decide (l = 0) && cfg.extend) cfg.keepPruned F v ∧
    own.Perm v ∧ own.Pairwise (fun a b => a.dist.key ≤ b.dist.key) ∧
    ((own = [] ∧ b = a) ∨ ∃ n rest, own = n :: rest ∧ b = n.pt))

/-- `v` is made of the `k` nearest links of `S`, or of all of them if there are fewer. -/
structure NearestLinks (k : Nat) (S v : List (PWO T)) : Prop where
  sub : ∀ x ∈ v, x ∈ S
  nodup : v.Nodup
  sorted : v.Pairwise (fun a b => a.dist.key ≤ b.dist.key)
  len : v.length = min k S.length
  far : ∀ x ∈ S, x ∉ v → ∀ y ∈ v, y.dist.key ≤ x.dist.key

end Verif
