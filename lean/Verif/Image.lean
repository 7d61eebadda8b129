import Verif.ParamInsert
import Verif.Examples

set_option autoImplicit false

/-!
# Images of indexes

The image of an index under a map of the vectors and a renumbering of the ids, and the two relations
used by `Props/Image.lean`: equal distances, and distances in the same order.
-/

namespace Verif
variable {T T' : Type}

/-- Containers and sorts that look at the order of the distances only (as comparison based algorithms
do), the same for the two vector types.  The iteration order of the hash maps is allowed to depend
on the places of the points in the table only. -/
def OrderOnly (P : Policy T) (P' : Policy T') : Prop :=
  ∀ S : DSim T T', S.Mono → Nonempty (PolRel S P P')

/-- the image of a point -/
def Ref.image (u : List T → List T') (g : DataId → DataId) (r : Ref T) : Ref T' :=
  ⟨r.pid, g r.origin, u r.data⟩

/-- the image of an element of a list -/
def PWO.image (u : List T → List T') (g : DataId → DataId) (x : PWO T) : PWO T' :=
  ⟨x.pt.image u g, x.dist⟩

/-- the image of an index: the same graph on the images of the points -/
def Idx.image (u : List T → List T') (g : DataId → DataId) (s : Idx T) : Idx T' where
  layers := s.layers.map (List.map (Ref.image u g))
  nb p l := (s.nb p l).map (PWO.image u g)
  nbPoint := s.nbPoint
  entry := s.entry.map (Ref.image u g)

/-- the image of a state -/
def CSt.image (u : List T → List T') (g : DataId → DataId) (c : CSt T) : CSt T' :=
  ⟨c.idx.image u g, c.held, c.pub⟩

/-- the image of an insertion -/
def Job.image (u : List T → List T') (g : DataId → DataId) (j : Job T) : Job T' :=
  ⟨u j.data, g j.id, j.level⟩

/-- same parameters, another distance function -/
structure SameParams (cfg : Cfg T) (cfg' : Cfg T') : Prop where
  maxNb : cfg'.maxNb = cfg.maxNb
  efC : cfg'.efC = cfg.efC
  extend : cfg'.extend = cfg.extend
  keepPruned : cfg'.keepPruned = cfg.keepPruned
  maxLayer : cfg'.maxLayer = cfg.maxLayer

theorem SameParams.rel {cfg : Cfg T} {cfg' : Cfg T'} (h : SameParams cfg cfg') {S : DSim T T'}
    (E : S.Eval cfg.eval cfg'.eval) : CfgR S cfg cfg' :=
  ⟨h.maxNb.symm, h.efC.symm, h.extend.symm, h.keepPruned.symm, h.maxLayer.symm, E⟩

theorem Rel2.eq_map {α β : Type} {f : α → β} {l : List α} {l' : List β}
    (h : Rel2 (fun a b => b = f a) l l') : l' = l.map f := by
  induction h with
  | nil => rfl
  | cons h1 _ ih => rw [h1, ih]; rfl

/-! ## The list containers -/

section
variable {S : DSim T T'} (M : S.Mono)

include M in
theorem insAsc_rel {x : PWO T} {x' : PWO T'} (hx : S.PWO x x') {l : List (PWO T)} {l' : List (PWO T')}
    (hl : Rel2 S.PWO l l') : Rel2 S.PWO (insAsc x l) (insAsc x' l') := by
  induction hl with
  | nil => exact .cons hx .nil
  | @cons a b l l' h1 h2 ih =>
    simp only [insAsc]
    by_cases hc : x.dist.key ≤ a.dist.key
    · rw [if_pos hc, if_pos ((M.key hx.dist h1.dist).1 hc)]
      exact .cons hx (.cons h1 h2)
    · rw [if_neg hc, if_neg (fun h => hc ((M.key hx.dist h1.dist).2 h))]
      exact .cons h1 ih

include M in
theorem sortAsc_rel {l : List (PWO T)} {l' : List (PWO T')} (hl : Rel2 S.PWO l l') :
    Rel2 S.PWO (sortAsc l) (sortAsc l') := by
  induction hl with
  | nil => exact .nil
  | cons h1 _ ih => exact insAsc_rel M h1 ih

end

/-- the list containers look at the order only -/
theorem listPolicy_orderOnly : OrderOnly (listPolicy T) (listPolicy T') := by
  intro S M
  exact ⟨{
    H := Rel2 S.PWO
    empty := .nil
    push := fun hh hx => .cons hx hh
    pop := by
      intro h h' hh
      show OptR _ (popL h) (popL h')
      unfold popL
      have h1 := (sortAsc_rel M hh).reverse
      generalize (sortAsc h).reverse = a at h1
      generalize (sortAsc h').reverse = b at h1
      cases h1 with
      | nil => exact .none
      | cons h2 h3 => exact .some ⟨h2, h3⟩
    items := fun hh => hh
    pushPanics := fun _ _ => rfl
    intoSortedPanics := fun _ => rfl
    sortPanics := fun _ => rfl
    intoSorted := fun hh => sortAsc_rel M hh
    sort := fun hh => sortAsc_rel M hh
    hash := fun _ _ _ _ _ h => h }⟩

/-! ## Equal distances -/

/-- the relation of the data with their images, distances being equal -/
def imageSim (u : List T → List T') (g : DataId → DataId) : DSim T T' where
  data a b := b = u a
  id i i' := i' = g i
  dist x y := x = y

theorem imageSim_mono (u : List T → List T') (g : DataId → DataId) : (imageSim u g).Mono where
  nan := by rintro x _ rfl; rfl
  key := by rintro x _ y _ rfl rfl; rfl
  zero := rfl
  neg := by rintro x _ rfl; rfl

section
variable {u : List T → List T'} {g : DataId → DataId}

theorem imageSim_ref {a : Ref T} {b : Ref T'} : (imageSim u g).Ref a b ↔ b = a.image u g := by
  constructor
  · intro h
    obtain ⟨p, o, d⟩ := b
    have h1 : a.pid = p := h.pid
    have h2 : o = g a.origin := h.id
    have h3 : d = u a.data := h.data
    rw [← h1, h2, h3]
    rfl
  · rintro rfl
    exact ⟨rfl, rfl, rfl⟩

theorem imageSim_pwo {a : PWO T} {b : PWO T'} : (imageSim u g).PWO a b ↔ b = a.image u g := by
  constructor
  · intro h
    obtain ⟨p, d⟩ := b
    have h1 := imageSim_ref.1 h.pt
    have h2 : a.dist = d := h.dist
    simp only at h1
    rw [h1, ← h2]
    rfl
  · rintro rfl
    exact ⟨imageSim_ref.2 rfl, rfl⟩

theorem Rel2.image_map {α β : Type} {R : α → β → Prop} {f : α → β} (hR : ∀ a b, R a b ↔ b = f a)
    {l : List α} {l' : List β} : Rel2 R l l' ↔ l' = l.map f := by
  constructor
  · intro h
    exact (h.imp (fun a b h => (hR a b).1 h)).eq_map
  · rintro rfl
    exact Rel2.of_map (fun a => (hR a _).2 rfl) l

theorem imageSim_idx {s : Idx T} {s' : Idx T'} : IdxR (imageSim u g) s s' ↔ s' = s.image u g := by
  have hr : ∀ (a : List (Ref T)) b, Rel2 (imageSim u g).Ref a b ↔ b = a.map (Ref.image u g) :=
    fun a b => Rel2.image_map (fun _ _ => imageSim_ref)
  have hp : ∀ (a : List (PWO T)) b, Rel2 (imageSim u g).PWO a b ↔ b = a.map (PWO.image u g) :=
    fun a b => Rel2.image_map (fun _ _ => imageSim_pwo)
  constructor
  · intro h
    obtain ⟨l, n, c, e⟩ := s'
    have h1 := (Rel2.image_map hr).1 h.layers
    have h2 : n = fun p l => (s.nb p l).map (PWO.image u g) := by
      funext p l
      exact (hp _ _).1 (h.nb p l)
    have h3 := h.count
    have h4 : e = s.entry.map (Ref.image u g) := by
      have he := h.entry
      generalize s.entry = x at he
      simp only at he
      cases he with
      | none => rfl
      | some he => rw [imageSim_ref.1 he]; rfl
    simp only at h1 h3
    rw [h1, h2, ← h3, h4]
    rfl
  · rintro rfl
    refine ⟨(Rel2.image_map hr).2 rfl, fun p l => (hp _ _).2 rfl, rfl, ?_⟩
    show OptR _ s.entry (s.entry.map (Ref.image u g))
    cases s.entry with
    | none => exact .none
    | some e => exact .some (imageSim_ref.2 rfl)

theorem imageSim_st {c : CSt T} {c' : CSt T'} : CR (imageSim u g) c c' ↔ c' = c.image u g := by
  constructor
  · intro h
    obtain ⟨i, hd, pb⟩ := c'
    have h1 := imageSim_idx.1 h.idx
    have h2 := h.held
    have h3 := h.pub
    simp only at h1 h2 h3
    rw [h1, ← h2, ← h3]
    rfl
  · rintro rfl
    exact ⟨imageSim_idx.2 rfl, rfl, rfl⟩

theorem imageSim_job (j : Job T) : JobR (imageSim u g) j (j.image u g) := ⟨rfl, rfl, rfl⟩

end

/-! ## Distances in the same order -/

/-- the vectors of `V` have legal distances, in the same order as those of their images, and zero for
the same pairs -/
structure SameOrder (V : List T → Prop) (u : List T → List T') (eval : List T → List T → F32)
    (eval' : List T' → List T' → F32) : Prop where
  legal : ∀ v w, V v → V w → (eval v w).Legal ∧ (eval' (u v) (u w)).Legal
  le : ∀ v w x y, V v → V w → V x → V y →
    ((eval v w).le (eval x y) = true ↔ (eval' (u v) (u w)).le (eval' (u x) (u y)) = true)
  zero : ∀ v w, V v → V w →
    ((eval v w).le F32.zero = true ↔ (eval' (u v) (u w)).le F32.zero = true)

/-- the relation of the data with their images, distances being in the same order -/
def orderSim (V : List T → Prop) (u : List T → List T') (g : DataId → DataId)
    (eval : List T → List T → F32) (eval' : List T' → List T' → F32) : DSim T T' where
  data a b := V a ∧ b = u a
  id i i' := i' = g i
  dist x y := (∃ v w, V v ∧ V w ∧ x = eval v w ∧ y = eval' (u v) (u w)) ∨
    (∃ v w, V v ∧ V w ∧ x = (eval v w).neg ∧ y = (eval' (u v) (u w)).neg) ∨
    (x.isNaN = false ∧ y.isNaN = false ∧ x.key = 0 ∧ y.key = 0)

theorem SameOrder.keys {V : List T → Prop} {u : List T → List T'} {eval : List T → List T → F32}
    {eval' : List T' → List T' → F32} (h : SameOrder V u eval eval') {v w x y : List T} (hv : V v)
    (hw : V w) (hx : V x) (hy : V y) : ((eval v w).key ≤ (eval x y).key ↔
      (eval' (u v) (u w)).key ≤ (eval' (u x) (u y)).key) := by
  have := h.le v w x y hv hw hx hy
  rw [F32.le_iff, F32.le_iff] at this
  have h1 := h.legal v w hv hw
  have h2 := h.legal x y hx hy
  constructor
  · intro hk
    exact (this.1 ⟨h1.1.1, h2.1.1, hk⟩).2.2
  · intro hk
    exact (this.2 ⟨h1.2.1, h2.2.1, hk⟩).2.2

theorem SameOrder.keys0 {V : List T → Prop} {u : List T → List T'} {eval : List T → List T → F32}
    {eval' : List T' → List T' → F32} (h : SameOrder V u eval eval') {v w : List T} (hv : V v)
    (hw : V w) : ((eval v w).key ≤ 0 ↔ (eval' (u v) (u w)).key ≤ 0) := by
  have := h.zero v w hv hw
  rw [F32.le_iff, F32.le_iff] at this
  have h1 := h.legal v w hv hw
  have hz : F32.zero.key = 0 := rfl
  have hn : F32.zero.isNaN = false := rfl
  rw [hz, hn] at this
  constructor
  · intro hk
    exact (this.1 ⟨h1.1.1, rfl, hk⟩).2.2
  · intro hk
    exact (this.2 ⟨h1.2.1, rfl, hk⟩).2.2

theorem orderSim_mono {V : List T → Prop} {u : List T → List T'} {eval : List T → List T → F32}
    {eval' : List T' → List T' → F32} (h : SameOrder V u eval eval') (g : DataId → DataId) :
    (orderSim V u g eval eval').Mono where
  nan := by
    rintro x y (⟨v, w, hv, hw, rfl, rfl⟩ | ⟨v, w, hv, hw, rfl, rfl⟩ | ⟨h1, h2, -, -⟩)
    · rw [(h.legal v w hv hw).1.1, (h.legal v w hv hw).2.1]
    · rw [F32.isNaN_neg, F32.isNaN_neg, (h.legal v w hv hw).1.1, (h.legal v w hv hw).2.1]
    · rw [h1, h2]
  key := by
    rintro x y x' y' (⟨v, w, hv, hw, rfl, rfl⟩ | ⟨v, w, hv, hw, rfl, rfl⟩ | ⟨-, -, h1, h2⟩)
      (⟨v', w', hv', hw', rfl, rfl⟩ | ⟨v', w', hv', hw', rfl, rfl⟩ | ⟨-, -, h1', h2'⟩)
    · exact h.keys hv hw hv' hw'
    · have a1 := (h.legal v w hv hw).1.2
      have a2 := (h.legal v w hv hw).2.2
      have b1 := (h.legal v' w' hv' hw').1.2
      have b2 := (h.legal v' w' hv' hw').2.2
      have a3 := h.keys0 hv hw
      have b3 := h.keys0 hv' hw'
      simp only [F32.key_neg]
      omega
    · have a3 := h.keys0 hv hw
      omega
    · have a1 := (h.legal v w hv hw).1.2
      have a2 := (h.legal v w hv hw).2.2
      have b1 := (h.legal v' w' hv' hw').1.2
      have b2 := (h.legal v' w' hv' hw').2.2
      simp only [F32.key_neg]
      omega
    · have := h.keys hv' hw' hv hw
      simp only [F32.key_neg]
      omega
    · have a1 := (h.legal v w hv hw).1.2
      have a2 := (h.legal v w hv hw).2.2
      simp only [F32.key_neg]
      omega
    · have b1 := (h.legal v' w' hv' hw').1.2
      have b2 := (h.legal v' w' hv' hw').2.2
      omega
    · have b1 := (h.legal v' w' hv' hw').1.2
      have b2 := (h.legal v' w' hv' hw').2.2
      have b3 := h.keys0 hv' hw'
      simp only [F32.key_neg]
      omega
    · omega
  zero := .inr (.inr ⟨rfl, rfl, rfl, rfl⟩)
  neg := by
    rintro x y (⟨v, w, hv, hw, rfl, rfl⟩ | ⟨v, w, hv, hw, rfl, rfl⟩ | ⟨h1, h2, h3, h4⟩)
    · exact .inr (.inl ⟨v, w, hv, hw, rfl, rfl⟩)
    · exact .inl ⟨v, w, hv, hw, F32.neg_neg _, F32.neg_neg _⟩
    · refine .inr (.inr ⟨h1, h2, ?_, ?_⟩)
      · rw [F32.key_neg, h3]; rfl
      · rw [F32.key_neg, h4]; rfl

theorem orderSim_eval (V : List T → Prop) (u : List T → List T') (g : DataId → DataId)
    (eval : List T → List T → F32) (eval' : List T' → List T' → F32) :
    (orderSim V u g eval eval').Eval eval eval' := by
  rintro v _ w _ ⟨hv, rfl⟩ ⟨hw, rfl⟩
  exact .inl ⟨v, w, hv, hw, rfl, rfl⟩

/-- `s'` is the same graph as `s` on the images of the points: same table, counter and entry point, same
links in the same order -/
structure ImageGraph (u : List T → List T') (g : DataId → DataId) (s : Idx T) (s' : Idx T') : Prop where
  layers : s'.layers = s.layers.map (List.map (Ref.image u g))
  count : s'.nbPoint = s.nbPoint
  entry : s'.entry = s.entry.map (Ref.image u g)
  links : ∀ p l, (s'.nb p l).map (·.pt) = (s.nb p l).map (fun e => e.pt.image u g)

section
variable {V : List T → Prop} {u : List T → List T'} {g : DataId → DataId} {eval : List T → List T → F32}
  {eval' : List T' → List T' → F32}

theorem orderSim_ref {a : Ref T} {b : Ref T'} (h : (orderSim V u g eval eval').Ref a b) :
    b = a.image u g := by
  obtain ⟨p, o, d⟩ := b
  have h1 : a.pid = p := h.pid
  have h2 : o = g a.origin := h.id
  have h3 : d = u a.data := h.data.2
  rw [← h1, h2, h3]
  rfl

theorem orderSim_same {s : Idx T} {s' : Idx T'} (h : IdxR (orderSim V u g eval eval') s s') :
    ImageGraph u g s s' := by
  refine ⟨?_, h.count.symm, ?_, ?_⟩
  · exact (h.layers.imp (fun a b h => (h.imp (fun _ _ h => orderSim_ref h)).eq_map)).eq_map
  · have he := h.entry
    generalize s.entry = x at he
    generalize s'.entry = y at he
    cases he with
    | none => rfl
    | some he => rw [orderSim_ref he]; rfl
  · intro p l
    exact (Rel2.map_eq (fun a b h => (orderSim_ref h.pt).symm) (h.nb p l)).symm

end

end Verif
