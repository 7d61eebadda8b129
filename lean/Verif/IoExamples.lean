import Verif.ApiLemmas
import Verif.Examples

set_option autoImplicit false

/-!
# Concrete indexes to dump
-/

namespace Verif

/-- `u8` as an element type -/
def u8Ty : Ty UInt8 where
  name := "u8"
  noData := false
  size := 1
  align := 1
  enc x := [x]
  dec b := b.headD 0
  bincode _ := none

theorem u8Ty_lawful : u8Ty.Lawful := ⟨fun _ => rfl, fun _ => rfl⟩

/-- a distance on them (that of `absDist`, on the first component) -/
def u8Dist (name : String := "anndists::dist::distances::DistL1") : Dist UInt8 where
  name := name
  eval a b := absDist (a.map UInt8.toNat) (b.map UInt8.toNat)

/-- `HReach` for one insertion -/
theorem HReach.insert {T : Type} {P : Policy T} (L : P.Lawful) {ty : Ty T} (hT : ty.Lawful)
    (hn : ty.noData = false) {defScale : Nat → F64} {ml : Nat} {h : Hnsw T} {c : CSt T}
    (hr : HReach P ty defScale ml h c) (j : Job T) (hl : j.level < h.cfg.maxLayer) :
    HReach P ty defScale ml
      { h with idx := (Verif.insert P h.cfg c (j.data, j.id) j.level).state.idx }
      (Verif.insert P h.cfg c (j.data, j.id) j.level).state := by
  have hk := hr.ok L hT hn
  obtain ⟨c1, t, he, hf, ho⟩ := insert_exec (cfg := h.cfg) L (hk.reach.goodC L) hl
  have : (Verif.insert P h.cfg c (j.data, j.id) j.level).state = c1 := by
    rcases ho with ⟨h1, -⟩ | ⟨e, h1, -⟩ <;> rw [h1] <;> rfl
  rw [this]
  refine .batch [j] hr ?_ he (by simpa using hf)
  intro j' hj'
  rw [List.mem_singleton.1 hj']
  refine ⟨⟨false, Fin.ofNat _ 0x7ff0000000000000⟩, j.level, by rw [hk.gen]; exact hl, ?_⟩
  unfold LayerGen.generate
  have h16 : h.gen.maxlevel ≤ 16 := by
    rw [hk.gen, hk.lay]; exact Nat.min_le_left _ _
  have hinf : (F64.floorUsize ⟨false, Fin.ofNat _ 0x7ff0000000000000⟩) = 2 ^ 64 - 1 := by
    decide +kernel
  have h0 : h.gen.maxlevel ≠ 0 := by rw [hk.gen]; omega
  simp only [hinf]
  rw [if_pos (by omega), if_neg h0]

theorem hreach_insertAll {T : Type} {P : Policy T} (L : P.Lawful) {ty : Ty T} (hT : ty.Lawful)
    (hn : ty.noData = false) {defScale : Nat → F64} {ml : Nat} :
    ∀ (items : List ((List T × DataId) × Nat)) {h : Hnsw T} {c c' : CSt T},
      HReach P ty defScale ml h c → (∀ x ∈ items, x.2 < h.cfg.maxLayer) →
      insertAll P h.cfg c items = some c' →
      HReach P ty defScale ml { h with idx := c'.idx } c' := by
  intro items
  induction items with
  | nil =>
    intro h c c' hr _ hs
    simp [insertAll] at hs
    subst hs
    have := (hr.ok L hT hn).idx
    rw [this]
    exact hr
  | cons x xs ih =>
    intro h c c' hr hl hs
    obtain ⟨it, l⟩ := x
    simp only [insertAll] at hs
    split at hs
    · rename_i a c1 hc
      have h1 := hr.insert L hT hn ⟨it.1, it.2, l⟩ (hl (it, l) (by simp))
      simp only [hc] at h1
      exact ih (h := { h with idx := c1.idx }) h1 (fun y hy => hl y (List.mem_cons_of_mem _ hy)) hs
    · cases hs

/-- an index made by insertions of `(vector, id, level)` -/
def ioH {T : Type} (defScale : Nat → F64) (maxNb ml : Nat) (dist : Dist T)
    (items : List ((List T × DataId) × Nat)) : Hnsw T :=
  match Hnsw.new defScale maxNb ml 10 dist with
  | .error _ => ⟨Idx.new 0, ⟨0, 0, false, false, 0, dist.eval⟩, ⟨F64.one, 0⟩, "", false⟩
  | .ok h =>
    { h with idx := ((insertAll (listPolicy T) h.cfg (CSt.new h.cfg.maxLayer) items).getD
        (CSt.new h.cfg.maxLayer)).idx }

theorem ioH_reach {T : Type} {ty : Ty T} (hT : ty.Lawful) (hn : ty.noData = false)
    (defScale : Nat → F64) {maxNb ml : Nat} (hm : maxNb ≤ 256) (dist : Dist T)
    (items : List ((List T × DataId) × Nat)) (hl : ∀ x ∈ items, x.2 < min nbLayerMax ml) :
    ∃ c, HReach (listPolicy T) ty defScale ml (ioH defScale maxNb ml dist items) c := by
  unfold ioH
  cases hnew : Hnsw.new defScale maxNb ml 10 dist with
  | error e =>
    unfold Hnsw.new at hnew
    rw [if_neg (by omega)] at hnew
    cases hnew
  | ok h =>
    have h0 : HReach (listPolicy T) ty defScale ml h (CSt.new h.cfg.maxLayer) := .new hnew
    have hk := h0.ok listPolicy_lawful hT hn
    simp only
    cases hs : insertAll (listPolicy T) h.cfg (CSt.new h.cfg.maxLayer) items with
    | none =>
      refine ⟨CSt.new h.cfg.maxLayer, ?_⟩
      simp only [Option.getD_none]
      rw [hk.idx]
      exact h0
    | some c =>
      exact ⟨c, hreach_insertAll listPolicy_lawful hT hn items h0
        (fun x hx => by rw [hk.lay]; exact hl x hx) hs⟩

/-- the default scale of the examples -/
def exScale (_ : Nat) : F64 := F64.fifth

/-- four points of dimension 2 on three layers -/
def io4 : Hnsw UInt8 :=
  ioH exScale 3 16 u8Dist [(([10, 1], 7), 0), (([20, 2], 8), 1), (([30, 3], 9), 0), (([25, 4], 5), 2)]

theorem io4_reach : ∃ c, HReach (listPolicy UInt8) u8Ty exScale 16 io4 c :=
  ioH_reach u8Ty_lawful rfl _ (by decide) _ _ (by decide)

theorem io4_points : io4.idx.points.map (fun p => (p.pid, p.origin, p.data)) =
    [(⟨0, 0⟩, 7, [10, 1]), (⟨0, 1⟩, 9, [30, 3]), (⟨1, 0⟩, 8, [20, 2]), (⟨2, 0⟩, 5, [25, 4])] := by
  decide +kernel


theorem io4_sizes : Sizes u8Ty io4 where
  ranks := by decide +kernel
  ef := by decide +kernel
  named := by decide +kernel
  dist := by decide +kernel
  tname := by decide +kernel
  vec := by decide +kernel

end Verif
