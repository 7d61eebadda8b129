import Verif.Capacity
import Verif.Reach

set_option autoImplicit false

/-!
# The memory reserved by insertions (for C136)

The search of an insertion in the layers of the new point reserves its heaps for `ef_construction` elements
(/repo/src/hnsw.rs 929-931, 1137-1139).  Here the allocator always gives what is possible; more than `isize::MAX` bytes is a
panic.
-/

namespace Verif
variable {T : Type}

section
variable (P : Policy T) (cfg : Cfg T)

/-- `search_layer` as called by insertion (/repo/src/hnsw.rs 911-1042), with the reservation of line 931. The second one (950)
asks for the same size. -/
def searchLayerCapP (fuel : Nat) (q : List T) (ep : Ref T) (ef layer : Nat) : Prog (CSt T) P.H :=
  if 2 ^ 63 - 1 < 8 * max ef 2 then .fail .overflow else searchLayerP P cfg fuel q ep ef layer

/-- descent through the layers above the new point (/repo/src/hnsw.rs 1088-1133), searched with `ef = 1` -/
def upperCapP (fuel : Nat) (p : Ref T) : List Nat → Ref T → F32 → Prog (CSt T) (Ref T)
  | [], ep, _ => .ret ep
  | l :: ls, ep, d =>
    (searchLayerCapP P cfg fuel p.data ep 1 l).bind fun h =>
      if 1 < P.len h then .fail .tooMany
      else
        match P.pop h with
        | none => upperCapP fuel p ls ep d
        | some (e, _) =>
          let next : Prog (CSt T) (Ref T) :=
            if (cfg.eval p.data e.pt.data).lt d = true then
              upperCapP fuel p ls e.pt (cfg.eval p.data e.pt.data)
            else upperCapP fuel p ls ep d
          .read fun s =>
            if (s.idx.nb p.pid l).length < cfg.maxNbU8 then
              .act (fun s => decide (p.pid ∉ s.held))
                (fun s => { s with idx := s.idx.setNb p.pid l (s.idx.nb p.pid l ++ [e]) })
                (fun _ => next)
            else next

/-- linking of the new point in its own layers (/repo/src/hnsw.rs 1134-1183) -/
def lowerCapP (fuel : Nat) (p : Ref T) : List Nat → Ref T → Prog (CSt T) Unit
  | [], _ => .ret ()
  | l :: ls, ep =>
    (searchLayerCapP P cfg fuel p.data ep cfg.efC l).bind fun h =>
      .ofExcept (fromPositive P (P.items h) P.empty) fun nh =>
        if P.items nh = [] then lowerCapP fuel p ls ep
        else
          (selectP P cfg p nh (if l = 0 then 2 * cfg.maxNb else cfg.maxNb)
              (if l = 0 then cfg.extend else false) l cfg.keepPruned).bind fun v =>
            .ofExcept (P.sortC v) fun nbrs =>
              .act (fun s => decide (p.pid ∉ s.held))
                (fun s => { s with idx := s.idx.setNb p.pid l nbrs })
                (fun _ => match nbrs with
                  | [] => lowerCapP fuel p ls ep
                  | n :: _ => lowerCapP fuel p ls n.pt)

/-- `insert_slice` after the creation of the point (/repo/src/hnsw.rs 1066-1192) -/
def linkCapP (fuel : Nat) (p : Ref T) (rank : Nat) : Prog (CSt T) Unit :=
  .read fun s =>
    match s.idx.entry with
    | none => checkEntryP p
    | some ep =>
      if rank = 1 then .ret ()
      else
        (upperCapP P cfg fuel p (layersDown ep.pid.layer (p.pid.layer + 1)) ep
            (cfg.eval p.data ep.data)).bind fun ep' =>
          (lowerCapP P cfg fuel p (layersDown p.pid.layer 0) ep').bind fun _ =>
            reverseP P cfg p (checkEntryP p) (layersDown p.pid.layer 0)

/-- the counter (/repo/src/hnsw.rs 515-523), and the rest -/
def countCapP (fuel : Nat) (p : Ref T) : Prog (CSt T) Unit :=
  .act (fun _ => true) (fun s => { s with idx := { s.idx with nbPoint := s.idx.nbPoint + 1 } })
    (fun s => linkCapP P cfg fuel p (s.idx.nbPoint + 1))

/-- `insert_slice` (/repo/src/hnsw.rs 1055-1193) -/
def insertCapP (fuel : Nat) (item : List T × DataId) (level : Nat) : Prog (CSt T) Unit :=
  .act (fun _ => true) (fun s => { s with idx := addPoint item level s.idx })
    (fun s => if level < s.idx.layers.length then countCapP P cfg fuel (newRef item level s.idx)
      else .fail .index)

/-- one call of `insert` -/
def Job.capProg (fuel : Nat) (j : Job T) : Prog (CSt T) Unit := insertCapP P cfg fuel (j.data, j.id) j.level

end

/-! ## When the reservation is possible -/

section
variable {P : Policy T} {cfg : Cfg T}

theorem upperCapP_eq (fuel : Nat) (p : Ref T) : ∀ (ls : List Nat) (ep : Ref T) (d : F32),
    upperCapP P cfg fuel p ls ep d = upperP P cfg fuel p ls ep d := by
  intro ls
  induction ls with
  | nil => intro ep d; rfl
  | cons l ls ih =>
    intro ep d
    have hs : searchLayerCapP P cfg fuel p.data ep 1 l = searchLayerP P cfg fuel p.data ep 1 l :=
      if_neg (by decide)
    simp only [upperCapP, upperP, hs, ih]
    rfl

theorem lowerCapP_eq (hef : cfg.efC < 2 ^ 60) (fuel : Nat) (p : Ref T) : ∀ (ls : List Nat) (ep : Ref T),
    lowerCapP P cfg fuel p ls ep = lowerP P cfg fuel p ls ep := by
  intro ls
  induction ls with
  | nil => intro ep; rfl
  | cons l ls ih =>
    intro ep
    have hs : searchLayerCapP P cfg fuel p.data ep cfg.efC l = searchLayerP P cfg fuel p.data ep cfg.efC l :=
      if_neg (by omega)
    simp only [lowerCapP, lowerP, hs, ih]
    rfl

theorem insertCapP_eq (hef : cfg.efC < 2 ^ 60) (fuel : Nat) (item : List T × DataId) (level : Nat) :
    insertCapP P cfg fuel item level = insertP P cfg fuel item level := by
  simp only [insertCapP, insertP, countCapP, countP, linkCapP, linkP, upperCapP_eq, lowerCapP_eq hef]
  rfl

/-! ## When it is not -/

/-- every action of the program, in a state that satisfies `J`, leads to one that does -/
def Prog.Tame {σ α : Type} (J : σ → Prop) : Prog σ α → Prop
  | .ret _ => True
  | .fail _ => True
  | .act _ u k => ∀ s, J s → J (u s) ∧ (k s).Tame J

/-- moreover the program never returns -/
def Prog.Barren {σ α : Type} (J : σ → Prop) : Prog σ α → Prop
  | .ret _ => False
  | .fail _ => True
  | .act _ u k => ∀ s, J s → J (u s) ∧ (k s).Barren J

theorem Prog.Tame.barren {σ α β : Type} {J : σ → Prop} {f : α → Prog σ β} (hf : ∀ a, (f a).Barren J) :
    ∀ {p : Prog σ α}, p.Tame J → (p.bind f).Barren J := by
  intro p
  induction p with
  | ret a => exact fun _ => hf a
  | fail e => exact fun _ => trivial
  | act g u k ih => exact fun h s hs => ⟨(h s hs).1, ih s (h s hs).2⟩

theorem Prog.Tame.bind {σ α β : Type} {J : σ → Prop} {f : α → Prog σ β} (hf : ∀ a, (f a).Tame J) :
    ∀ {p : Prog σ α}, p.Tame J → (p.bind f).Tame J := by
  intro p
  induction p with
  | ret a => exact fun _ => hf a
  | fail e => exact fun _ => trivial
  | act g u k ih => exact fun h s hs => ⟨(h s hs).1, ih s (h s hs).2⟩

/-- a system of such programs stays one -/
theorem barren_steps {σ α : Type} {J : σ → Prop} {a b : σ × List (Prog σ α)} (h : Steps a b) (h1 : J a.1)
    (h2 : ∀ t ∈ a.2, t.Barren J) : J b.1 ∧ ∀ t ∈ b.2, t.Barren J := by
  induction h with
  | refl => exact ⟨h1, h2⟩
  | step _ hs ih =>
    cases hs with
    | mk i hi g u k hact hg =>
      have hb := ih.2 _ (List.getElem_mem hi)
      rw [hact] at hb
      have := hb _ ih.1
      refine ⟨this.1, fun t ht => ?_⟩
      rcases List.mem_or_eq_of_mem_set ht with ht | rfl
      · exact ih.2 t ht
      · exact this.2

/-- what insertions that panic leave as it was in `c0`: the entry point, the points of `c0` and their lists -/
structure Stays (c0 s : CSt T) : Prop where
  entry : s.idx.entry = c0.idx.entry
  count : 1 ≤ s.idx.nbPoint
  old : ∀ l, c0.idx.layer l <+: s.idx.layer l
  nb : ∀ p : PointId, p.rank < (c0.idx.layer p.layer).length → ∀ l, s.idx.nb p l = c0.idx.nb p l

theorem Stays.refl {c : CSt T} (h : 1 ≤ c.idx.nbPoint) : Stays c c :=
  ⟨rfl, h, fun _ => List.prefix_refl _, fun _ _ _ => rfl⟩

theorem Stays.setNb {c0 s : CSt T} (h : Stays c0 s) {p : PointId} (hp : (c0.idx.layer p.layer).length ≤ p.rank) (l : Nat)
    (v : List (PWO T)) : Stays c0 { s with idx := s.idx.setNb p l v } := by
  refine ⟨h.entry, h.count, h.old, fun p' hp' l' => ?_⟩
  have hne : p' ≠ p := by rintro rfl; omega
  rw [← h.nb p' hp' l']
  simp [Idx.setNb, hne]

theorem loopP_tame {J : CSt T → Prop} (q : List T) (ef layer : Nat) : ∀ (n : Nat) (st : SL P),
    (loopP P cfg q ef layer n st).Tame J := by
  intro n
  induction n with
  | zero => intro st; trivial
  | succ n ih =>
    intro st
    unfold loopP
    split
    · trivial
    · trivial
    · intro s hs
      refine ⟨hs, ?_⟩
      dsimp only
      split
      · trivial
      · trivial
      · exact ih _

theorem searchLayerCapP_tame {J : CSt T → Prop} (fuel : Nat) (q : List T) (ep : Ref T) (ef layer : Nat) :
    (searchLayerCapP P cfg fuel q ep ef layer).Tame J := by
  unfold searchLayerCapP
  split
  · trivial
  · intro s hs
    refine ⟨hs, ?_⟩
    dsimp only
    split
    · trivial
    · trivial
    · exact loopP_tame _ _ _ _ _

theorem upperCapP_tame {J : CSt T → Prop} (fuel : Nat) {p : Ref T}
    (hp : ∀ (s : CSt T) l v, J s → J { s with idx := s.idx.setNb p.pid l v }) :
    ∀ (ls : List Nat) (ep : Ref T) (d : F32), (upperCapP P cfg fuel p ls ep d).Tame J := by
  intro ls
  induction ls with
  | nil => intro ep d; trivial
  | cons l ls ih =>
    intro ep d
    refine Prog.Tame.bind (fun h => ?_) (searchLayerCapP_tame _ _ _ _ _)
    split
    · trivial
    · split
      · exact ih _ _
      · have hn : ∀ (e : PWO T), (if (cfg.eval p.data e.pt.data).lt d = true then
            upperCapP P cfg fuel p ls e.pt (cfg.eval p.data e.pt.data)
            else upperCapP P cfg fuel p ls ep d).Tame J := fun e => by split <;> exact ih _ _
        intro s hs
        refine ⟨hs, ?_⟩
        dsimp only
        split
        · exact fun s' hs' => ⟨hp _ _ _ hs', hn _⟩
        · exact hn _

/-- the insertion fails after the descent -/
theorem linkCapP_barren {J : CSt T → Prop} (hef : 2 ^ 60 ≤ cfg.efC) (fuel : Nat) {p : Ref T} {rank : Nat} (hr : rank ≠ 1)
    (he : ∀ s, J s → s.idx.entry ≠ none) (hp : ∀ (s : CSt T) l v, J s → J { s with idx := s.idx.setNb p.pid l v }) :
    (linkCapP P cfg fuel p rank).Barren J := by
  intro s hs
  refine ⟨hs, ?_⟩
  dsimp only
  split
  · rename_i h
    exact absurd h (he s hs)
  · rw [if_neg hr]
    refine Prog.Tame.barren (fun ep' => ?_) (upperCapP_tame fuel hp _ _ _)
    have : layersDown p.pid.layer 0 = p.pid.layer :: (List.range p.pid.layer).reverse := by
      unfold layersDown
      simp [List.range'_eq_map_range, List.range_succ]
    rw [this]
    have hs : ∀ l, searchLayerCapP P cfg fuel p.data ep' cfg.efC l = .fail .overflow := fun l => if_pos (by omega)
    simp only [lowerCapP, hs, Prog.bind]
    trivial

/-- alone, such a program does not return and keeps `J` -/
theorem barren_run {σ α : Type} {J : σ → Prop} : ∀ {p : Prog σ α}, p.Barren J → ∀ {s : σ}, J s →
    (∀ a s', p.run s ≠ .ok a s') ∧ J (p.run s).state := by
  intro p
  induction p with
  | ret a => exact fun h => h.elim
  | fail e => exact fun _ s hs => ⟨fun a s' h => by simp [Prog.run] at h, hs⟩
  | act g u k ih =>
    intro h s hs
    rw [Prog.run]
    split
    · exact ih s (h s hs).2 (h s hs).1
    · exact ⟨fun a s' h => (nomatch h), hs⟩

theorem insertCapP_barren {c0 : CSt T} (hef : 2 ^ 60 ≤ cfg.efC) (he : c0.idx.entry ≠ none) (fuel : Nat)
    (item : List T × DataId) (level : Nat) : (insertCapP P cfg fuel item level).Barren (Stays c0) := by
  intro s hs
  have hadd : Stays c0 { s with idx := addPoint item level s.idx } := by
    refine ⟨hs.entry, hs.count, fun l => (hs.old l).trans ?_, hs.nb⟩
    by_cases h : level < s.idx.layers.length
    · rw [layer_addPoint item level s.idx h]
      split
      · rename_i hl
        subst hl
        exact List.prefix_append _ _
      · exact List.prefix_refl _
    · have : (addPoint item level s.idx).layers = s.idx.layers := by
        unfold addPoint
        exact List.modify_eq_self (by omega)
      unfold Idx.layer
      rw [this]
      exact List.prefix_refl _
  refine ⟨hadd, ?_⟩
  dsimp only
  split
  · have hp : (c0.idx.layer (newRef item level s.idx).pid.layer).length ≤ (newRef item level s.idx).pid.rank :=
      (hs.old level).length_le
    intro s1 hs1
    refine ⟨⟨hs1.entry, Nat.le_add_left _ _, hs1.old, hs1.nb⟩, ?_⟩
    have := hs1.count
    exact linkCapP_barren hef fuel (by omega) (fun s2 hs2 => by rw [hs2.entry]; exact he) fun s2 l v hs2 => hs2.setNb hp l v
  · trivial

/-! ## Searches from an entry point without links -/

theorem descend_alone {s : Idx T} {q : List T} {e : Ref T} (h : ∀ l, s.nb e.pid l = []) : ∀ (l : Nat) (d : F32),
    (descend cfg.eval q s l (e, d)).1 = e := by
  intro l
  induction l with
  | zero => intro d; rfl
  | succ l ih =>
    intro d
    rw [descend, h]
    exact ih d

theorem search_alone (L : P.Lawful) {s : Idx T} {e : Ref T} (he : s.entry = some e) (h : ∀ l, s.nb e.pid l = []) {q : List T}
    {knbn efArg : Nat} {filt : Option (DataId → Bool)} {ns : List Neighbour}
    (hr : searchFilter P cfg s q knbn efArg filt = .ok ns) : ns = [] ∨ ns = [⟨e.origin, cfg.eval q e.data, e.pid⟩] := by
  unfold searchFilter at hr
  simp only [he] at hr
  rw [descend_alone h] at hr
  split at hr
  · cases hr
  · split at hr
    · cases hr
    · rename_i r hsl
      split at hr
      · cases hr
      · rename_i v hv
        cases hr
        have hA : ∀ x ∈ P.items r, x.pt = e ∧ x.dist = cfg.eval q e.data := by
          unfold searchLayer at hsl
          split at hsl
          · cases hsl
          · cases hsl
            rw [L.items_empty]
            exact fun x hx => nomatch hx
          · have hA := slLoop_resA (K := fun v => v = e) L (fun c hc y hy => by
              subst hc
              rw [h] at hy
              cases hy) _ (invA_init L rfl) hsl
            intro x hx
            have := hA.inK x hx
            have h2 := hA.dist x hx
            exact ⟨this, by rw [h2, this]⟩
        have hnd : (P.items r).length ≤ 1 := by
          unfold searchLayer at hsl
          split at hsl
          · cases hsl
          · cases hsl
            rw [L.items_empty]
            exact Nat.zero_le _
          · have hB := slLoop_resA (K := fun v => v = e) L (fun c hc y hy => by
              subst hc
              rw [h] at hy
              cases hy) _ (invA_init L rfl) hsl
            have := length_le_of_nodup_subset (l₂ := [e.pid]) hB.nd fun x hx => by
              obtain ⟨y, hy, rfl⟩ := List.mem_map.1 hx
              rw [(hA y hy).1]
              exact List.mem_singleton.2 rfl
            simpa using this
        have hw : P.intoSorted r = v := by
          unfold Policy.intoSortedC at hv
          split at hv
          · cases hv
          · exact Except.ok.inj hv
        subst hw
        have hp := L.intoSorted_perm r
        have hl := hp.length_eq
        match hv' : P.intoSorted r, hl, hp with
        | [], _, _ => exact Or.inl (by simp)
        | [x], _, hp =>
          have hx := hA x (hp.mem_iff.1 (by simp))
          cases min knbn (min (max efArg knbn) [x].length) with
          | zero => exact Or.inl rfl
          | succ n =>
            right
            simp [PWO.toNeighbour, hx.1, hx.2]
        | x :: y :: zs, hl, _ =>
          simp at hl
          omega

end

end Verif
