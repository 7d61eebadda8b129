import Verif.EntryLemmas

set_option autoImplicit false

/-!
# Levels of the points that the lists lead to

An insertion follows lists from the entry point, so that a list of layer `l` leads to points of
level at least `l` or to points that were once the entry point.
-/

namespace Verif
variable {T : Type} {P : Policy T} {cfg : Cfg T} {W : Nat → Prop}

/-- `v` may be met in layer `l`, `E` being the entry points until now -/
def Lev (E : List PointId) (l : Nat) (v : PointId) : Prop := l ≤ v.layer ∨ v ∈ E

/-- the points in the lists of a layer, and the successive entry points `E`, last one first -/
structure LevInv (E : List PointId) (s : CSt T) : Prop where
  link : ∀ p l e, e ∈ s.idx.nb p l →
    l ≤ e.pt.pid.layer ∨ (e.pt.pid ∈ E ∧ (l ≤ p.layer ∨ ∃ a ∈ E, l ≤ a.layer))
  entry : E.head? = s.idx.entry.map (·.pid)
  dec : E.Pairwise (fun a b => b.layer < a.layer)

theorem LevInv.lev {E : List PointId} {s : CSt T} (h : LevInv E s) {p : PointId} {l : Nat} {e : PWO T}
    (he : e ∈ s.idx.nb p l) : Lev E l e.pt.pid := by
  rcases h.link p l e he with h | h
  · exact Or.inl h
  · exact Or.inr h.1

/-- there may be new entry points, of a level in `W` -/
structure More (W : Nat → Prop) (E E' : List PointId) : Prop where
  suf : E <:+ E'
  lev : ∀ x ∈ E', x ∈ E ∨ W x.layer

theorem More.refl (E : List PointId) : More W E E := ⟨List.suffix_refl _, fun _ h => Or.inl h⟩

theorem More.trans {E E' E'' : List PointId} (h : More W E E') (h' : More W E' E'') : More W E E'' := by
  refine ⟨h.suf.trans h'.suf, fun x hx => ?_⟩
  rcases h'.lev x hx with h1 | h1
  · exact h.lev x h1
  · exact Or.inr h1

theorem More.mem {E E' : List PointId} (h : More W E E') {x : PointId} (hx : x ∈ E) : x ∈ E' :=
  h.suf.mem hx

theorem Lev.more {E E' : List PointId} {l : Nat} {v : PointId} (h : More W E E') (hv : Lev E l v) :
    Lev E' l v := hv.imp id h.mem

theorem Lev.down {E : List PointId} {l l' : Nat} {v : PointId} (hv : Lev E l v) (hl : l' ≤ l) :
    Lev E l' v := hv.imp (Nat.le_trans hl) id

/-- every step of the program keeps the invariant, whatever the others do in between, and the value
it returns satisfies `Q` -/
def Keeps {α : Type} (W : Nat → Prop) (Q : List PointId → α → Prop) :
    Prog (CSt T) α → List PointId → Prop
  | .ret a, E => ∀ E', More W E E' → Q E' a
  | .fail _, _ => True
  | .act g u k, E => ∀ E' s, More W E E' → LevInv E' s → g s = true →
      ∃ E'', More W E' E'' ∧ LevInv E'' (u s) ∧ Keeps W Q (k s) E''

theorem Keeps.more {α : Type} {Q : List PointId → α → Prop} {m : Prog (CSt T) α}
    {E E' : List PointId} (h : Keeps W Q m E) (hm : More W E E') : Keeps W Q m E' := by
  cases m with
  | ret a => exact fun E'' h' => h E'' (hm.trans h')
  | fail e => trivial
  | act g u k => exact fun E'' s h' => h E'' s (hm.trans h')

theorem Keeps.bind {α β : Type} {Q : List PointId → α → Prop} {R : List PointId → β → Prop}
    {m : Prog (CSt T) α} {k : α → Prog (CSt T) β} : ∀ {E : List PointId}, Keeps W Q m E →
    (∀ a E', More W E E' → Q E' a → Keeps W R (k a) E') → Keeps W R (m.bind k) E := by
  induction m with
  | ret a => intro E h hk; exact hk a E (More.refl E) (h E (More.refl E))
  | fail e => intro E _ _; trivial
  | act g u n ih =>
    intro E h hk E' s hm hi hg
    obtain ⟨E'', h1, h2, h3⟩ := h E' s hm hi hg
    exact ⟨E'', h1, h2, ih s h3 (fun a E3 h4 => hk a E3 (hm.trans (h1.trans h4)))⟩

theorem Keeps.read {α : Type} {Q : List PointId → α → Prop} {k : CSt T → Prog (CSt T) α}
    {E : List PointId} (h : ∀ E' s, More W E E' → LevInv E' s → Keeps W Q (k s) E') :
    Keeps W Q (.read k) E :=
  fun E' s hm hi _ => ⟨E', More.refl _, hi, h E' s hm hi⟩

theorem Keeps.ofExcept {α β : Type} {Q : List PointId → α → Prop} {x : Except Panic β}
    {k : β → Prog (CSt T) α} {E : List PointId} (h : ∀ b, x = .ok b → Keeps W Q (k b) E) :
    Keeps W Q (.ofExcept x k) E := by
  cases x with
  | error e => trivial
  | ok b => exact h b rfl

/-! ## Searching a layer -/

theorem loopP_keeps (L : P.Lawful) {q : List T} {ef layer : Nat} : ∀ (n : Nat) (st : SL P)
    (E : List PointId), InvA P cfg.eval q ef (fun v => Lev E layer v.pid) st →
    Keeps W (fun E h => ResA P cfg.eval q ef (fun v => Lev E layer v.pid) h)
      (loopP P cfg q ef layer n st) E := by
  intro n
  induction n with
  | zero => intro st E _; trivial
  | succ n ih =>
    intro st E hA
    have hh := head_invA (filt := none) L hA
    simp only [loopP]
    cases hhd : head P ef none st with
    | done h =>
      rw [hhd] at hh
      exact fun E' hm => hh.mono (fun v hv => hv.more hm)
    | panic e => trivial
    | expand c st' =>
      rw [hhd] at hh
      simp only at hh ⊢
      refine Keeps.read fun E' s hm hi => ?_
      have hA' : InvA P cfg.eval q ef (fun v => Lev E' layer v.pid) st' :=
        hh.1.mono (fun v hv => hv.more hm)
      cases hsc : scanList P cfg.eval q ef none (s.idx.nb c.pid layer) st' with
      | error x => trivial
      | ok o =>
        have hs := scanList_invA L hA' (fun e he => hi.lev he) hsc
        cases o with
        | stop r => exact fun E'' _ => resA_empty hs
        | go st'' => exact ih st'' E' hs.1

theorem searchLayerP_keeps (L : P.Lawful) {q : List T} {ep : Ref T} {ef layer fuel : Nat}
    {E : List PointId} (hep : Lev E layer ep.pid) :
    Keeps W (fun E h => ResA P cfg.eval q ef (fun v => Lev E layer v.pid) h)
      (searchLayerP P cfg fuel q ep ef layer) E := by
  refine Keeps.read fun E' s hm hi => ?_
  split
  · trivial
  · exact fun E'' _ => resA_empty L.items_empty
  · exact loopP_keeps L fuel _ E' (invA_init L (hep.more hm))

/-! ## Selection -/

theorem extendP_keeps {layer : Nat} {cset : List (Ref T)} : ∀ (todo acc : List (Ref T))
    (E : List PointId), (∀ v ∈ acc, Lev E layer v.pid) → (acc.map (·.pid)).Nodup →
    (∀ v ∈ acc, v.pid ∉ cset.map (·.pid)) →
    Keeps W (fun E acc' => (∀ v ∈ acc', Lev E layer v.pid) ∧ (acc'.map (·.pid)).Nodup ∧
      ∀ v ∈ acc', v.pid ∉ cset.map (·.pid))
      (extendP layer cset todo acc : Prog (CSt T) _) E := by
  intro todo
  induction todo with
  | nil => intro acc E h1 h2 h3 E' hm; exact ⟨fun v hv => (h1 v hv).more hm, h2, h3⟩
  | cons t ts ih =>
    intro acc E h1 h2 h3
    refine Keeps.read fun E' s hm hi => ?_
    have key : ∀ (es : List (PWO T)), (∀ e ∈ es, Lev E' layer e.pt.pid) → ∀ (acc : List (Ref T)),
        (∀ v ∈ acc, Lev E' layer v.pid) → (acc.map (·.pid)).Nodup →
        (∀ v ∈ acc, v.pid ∉ cset.map (·.pid)) →
        let acc' := es.foldl (fun acc q =>
          if q.pt.pid ∉ cset.map (·.pid) ∧ q.pt.pid ∉ acc.map (·.pid) then acc ++ [q.pt]
          else acc) acc
        (∀ v ∈ acc', Lev E' layer v.pid) ∧ (acc'.map (·.pid)).Nodup ∧
          ∀ v ∈ acc', v.pid ∉ cset.map (·.pid) := by
      intro es
      induction es with
      | nil => intro _ acc h1 h2 h3; exact ⟨h1, h2, h3⟩
      | cons e es ihe =>
        intro hes acc h1 h2 h3
        simp only [List.foldl_cons]
        have hes' : ∀ e' ∈ es, Lev E' layer e'.pt.pid := fun e' he' => hes e' (List.mem_cons_of_mem _ he')
        by_cases hc : e.pt.pid ∉ cset.map (·.pid) ∧ e.pt.pid ∉ acc.map (·.pid)
        · rw [if_pos hc]
          apply ihe hes'
          · intro v hv
            rcases List.mem_append.1 hv with hv | hv
            · exact h1 v hv
            · rw [List.mem_singleton.1 hv]; exact hes e (by simp)
          · simp only [List.map_append, List.map_cons, List.map_nil]
            rw [List.nodup_append]
            refine ⟨h2, by simp, ?_⟩
            intro a ha b hb
            rw [List.mem_singleton.1 hb]
            rintro rfl
            exact hc.2 ha
          · intro v hv
            rcases List.mem_append.1 hv with hv | hv
            · exact h3 v hv
            · rw [List.mem_singleton.1 hv]; exact hc.1
        · rw [if_neg hc]
          exact ihe hes' acc h1 h2 h3
    obtain ⟨i1, i2, i3⟩ := key _ (fun e he => hi.lev he) acc (fun v hv => (h1 v hv).more hm) h2 h3
    exact ih _ E' i1 i2 i3

theorem selectP_keeps (L : P.Lawful) {r : Ref T} {cands : P.H} {asked layer : Nat} {ext kp : Bool}
    {E : List PointId} (hk : ∀ x ∈ P.items cands, Lev E layer x.pt.pid)
    (hleg : ∀ x ∈ P.items cands, x.dist.neg.Legal) (hnd : (pids (P.items cands)).Nodup) :
    Keeps W (fun E v => ∀ x ∈ v, Lev E layer x.pt.pid)
      (selectP P cfg r cands asked ext layer kp) E := by
  have hsel : ∀ (cands : P.H) (E : List PointId), (∀ x ∈ P.items cands, Lev E layer x.pt.pid) →
      (pids (P.items cands)).Nodup → Keeps W (fun E v => ∀ x ∈ v, Lev E layer x.pt.pid)
      (.ofExcept (selectFrom P cfg asked kp cands) .ret : Prog (CSt T) _) E := by
    intro cands E hk hnd
    refine Keeps.ofExcept fun v hv E' hm y hy => ?_
    obtain ⟨-, x, hx, rfl⟩ := (selectFrom_ok L hv hnd).1 y hy
    exact (hk x hx).more hm
  unfold selectP
  split
  · refine Keeps.ofExcept fun v hv E' hm y hy => ?_
    obtain ⟨v', h1, h2⟩ := transferAll_ok L (P.len cands) cands [] (Nat.le_refl _) hleg
    rw [h1] at hv
    cases hv
    have := h2.mem_iff.1 hy
    simp only [List.nil_append, List.mem_map] at this
    obtain ⟨x, hx, rfl⟩ := this
    exact (hk x hx).more hm
  · split
    · refine Keeps.bind (extendP_keeps _ [] E (by simp) (by simp) (by simp)) ?_
      rintro news E' hm ⟨hn1, hn2, hn3⟩
      refine Keeps.ofExcept fun cands' hp => ?_
      have hperm := L.hash_perm r.pid layer 1 news
      have hp := pushAll_ok L _ _ _ hp
      apply hsel
      · intro x hx
        rcases List.mem_append.1 (hp.mem_iff.1 hx) with hx | hx
        · obtain ⟨v, hv, rfl⟩ := List.mem_map.1 hx
          exact hn1 v (hperm.mem_iff.1 hv)
        · exact (hk x hx).more hm
      · have h3 := hp.map (fun x : PWO T => x.pt.pid)
        show ((P.items cands').map (fun x : PWO T => x.pt.pid)).Nodup
        rw [h3.nodup_iff, List.map_append, List.nodup_append]
        refine ⟨?_, hnd, ?_⟩
        · simp only [List.map_map, Function.comp_def]
          exact (hperm.map (·.pid)).nodup_iff.2 hn2
        · intro a ha b hb hab
          subst hab
          simp only [List.map_map, Function.comp_def] at ha
          obtain ⟨v, hv, rfl⟩ := List.mem_map.1 ha
          apply hn3 v (hperm.mem_iff.1 hv)
          simpa using hb
    · exact hsel cands E hk hnd

/-! ## Writes -/

theorem LevInv.setNb {E : List PointId} {s : CSt T} (h : LevInv E s) {p : PointId} {l : Nat}
    {v : List (PWO T)} (hv : ∀ e ∈ v,
      l ≤ e.pt.pid.layer ∨ (e.pt.pid ∈ E ∧ (l ≤ p.layer ∨ ∃ a ∈ E, l ≤ a.layer)))
    {hd pb : List PointId} : LevInv E (⟨s.idx.setNb p l v, hd, pb⟩ : CSt T) := by
  refine ⟨?_, h.entry, h.dec⟩
  intro p' l' e he
  rw [setNb_nb] at he
  split at he
  · rename_i hc
    rw [hc.1, hc.2]
    exact hv e he
  · exact h.link p' l' e he

theorem upperP_keeps (L : P.Lawful) {r : Ref T} {fuel m : Nat} : ∀ (ls : List Nat) (ep : Ref T)
    (d : F32) (E : List PointId), ls.Pairwise (fun a b => b ≤ a) → (∀ l ∈ ls, m ≤ l) →
    (∀ l ∈ ls, Lev E l ep.pid) → Lev E m ep.pid → (∀ l ∈ ls, ∃ a ∈ E, l ≤ a.layer) →
    Keeps W (fun E ep' => Lev E m ep'.pid) (upperP P cfg fuel r ls ep d) E := by
  intro ls
  induction ls with
  | nil => intro ep d E _ _ _ h _ E' hm; exact h.more hm
  | cons l ls ih =>
    intro ep d E hp hml hlev hmep hE
    have hp' := List.pairwise_cons.1 hp
    simp only [upperP]
    refine Keeps.bind (searchLayerP_keeps L (hlev l (by simp))) ?_
    intro h E1 hm1 hres
    split
    · trivial
    · have next : ∀ (ep' : Ref T) (d' : F32) (E' : List PointId), More W E1 E' →
          (∀ l' ∈ ls, Lev E' l' ep'.pid) → Lev E' m ep'.pid →
          Keeps W (fun E ep' => Lev E m ep'.pid) (upperP P cfg fuel r ls ep' d') E' := by
        intro ep' d' E' hm' h1 h2
        refine ih ep' d' E' hp'.2 (fun l' hl' => hml l' (List.mem_cons_of_mem _ hl')) h1 h2 ?_
        intro l' hl'
        obtain ⟨a, ha, hal⟩ := hE l' (List.mem_cons_of_mem _ hl')
        exact ⟨a, (hm1.trans hm').mem ha, hal⟩
      have old : ∀ (d' : F32) (E' : List PointId), More W E1 E' →
          Keeps W (fun E ep' => Lev E m ep'.pid) (upperP P cfg fuel r ls ep d') E' := by
        intro d' E' hm'
        exact next ep d' E' hm' (fun l' hl' => (hlev l' (List.mem_cons_of_mem _ hl')).more (hm1.trans hm'))
          (hmep.more (hm1.trans hm'))
      cases hpo : P.pop h with
      | none => exact old _ E1 (More.refl _)
      | some z =>
        obtain ⟨e, h'⟩ := z
        have hem : e ∈ P.items h := (L.mem_pop hpo).2 (Or.inl rfl)
        have hle : Lev E1 l e.pt.pid := hres.inK e hem
        have both : ∀ E', More W E1 E' → Keeps W (fun E ep' => Lev E m ep'.pid)
            (if (cfg.eval r.data e.pt.data).lt d = true then
              upperP P cfg fuel r ls e.pt (cfg.eval r.data e.pt.data)
            else upperP P cfg fuel r ls ep d) E' := by
          intro E' hm'
          split
          · exact next _ _ E' hm' (fun l' hl' => (hle.more hm').down (hp'.1 l' hl'))
              ((hle.more hm').down (hml l (by simp)))
          · exact old _ E' hm'
        simp only
        refine Keeps.read fun E2 s hm2 hi2 => ?_
        split
        · intro E3 s3 hm3 hi3 _
          refine ⟨E3, More.refl _, ?_, both E3 (hm2.trans hm3)⟩
          apply hi3.setNb
          intro e' he'
          rcases List.mem_append.1 he' with he' | he'
          · exact hi3.link r.pid l e' he'
          · rw [List.mem_singleton.1 he']
            rcases hle.more (hm2.trans hm3) with h1 | h1
            · exact Or.inl h1
            · obtain ⟨a, ha, hal⟩ := hE l (by simp)
              exact Or.inr ⟨h1, Or.inr ⟨a, (hm1.trans (hm2.trans hm3)).mem ha, hal⟩⟩
        · exact both E2 hm2

theorem lowerP_keeps (L : P.Lawful) {r : Ref T} {fuel : Nat} : ∀ (ls : List Nat) (ep : Ref T)
    (E : List PointId), ls.Pairwise (fun a b => b ≤ a) → (∀ l ∈ ls, l ≤ r.pid.layer) →
    (∀ l ∈ ls, Lev E l ep.pid) →
    Keeps W (fun _ _ => True) (lowerP P cfg fuel r ls ep) E := by
  intro ls
  induction ls with
  | nil => intro ep E _ _ _ E' _; trivial
  | cons l ls ih =>
    intro ep E hp hle hlev
    have hp' := List.pairwise_cons.1 hp
    have hle' : ∀ l' ∈ ls, l' ≤ r.pid.layer := fun l' hl' => hle l' (List.mem_cons_of_mem _ hl')
    simp only [lowerP]
    refine Keeps.bind (searchLayerP_keeps L (hlev l (by simp))) ?_
    intro h E1 hm1 hres
    have old : ∀ E', More W E1 E' → Keeps W (fun _ _ => True) (lowerP P cfg fuel r ls ep) E' :=
      fun E' hm' => ih ep E' hp'.2 hle'
        (fun l' hl' => (hlev l' (List.mem_cons_of_mem _ hl')).more (hm1.trans hm'))
    refine Keeps.ofExcept fun nh hnh0 => ?_
    have hlegal := fromPositive_legal _ _ _ hnh0
    obtain ⟨nh', hnh, hperm, -⟩ := fromPositive_ok L (P.items h) P.empty hlegal L.built_empty
    rw [hnh0] at hnh
    cases hnh
    rw [L.items_empty, List.append_nil] at hperm
    split
    · exact old E1 (More.refl _)
    · refine Keeps.bind (selectP_keeps (layer := l) L ?_ ?_ ?_) ?_
      · intro x hx
        obtain ⟨y, hy, rfl⟩ := List.mem_map.1 (hperm.mem_iff.1 hx)
        exact hres.inK y hy
      · intro x hx
        obtain ⟨y, hy, rfl⟩ := List.mem_map.1 (hperm.mem_iff.1 hx)
        simpa using hlegal y hy
      · have h3 := hperm.map (fun x : PWO T => x.pt.pid)
        show ((P.items nh).map (fun x : PWO T => x.pt.pid)).Nodup
        rw [h3.nodup_iff]
        show (pids ((P.items h).map PWO.flip)).Nodup
        rw [pids_flip]
        exact hres.nd
      · intro v E2 hm2 hv
        refine Keeps.ofExcept fun nbrs hs => ?_
        have hsv : nbrs = P.sort v := by
          unfold Policy.sortC at hs
          split at hs
          · cases hs
          · cases hs; rfl
        have hmem : ∀ y ∈ nbrs, Lev E2 l y.pt.pid := fun y hy =>
          hv y ((L.sort_perm v).mem_iff.1 (hsv ▸ hy))
        intro E3 s3 hm3 hi3 _
        refine ⟨E3, More.refl _, ?_, ?_⟩
        · apply hi3.setNb
          intro e he
          rcases (hmem e he).more hm3 with h1 | h1
          · exact Or.inl h1
          · exact Or.inr ⟨h1, Or.inl (hle l (by simp))⟩
        · cases nbrs with
          | nil => exact old E3 (hm2.trans hm3)
          | cons n ns =>
            exact ih n.pt E3 hp'.2 hle'
              (fun l' hl' => ((hmem n (by simp)).more hm3).down (hp'.1 l' hl'))

/-! ## Reverse links and the entry point -/

theorem revInner_keeps (L : P.Lawful) {r : Ref T} {k : Prog (CSt T) Unit} : ∀ (qs : List (PWO T))
    (E : List PointId), (∀ E', More W E E' → Keeps W (fun _ _ => True) k E') →
    Keeps W (fun _ _ => True) (revInner P cfg r k qs) E := by
  intro qs
  induction qs with
  | nil =>
    intro E hk E' s hm hi _
    exact ⟨E', More.refl _, ⟨hi.link, hi.entry, hi.dec⟩, hk E' hm⟩
  | cons q qs ih =>
    intro E hk
    simp only [revInner]
    split
    · exact ih E hk
    · intro E' s hm hi _
      refine ⟨E', More.refl _, ?_, ?_⟩
      · apply hi.setNb
        intro e he
        have hmem : e ∈ s.idx.nb q.pt.pid r.pid.layer ∨ e = ⟨r, q.dist⟩ := by
          have hsort : ∀ v, P.sortC (s.idx.nb q.pt.pid r.pid.layer ++ [⟨r, q.dist⟩]) = .ok v →
              e ∈ v → e ∈ s.idx.nb q.pt.pid r.pid.layer ∨ e = ⟨r, q.dist⟩ := by
            intro v hv hev
            have hsv : v = P.sort (s.idx.nb q.pt.pid r.pid.layer ++ [⟨r, q.dist⟩]) := by
              unfold Policy.sortC at hv
              split at hv
              · cases hv
              · cases hv; rfl
            rw [hsv] at hev
            have := (L.sort_perm _).mem_iff.1 hev
            simpa using this
          unfold revList at he
          split at he
          · exact Or.inl he
          · cases hs : P.sortC (s.idx.nb q.pt.pid r.pid.layer ++ [⟨r, q.dist⟩]) with
            | error x =>
              simp only [hs] at he
              simpa using (L.sort_perm _).mem_iff.1 he
            | ok v =>
              simp only [hs] at he
              split at he <;> split at he
              all_goals first
                | exact hsort v hs he
                | exact hsort v hs (List.dropLast_subset _ he)
        rcases hmem with he | he
        · exact hi.link _ _ e he
        · rw [he]; exact Or.inl (Nat.le_refl _)
      · simp only []
        split
        · intro E2 s2 hm2 hi2 _
          exact ⟨E2, More.refl _, ⟨hi2.link, hi2.entry, hi2.dec⟩, trivial⟩
        · exact ih E' (fun E2 h2 => hk E2 (hm.trans h2))

theorem checkEntryP_keeps {r : Ref T} (hW : W r.pid.layer) (E : List PointId) :
    Keeps W (fun _ _ => True) (checkEntryP r) E := by
  intro E' s hm hi _
  have hlink : ∀ E'', More W E' E'' → ∀ p l e, e ∈ s.idx.nb p l →
      l ≤ e.pt.pid.layer ∨ (e.pt.pid ∈ E'' ∧ (l ≤ p.layer ∨ ∃ a ∈ E'', l ≤ a.layer)) := by
    intro E'' h p l e he
    rcases hi.link p l e he with h1 | ⟨h1, h2⟩
    · exact Or.inl h1
    · refine Or.inr ⟨h.mem h1, h2.imp id ?_⟩
      rintro ⟨a, ha, hal⟩
      exact ⟨a, h.mem ha, hal⟩
  have hnew : More W E' (r.pid :: E') := by
    refine ⟨List.suffix_cons _ _, fun x hx => ?_⟩
    rcases List.mem_cons.1 hx with rfl | hx
    · exact Or.inr hW
    · exact Or.inl hx
  have hent := hi.entry
  cases hs : s.idx.entry with
  | none =>
    rw [hs] at hent
    have hnil : E' = [] := by
      cases E' with
      | nil => rfl
      | cons a as => simp at hent
    refine ⟨r.pid :: E', hnew, ⟨hlink _ hnew, ?_, ?_⟩, fun _ _ => trivial⟩
    · simp [checkEntry, hs]
    · rw [hnil]; simp
  | some ep =>
    rw [hs] at hent
    by_cases hlt : ep.pid.layer < r.pid.layer
    · refine ⟨r.pid :: E', hnew, ⟨hlink _ hnew, ?_, ?_⟩, fun _ _ => trivial⟩
      · simp [checkEntry, hs, hlt]
      · rw [List.pairwise_cons]
        refine ⟨?_, hi.dec⟩
        intro b hb
        cases hE : E' with
        | nil => rw [hE] at hent; simp at hent
        | cons a as =>
          rw [hE] at hent hb
          simp only [List.head?_cons, Option.map_some, Option.some.injEq] at hent
          rcases List.mem_cons.1 hb with rfl | hb
          · rw [hent]; exact hlt
          · have hd := hi.dec
            rw [hE] at hd
            have := (List.pairwise_cons.1 hd).1 b hb
            rw [hent] at this
            omega
    · refine ⟨E', More.refl _, ⟨hlink _ (More.refl _), ?_, hi.dec⟩, fun _ _ => trivial⟩
      simp [checkEntry, hs, hlt, hent]

theorem reverseP_keeps (L : P.Lawful) {r : Ref T} (hW : W r.pid.layer) : ∀ (ls : List Nat)
    (E : List PointId), Keeps W (fun _ _ => True) (reverseP P cfg r (checkEntryP r) ls) E := by
  intro ls
  induction ls with
  | nil => intro E; exact checkEntryP_keeps hW E
  | cons l ls ih =>
    intro E E' s hm hi _
    exact ⟨E', More.refl _, ⟨hi.link, hi.entry, hi.dec⟩, revInner_keeps L _ E' (fun E2 _ => ih E2)⟩

theorem pairwise_layersDown (hi lo : Nat) : (layersDown hi lo).Pairwise (fun a b => b ≤ a) := by
  unfold layersDown
  rw [List.pairwise_reverse]
  exact List.pairwise_le_range'

theorem linkP_keeps (L : P.Lawful) {r : Ref T} {fuel rank : Nat} (hW : W r.pid.layer)
    (E : List PointId) : Keeps W (fun _ _ => True) (linkP P cfg fuel r rank) E := by
  refine Keeps.read fun E' s hm hi => ?_
  cases hs : s.idx.entry with
  | none => exact checkEntryP_keeps hW E'
  | some ep =>
    simp only
    split
    · exact fun _ _ => trivial
    · have hepE : ep.pid ∈ E' := by
        have := hi.entry
        rw [hs] at this
        exact List.mem_of_mem_head? this
      refine Keeps.bind (upperP_keeps (m := r.pid.layer) L _ ep _ E' (pairwise_layersDown _ _) ?_ ?_ ?_ ?_) ?_
      · intro l hl
        have := (mem_layersDown.1 hl).1
        omega
      · intro l _; exact Or.inr hepE
      · exact Or.inr hepE
      · intro l hl
        exact ⟨_, hepE, (mem_layersDown.1 hl).2⟩
      · intro ep' E2 hm2 hep'
        refine Keeps.bind (lowerP_keeps L _ ep' E2 (pairwise_layersDown _ _) ?_ ?_) ?_
        · exact fun l hl => (mem_layersDown.1 hl).2
        · exact fun l hl => hep'.down (mem_layersDown.1 hl).2
        · exact fun _ E3 _ _ => reverseP_keeps L hW _ E3

theorem insertP_keeps (L : P.Lawful) {fuel : Nat} {item : List T × DataId} {level : Nat}
    (hW : W level) (E : List PointId) :
    Keeps W (fun _ _ => True) (insertP P cfg fuel item level) E := by
  intro E' s hm hi _
  refine ⟨E', More.refl _, ⟨hi.link, hi.entry, hi.dec⟩, ?_⟩
  simp only []
  split
  · intro E2 s2 hm2 hi2 _
    exact ⟨E2, More.refl _, ⟨hi2.link, hi2.entry, hi2.dec⟩, linkP_keeps L hW E2⟩
  · trivial

/-! ## Executions -/

theorem steps_keeps {α : Type} {Q : List PointId → α → Prop}
    {a b : CSt T × List (Prog (CSt T) α)} (h : Steps a b) {E : List PointId} (hi : LevInv E a.1)
    (ht : ∀ t ∈ a.2, Keeps W Q t E) :
    ∃ E', More W E E' ∧ LevInv E' b.1 ∧ ∀ t ∈ b.2, Keeps W Q t E' := by
  induction h with
  | refl => exact ⟨E, More.refl _, hi, ht⟩
  | step _ hs ih =>
    obtain ⟨E1, hm1, hi1, ht1⟩ := ih
    cases hs with
    | @mk s ts i hlt g u k hact hg =>
      have h1 := ht1 _ (List.getElem_mem hlt)
      rw [hact] at h1
      obtain ⟨E2, hm2, hi2, hk2⟩ := h1 E1 _ (More.refl _) hi1 hg
      refine ⟨E2, hm1.trans hm2, hi2, ?_⟩
      intro t ht
      rcases List.mem_or_eq_of_mem_set ht with ht | rfl
      · exact (ht1 t ht).more hm2
      · exact hk2

theorem exec_levInv (L : P.Lawful) {c0 c : CSt T} {jobs : List (Job T)}
    {ts : List (Prog (CSt T) Unit)} (he : Exec P cfg c0 jobs c ts) {E : List PointId}
    (hi : LevInv E c0) : ∃ E', More (fun l => ∃ j ∈ jobs, j.level = l) E E' ∧ LevInv E' c := by
  obtain ⟨E', h1, h2, -⟩ := steps_keeps (W := fun l => ∃ j ∈ jobs, j.level = l)
    (Q := fun _ _ => True) he hi (by
      intro t ht
      obtain ⟨j, hj, rfl⟩ := List.mem_map.1 ht
      exact insertP_keeps L ⟨j, hj, rfl⟩ E)
  exact ⟨E', h1, h2⟩

theorem levInv_resort (L : P.Lawful) {c : CSt T} {E : List PointId} (h : LevInv E c) :
    LevInv E { c with idx := c.idx.resort P } :=
  ⟨fun p l e he => h.link p l e ((Idx.mem_resort L).1 he), h.entry, h.dec⟩

theorem levInv_new (n : Nat) : LevInv (T := T) [] (CSt.new n) := by
  refine ⟨?_, rfl, .nil⟩
  intro p l e he
  simp [CSt.new, Idx.new] at he

theorem reachC_levInv (L : P.Lawful) {c : CSt T} (h : ReachC P cfg c) : ∃ E, LevInv E c := by
  induction h with
  | new => exact ⟨[], levInv_new _⟩
  | batch ext kp jobs _ _ he _ ih =>
    obtain ⟨E, hE⟩ := ih
    obtain ⟨E', -, hE'⟩ := exec_levInv L he hE
    exact ⟨E', hE'⟩
  | reload _ ih =>
    obtain ⟨E, hE⟩ := ih
    exact ⟨E, levInv_resort L hE⟩

/-! ## Histories that start with the highest level -/

/-- Indexes obtained by a first call of `insert`, that returned and drew level `m`, followed by
batches of concurrent insertions, of levels up to `m`, and reloads of dumps. -/
inductive TopFirst (P : Policy T) (cfg : Cfg T) (m : Nat) : CSt T → Prop
  | first (ext kp : Bool) (j : Job T) {c : CSt T} : j.level = m → m < cfg.maxLayer →
      insert P (cfg.withFlags ext kp) (CSt.new cfg.maxLayer) (j.data, j.id) j.level = .ok () c →
      TopFirst P cfg m c
  | batch {c0 : CSt T} (ext kp : Bool) (jobs : List (Job T)) {c : CSt T}
      {ts : List (Prog (CSt T) Unit)} :
      TopFirst P cfg m c0 → (∀ j ∈ jobs, j.level ≤ m) →
      Exec P (cfg.withFlags ext kp) c0 jobs c ts → (∀ t ∈ ts, t.Finished) → TopFirst P cfg m c
  | reload {c0 : CSt T} : TopFirst P cfg m c0 → TopFirst P cfg m { c0 with idx := c0.idx.resort P }

theorem TopFirst.lt {m : Nat} {c : CSt T} (h : TopFirst P cfg m c) : m < cfg.maxLayer := by
  induction h with
  | first _ _ _ _ h _ => exact h
  | batch _ _ _ _ _ _ _ ih => exact ih
  | reload _ ih => exact ih

theorem TopFirst.reachC (L : P.Lawful) {m : Nat} {c : CSt T} (h : TopFirst P cfg m c) :
    ReachC P cfg c := by
  induction h with
  | first ext kp j hj hm hi =>
    have := ReachC.insert (P := P) (cfg := cfg) L .new ext kp (j := j) (by omega)
    rw [hi] at this
    exact this
  | batch ext kp jobs h0 hj he hf ih =>
    have hm := h0.lt
    exact .batch ext kp jobs ih (fun j hj' => Nat.lt_of_le_of_lt (hj j hj') hm) he hf
  | reload _ ih => exact ih.reload

/-- the state has one entry point, of level `m`, since the beginning, and no point above -/
structure OneTop (m : Nat) (c : CSt T) : Prop where
  one : ∃ e : PointId, e.layer = m ∧ LevInv [e] c
  low : ∀ o, Stored c.idx o → o.pid.layer ≤ m

theorem exec_low (L : P.Lawful) {c0 c : CSt T} (h : GoodC cfg c0) {jobs : List (Job T)} {m : Nat}
    (hl : ∀ j ∈ jobs, j.level < cfg.maxLayer) (hm : ∀ j ∈ jobs, j.level ≤ m)
    {ts : List (Prog (CSt T) Unit)} (he : Exec P cfg c0 jobs c ts)
    (h0 : ∀ o, Stored c0.idx o → o.pid.layer ≤ m) : ∀ o, Stored c.idx o → o.pid.layer ≤ m := by
  obtain ⟨ph, hS⟩ := he.inv L h hl (fun _ => True) (fun _ _ => trivial) (fun _ _ => trivial)
  intro o ho
  unfold Stored at ho
  rw [hS.perm.mem_iff] at ho
  rcases List.mem_append.1 ho with ho | ho
  · exact h0 o ho
  · obtain ⟨a, ha, har⟩ := List.mem_filterMap.1 ho
    obtain ⟨i, hi⟩ := List.getElem?_of_mem ha
    have hlt : i < ph.length := (List.getElem?_eq_some_iff.1 hi).1
    have hj : i < jobs.length := hS.len ▸ hlt
    have ht : i < ts.length := hS.tlen ▸ hj
    have hT := hS.thr i _ a _ (List.getElem?_eq_getElem hj) hi (List.getElem?_eq_getElem ht)
    have hjm := hm _ (List.getElem_mem hj)
    cases a with
    | idle => cases har
    | added r =>
      cases har
      rw [hT.2.2.1.2.2]
      exact hjm
    | running r rk =>
      cases har
      rw [hT.2.2.2.2]
      exact hjm

theorem exec_oneTop (L : P.Lawful) {c0 c : CSt T} (h : GoodC cfg c0) {jobs : List (Job T)} {m : Nat}
    (hl : ∀ j ∈ jobs, j.level < cfg.maxLayer) (hm : ∀ j ∈ jobs, j.level ≤ m)
    {ts : List (Prog (CSt T) Unit)} (he : Exec P cfg c0 jobs c ts) (h0 : OneTop m c0) : OneTop m c := by
  refine ⟨?_, exec_low L h hl hm he h0.low⟩
  obtain ⟨e, hem, hi⟩ := h0.one
  obtain ⟨E, hE, hiE⟩ := exec_levInv L he hi
  obtain ⟨pre, rfl⟩ := hE.suf
  cases pre with
  | nil => exact ⟨e, hem, hiE⟩
  | cons a as =>
    have hd := hiE.dec
    simp only [List.cons_append, List.pairwise_cons] at hd
    have hlt := hd.1 e (by simp)
    rcases hE.lev a (by simp) with h1 | ⟨j, hj, hja⟩
    · rw [List.mem_singleton.1 h1] at hlt
      omega
    · have := hm j hj
      omega

theorem TopFirst.oneTop (L : P.Lawful) {m : Nat} {c : CSt T} (h : TopFirst P cfg m c) :
    OneTop m c := by
  induction h with
  | @first ext kp j c hj hm hi =>
    have hG0 : GoodC cfg (CSt.new cfg.maxLayer) := (ReachC.new (P := P)).goodC L
    obtain ⟨r, hir, hG, -, -, hperm, -, hent⟩ := insert_spec L hG0 (by omega) ext kp
      (c := c) (congrArg Outcome.state hi)
    obtain ⟨e, he, -⟩ := hent hi
    have hpts : c.idx.points.Perm [r] := by simpa [CSt.new, Idx.new, Idx.points] using hperm
    have hmem : ∀ o, Stored c.idx o → o = r := fun o ho =>
      List.mem_singleton.1 (hpts.mem_iff.1 ho)
    obtain ⟨c1, t, hex, -, ho⟩ := insert_exec (cfg := cfg.withFlags ext kp) (j := j) L
      (goodC_flags.2 hG0) (by simp only [Cfg.withFlags]; omega)
    have hc1 : c1 = c := by
      rcases ho with ⟨h1, -⟩ | ⟨x, h1, -⟩
      · rw [hi] at h1
        injection h1 with _ h1
        exact h1.symm
      · rw [hi] at h1; cases h1
    subst hc1
    have hlow : ∀ o, Stored c1.idx o → o.pid.layer ≤ m := by
      intro o ho
      rw [hmem o ho, hir.2.2]
      omega
    refine ⟨?_, hlow⟩
    obtain ⟨E, hE, hiE⟩ := exec_levInv L hex (levInv_new cfg.maxLayer)
    have hhd := hiE.entry
    rw [he] at hhd
    have hem : e.pid.layer = m := by
      rw [hmem e (hG.inv.ok.entry e he), hir.2.2]; exact hj
    have hlev : ∀ x ∈ E, x.layer = m := by
      intro x hx
      rcases hE.lev x hx with h1 | ⟨j', hj', hl⟩
      · simp at h1
      · rw [List.mem_singleton.1 hj'] at hl
        omega
    cases E with
    | nil => simp at hhd
    | cons a as =>
      cases as with
      | nil => exact ⟨a, hlev a (by simp), hiE⟩
      | cons b bs =>
        have hd := (List.pairwise_cons.1 hiE.dec).1 b (by simp)
        have h1 := hlev a (by simp)
        have h2 := hlev b (by simp)
        omega
  | batch ext kp jobs h0 hj he _ ih =>
    have hm := h0.lt
    exact exec_oneTop (cfg := cfg.withFlags ext kp) L (goodC_flags.2 ((h0.reachC L).goodC L))
      (fun j hj' => Nat.lt_of_le_of_lt (hj j hj') hm) hj he ih
  | reload _ ih =>
    obtain ⟨e, h1, h2⟩ := ih.one
    exact ⟨⟨e, h1, levInv_resort L h2⟩, ih.low⟩

theorem OneTop.levels {m : Nat} {c : CSt T} (h : OneTop m c) (hok : IdxOK cfg c.idx)
    {p : PointId} {l : Nat} {e : PWO T} (he : e ∈ c.idx.nb p l) : l ≤ e.pt.pid.layer := by
  obtain ⟨x, hx, hi⟩ := h.one
  rcases hi.link p l e he with h1 | ⟨h1, h2⟩
  · exact h1
  · rw [List.mem_singleton.1 h1, hx]
    rcases h2 with h2 | ⟨a, ha, h2⟩
    · obtain ⟨o, ho, hop⟩ := hok.owner p l (List.ne_nil_of_mem he)
      have := h.low o ho
      rw [hop] at this
      omega
    · rw [List.mem_singleton.1 ha, hx] at h2
      exact h2

theorem topFirst_of_seqReach (L : P.Lawful) {j0 : Job T} {jobs : List (Job T)} {js : List (Job T)}
    {c : CSt T} (h : SeqReach P cfg js c) (hjs : js = j0 :: jobs)
    (hm : ∀ j ∈ jobs, j.level ≤ j0.level) : TopFirst P cfg j0.level c := by
  induction h generalizing jobs with
  | new => cases hjs
  | reload _ ih => exact (ih hjs hm).reload
  | @insert js1 c1 ext kp j c h1 hl hi ih =>
    cases js1 with
    | nil =>
      simp only [List.nil_append, List.cons.injEq] at hjs
      obtain ⟨rfl, rfl⟩ := hjs
      have hnew : c1 = CSt.new cfg.maxLayer := by
        clear ih hi hl
        generalize hn : ([] : List (Job T)) = nl at h1
        induction h1 with
        | new => rfl
        | insert ext kp j => simp at hn
        | reload _ ih =>
          rw [ih hn]
          have h0 : P.sort [] = [] := (L.sort_perm []).eq_nil
          simp [CSt.new, Idx.resort, Idx.new, h0]
      rw [hnew] at hi
      exact .first ext kp j rfl hl hi
    | cons j1 js1 =>
      simp only [List.cons_append, List.cons.injEq] at hjs
      obtain ⟨rfl, rfl⟩ := hjs
      have hT := ih rfl (fun j' hj' => hm j' (List.mem_append_left _ hj'))
      obtain ⟨c2, t, hex, hf, ho⟩ := insert_exec (cfg := cfg.withFlags ext kp) (j := j) L
        (goodC_flags.2 ((h1.reachC L).goodC L)) hl
      have hc2 : c2 = c := by
        rcases ho with ⟨h2, -⟩ | ⟨x, h2, -⟩
        · rw [hi] at h2
          injection h2 with _ h2
          exact h2.symm
        · rw [hi] at h2; cases h2
      subst hc2
      refine hT.batch ext kp [j] ?_ hex (by simpa using hf)
      intro j' hj'
      rw [List.mem_singleton.1 hj']
      exact hm j (by simp)

end Verif
