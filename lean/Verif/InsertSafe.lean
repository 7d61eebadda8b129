import Verif.Conc

set_option autoImplicit false

/-! # Every step of an insertion keeps the invariants -/

namespace Verif
variable {T : Type} {P : Policy T} {B : Base T} {cfg : Cfg T} {N : Nat} {D : List T → Prop}
  {W : Nat → Prop} {f₀ : Nat → List (PWO T)}

/-! ## Selection -/

/-- candidates of the selection for `r` -/
structure CandOK (P : Policy T) (cfg : Cfg T) (r : Ref T) (s : CSt T) (h : P.H) : Prop where
  known : ∀ x ∈ P.items h, Known r.pid s x.pt
  dist : ∀ x ∈ P.items h, x.dist = (cfg.eval r.data x.pt.data).neg
  nd : (pids (P.items h)).Nodup

/-- selected neighbours -/
structure SelOK (cfg : Cfg T) (r : Ref T) (asked : Nat) (s : CSt T) (v : List (PWO T)) : Prop where
  known : ∀ x ∈ v, Known r.pid s x.pt
  dist : ∀ x ∈ v, x.dist = cfg.eval r.data x.pt.data
  legal : ∀ x ∈ v, x.dist.Legal
  nd : (pids v).Nodup
  len : v.length ≤ asked

theorem SelOK.rel {r : Ref T} {asked : Nat} {s s' : CSt T} {v : List (PWO T)}
    (hr : Rel W r.pid s s') (h : SelOK cfg r asked s v) : SelOK cfg r asked s' v :=
  ⟨fun x hx => (h.known x hx).rel hr, h.dist, h.legal, h.nd, h.len⟩

theorem extend_fold {p : PointId} {s : CSt T} {cset : List (Ref T)} (es : List (PWO T))
    (hes : ∀ e ∈ es, Known p s e.pt) : ∀ (acc : List (Ref T)),
    (∀ v ∈ acc, Known p s v) → (acc.map (·.pid)).Nodup →
    (∀ v ∈ acc, v.pid ∉ cset.map (·.pid)) →
    let acc' := es.foldl (fun acc q =>
          if q.pt.pid ∉ cset.map (·.pid) ∧ q.pt.pid ∉ acc.map (·.pid) then acc ++ [q.pt]
          else acc) acc
    (∀ v ∈ acc', Known p s v) ∧ (acc'.map (·.pid)).Nodup ∧ ∀ v ∈ acc', v.pid ∉ cset.map (·.pid) := by
  induction es with
  | nil => intro acc h1 h2 h3; exact ⟨h1, h2, h3⟩
  | cons e es ih =>
    intro acc h1 h2 h3
    simp only [List.foldl_cons]
    apply ih (fun e' he' => hes e' (List.mem_cons_of_mem _ he'))
    · split
      · intro v hv
        rcases List.mem_append.1 hv with hv | hv
        · exact h1 v hv
        · rw [List.mem_singleton.1 hv]; exact hes e (by simp)
      · exact h1
    · split
      · rename_i hc
        simp only [List.map_append, List.map_cons, List.map_nil]
        rw [List.nodup_append]
        refine ⟨h2, by simp, ?_⟩
        intro a ha b hb
        rw [List.mem_singleton.1 hb]
        rintro rfl
        exact hc.2 ha
      · exact h2
    · split
      · rename_i hc
        intro v hv
        rcases List.mem_append.1 hv with hv | hv
        · exact h3 v hv
        · rw [List.mem_singleton.1 hv]; exact hc.1
      · exact h3

theorem extendP_safe {r : Ref T} {layer : Nat} {cset : List (Ref T)} : ∀ (todo acc : List (Ref T))
    (s : CSt T), Fresh r f₀ s → (∀ v ∈ acc, Known r.pid s v) → (acc.map (·.pid)).Nodup →
    (∀ v ∈ acc, v.pid ∉ cset.map (·.pid)) →
    SafeB B cfg N D W r.pid (fun acc' s => Fresh r f₀ s ∧ (∀ v ∈ acc', Known r.pid s v) ∧
      (acc'.map (·.pid)).Nodup ∧ ∀ v ∈ acc', v.pid ∉ cset.map (·.pid))
      (extendP layer cset todo acc) s := by
  intro todo
  induction todo with
  | nil =>
    intro acc s hf h1 h2 h3 s' hi' hr
    exact ⟨hf.rel hr, fun v hv => (h1 v hv).rel hr, h2, h3⟩
  | cons p ps ih =>
    intro acc s hf h1 h2 h3
    simp only [extendP]
    apply SafeB.read
    intro s' hi' hr
    have hf' := hf.rel hr
    obtain ⟨i1, i2, i3⟩ := extend_fold (cset := cset) (s'.idx.nb p.pid layer)
      (fun e he => Known.link hi' hf'.priv he) acc (fun v hv => (h1 v hv).rel hr) h2 h3
    exact ih _ s' hf' i1 i2 i3

theorem selOK_of_cands {r : Ref T} {asked : Nat} {s : CSt T} {h : P.H}
    (hc : CandOK P cfg r s h) {v : List (PWO T)}
    (h1 : ∀ y ∈ v, y.dist.Legal ∧ ∃ x ∈ P.items h, y = x.flip) (h2 : (pids v).Nodup)
    (h3 : v.length ≤ asked) : SelOK cfg r asked s v := by
  refine ⟨?_, ?_, fun x hx => (h1 x hx).1, h2, h3⟩
  · intro y hy
    obtain ⟨-, x, hx, rfl⟩ := h1 y hy
    exact hc.known x hx
  · intro y hy
    obtain ⟨-, x, hx, rfl⟩ := h1 y hy
    simp [hc.dist x hx]

theorem selectFrom_safe (L : P.Lawful) {r : Ref T} {cands : P.H} {asked : Nat} {kp : Bool}
    {s : CSt T} (hi : EInvB B cfg N D s) (hf : Fresh r f₀ s) (hpn : s.pub ≠ []) (hc : CandOK P cfg r s cands) :
    SafeB B cfg N D W r.pid (fun v s => Fresh r f₀ s ∧ SelOK cfg r asked s v)
      (.ofExcept (selectFrom P cfg asked kp cands) .ret) s := by
  apply SafeB.ofExcept
  · intro e he
    refine ⟨selectFrom_err he, Or.inl fun hl => ?_, hf.held, hpn, Or.inl hf.priv⟩
    obtain ⟨v, hv⟩ := selectFrom_no_err (cfg := cfg) (asked := asked) (kp := kp) L (cands := cands)
      (by
        intro x hx
        rw [hc.dist x hx]
        simpa using hl _ _ (hi.data _ hf.stored) (hi.data _ (hc.known x hx).1)) hc.nd
    rw [hv] at he
    cases he
  · intro v hv s' hi' hr
    obtain ⟨h1, h2, h3⟩ := selectFrom_ok L hv hc.nd
    exact ⟨hf.rel hr, (selOK_of_cands hc h1 h2 h3).rel hr⟩

theorem selectP_safe (L : P.Lawful) {r : Ref T} {cands : P.H} {asked layer : Nat} {ext kp : Bool}
    {s : CSt T} (hi : EInvB B cfg N D s) (hf : Fresh r f₀ s) (hpn : s.pub ≠ []) (hc : CandOK P cfg r s cands)
    (hleg : ∀ x ∈ P.items cands, x.dist.neg.Legal) (hB : P.Built cands) :
    SafeB B cfg N D W r.pid (fun v s => Fresh r f₀ s ∧ SelOK cfg r asked s v)
      (selectP P cfg r cands asked ext layer kp) s := by
  unfold selectP
  split
  · rename_i hcond
    obtain ⟨v, h1, h2⟩ := transferAll_ok L (P.len cands) cands [] (Nat.le_refl _) hleg
    rw [h1]
    intro s' hi' hr
    refine ⟨hf.rel hr, SelOK.rel hr (selOK_of_cands hc ?_ ?_ ?_)⟩
    · intro y hy
      have := h2.mem_iff.1 hy
      simp only [List.nil_append, List.mem_map] at this
      obtain ⟨x, hx, rfl⟩ := this
      exact ⟨hleg x hx, x, hx, rfl⟩
    · have h3 := h2.map (fun x : PWO T => x.pt.pid)
      simp only [List.nil_append] at h3
      rw [h3.nodup_iff]
      show (pids ((P.items cands).map PWO.flip)).Nodup
      rw [pids_flip]
      exact hc.nd
    · have := h2.length_eq
      simp at this
      rw [this]
      exact hcond.1
  · split
    · have hnd := hc.nd
      apply SafeB.bind ?_ hi (SafeB.frame (Grow.refl s) (extendP_safe (cfg := cfg) (N := N) (D := D)
        (layer := layer) (r := r) (cset := (P.items cands).map (·.pt))
        (P.hashOrder r.pid layer 0 ((P.items cands).map (·.pt))) [] s hf
        (by simp) (by simp) (by simp)))
      rintro news s' hi' ⟨⟨hf', hk, hn, hdis⟩, hgr⟩
      have hpn' := hgr.pubNe hpn
      have hperm := L.hash_perm r.pid layer 1 news
      apply SafeB.ofExcept
      · intro e he
        refine ⟨by rw [pushAll_err_nan _ _ _ he]; simp, Or.inl fun hl => ?_, hf'.held, hpn', Or.inl hf'.priv⟩
        obtain ⟨h', hh', -⟩ := pushAll_no_err L ((P.hashOrder r.pid layer 1 news).map fun r' =>
          (⟨r', (cfg.eval r.data r'.data).neg⟩ : PWO T)) cands (by
            intro x hx
            obtain ⟨v, hv, rfl⟩ := List.mem_map.1 hx
            simpa using (hl _ _ (hi'.data _ hf'.stored) (hi'.data _ (hk v (hperm.mem_iff.1 hv)).1)).1)
          hB
        rw [hh'] at he
        cases he
      · intro cands' hp
        have hp := pushAll_ok L _ _ _ hp
        apply selectFrom_safe L hi' hf' hpn'
        refine ⟨?_, ?_, ?_⟩
        · intro x hx
          rcases List.mem_append.1 (hp.mem_iff.1 hx) with hx | hx
          · obtain ⟨v, hv, rfl⟩ := List.mem_map.1 hx
            exact hk v (hperm.mem_iff.1 hv)
          · exact (hc.known x hx).grow hgr
        · intro x hx
          rcases List.mem_append.1 (hp.mem_iff.1 hx) with hx | hx
          · obtain ⟨v, hv, rfl⟩ := List.mem_map.1 hx
            rfl
          · exact hc.dist x hx
        · have h3 := hp.map (fun x : PWO T => x.pt.pid)
          rw [h3.nodup_iff, List.map_append, List.nodup_append]
          refine ⟨?_, hc.nd, ?_⟩
          · simp only [List.map_map, Function.comp_def]
            exact (hperm.map (·.pid)).nodup_iff.2 hn
          · intro a ha b hb hab
            subst hab
            simp only [List.map_map, Function.comp_def] at ha
            obtain ⟨v, hv, rfl⟩ := List.mem_map.1 ha
            apply hdis v (hperm.mem_iff.1 hv)
            simpa using hb
    · exact selectFrom_safe L hi hf hpn hc

/-! ## Writes -/

/-- a list that may be stored as neighbours of `o` at layer `l` -/
structure NbOKB (B : Base T) (cfg : Cfg T) (s : Idx T) (pb : List PointId) (o : Ref T) (l : Nat)
    (v : List (PWO T)) : Prop where
  stored : ∀ e ∈ v, Stored s e.pt
  pub : ∀ e ∈ v, e.pt.pid ∈ pb
  noSelf : ∀ e ∈ v, e.pt.pid ≠ o.pid ∨ B.link o.pid l e
  dist : ∀ e ∈ v, DistOrd cfg pb o e ∨ B.link o.pid l e
  num : B.wild o.pid l ∨ ∀ e ∈ v, e.dist.isNaN = false
  legal : ∀ e ∈ v, e.dist.Legal ∨ B.link o.pid l e
  sorted : B.wild o.pid l ∨ v.Pairwise (fun a b => a.dist.key ≤ b.dist.key)
  nodup : v.Pairwise (fun a b => a.pt.pid ≠ b.pt.pid ∨ B.link o.pid l a ∧ B.link o.pid l b)
  bound : B.wild o.pid l ∨ v.length ≤ max (degreeBound cfg l) (B.len o.pid l)

/-- a list without inherited links -/
theorem NbOKB.mk' {s : Idx T} {pb : List PointId} {o : Ref T} {l : Nat} {v : List (PWO T)}
    (stored : ∀ e ∈ v, Stored s e.pt) (pub : ∀ e ∈ v, e.pt.pid ∈ pb)
    (noSelf : ∀ e ∈ v, e.pt.pid ≠ o.pid) (dist : ∀ e ∈ v, DistOrd cfg pb o e)
    (legal : ∀ e ∈ v, e.dist.Legal) (sorted : v.Pairwise (fun a b => a.dist.key ≤ b.dist.key))
    (nodup : (pids v).Nodup) (bound : v.length ≤ degreeBound cfg l) : NbOKB B cfg s pb o l v :=
  ⟨stored, pub, fun e he => Or.inl (noSelf e he), fun e he => Or.inl (dist e he),
    Or.inr fun e he => (legal e he).1, fun e he => Or.inl (legal e he), Or.inr sorted, by
      rw [List.Nodup, pids, List.pairwise_map] at nodup
      exact nodup.imp Or.inl, Or.inr (Nat.le_trans bound (Nat.le_max_left _ _))⟩

theorem GInvB.nbOK {c : CSt T} (h : GInvB B cfg c) {o : Ref T} (ho : Stored c.idx o) (l : Nat) :
    NbOKB B cfg c.idx c.pub o l (c.idx.nb o.pid l) :=
  ⟨h.okB.stored _ _, h.pubLink _ _, h.okB.noSelf _ _, h.ordB o ho l, h.okB.num _ _, h.okB.legal _ _,
    h.okB.sorted _ _, h.okB.nodup _ _, h.okB.bound _ _⟩

theorem setNb_nb (s : Idx T) (p : PointId) (l : Nat) (v : List (PWO T)) (p' : PointId) (l' : Nat) :
    (s.setNb p l v).nb p' l' = if p' = p ∧ l' = l then v else s.nb p' l' := rfl

theorem stored_setNb (s : Idx T) (p : PointId) (l : Nat) (v : List (PWO T)) (o : Ref T) :
    Stored (s.setNb p l v) o ↔ Stored s o := Iff.rfl

theorem GInvB.setNb {c : CSt T} (h : GInvB B cfg c) {o : Ref T} (ho : Stored c.idx o) {l : Nat}
    (hl : l < cfg.maxLayer) {v : List (PWO T)} {held' pub' : List PointId}
    (hpub : c.pub <:+ pub') (hps : ∀ q ∈ pub', ∃ o, Stored c.idx o ∧ o.pid = q)
    (hpe : c.pub = [] → pub' = []) (hv : NbOKB B cfg c.idx pub' o l v) :
    GInvB B cfg ⟨c.idx.setNb o.pid l v, held', pub'⟩ := by
  have hcase : ∀ {p' l'} {Q : List (PWO T) → Prop}, Q v → Q (c.idx.nb p' l') →
      Q ((c.idx.setNb o.pid l v).nb p' l') := by
    intro p' l' Q h1 h2
    rw [setNb_nb]; split
    · exact h1
    · exact h2
  refine ⟨⟨⟨h.okB.tab.len, h.okB.tab.ids⟩, ?_, ?_, ?_, ?_, ?_, ?_, ?_, ?_, ?_, ?_, h.okB.entry⟩, ?_, ?_, hps,
    fun hne => h.pubNe (fun h0 => hne (hpe h0)), ?_⟩
  · intro p' l'
    rw [setNb_nb]
    split
    · rename_i hc; intro _; exact ⟨o, ho, hc.1.symm⟩
    · exact h.okB.owner p' l'
  · intro p' l'
    rw [setNb_nb]
    split
    · rename_i hc; intro _; rw [hc.2]; exact Or.inl hl
    · exact h.okB.lay p' l'
  · intro p' l'
    exact hcase (Q := fun x => ∀ e ∈ x, Stored c.idx e.pt) hv.stored (h.okB.stored p' l')
  · intro p' l'
    rw [setNb_nb]
    split
    · rename_i hc; rw [hc.1, hc.2]; exact hv.noSelf
    · exact h.okB.noSelf p' l'
  · intro o' ho' l'
    rw [setNb_nb]
    split
    · rename_i hc
      rw [h.okB.tab.unique ho' ho hc.1, hc.2]
      exact fun e he => (hv.dist e he).imp DistOrd.dist id
    · exact h.okB.dist o' ho' l'
  · intro p' l'
    rw [setNb_nb]
    split
    · rename_i hc; rw [hc.1, hc.2]; exact hv.num
    · exact h.okB.num p' l'
  · intro p' l'
    rw [setNb_nb]
    split
    · rename_i hc; rw [hc.1, hc.2]; exact hv.legal
    · exact h.okB.legal p' l'
  · intro p' l'
    rw [setNb_nb]
    split
    · rename_i hc; rw [hc.1, hc.2]; exact hv.sorted
    · exact h.okB.sorted p' l'
  · intro p' l'
    rw [setNb_nb]
    split
    · rename_i hc; rw [hc.1, hc.2]; exact hv.nodup
    · exact h.okB.nodup p' l'
  · intro p' l'
    rw [setNb_nb]
    split
    · rename_i hc; rw [hc.1, hc.2]; exact hv.bound
    · exact h.okB.bound p' l'
  · intro p' l'
    exact hcase (Q := fun x => ∀ e ∈ x, e.pt.pid ∈ pub') hv.pub
      (fun e he => hpub.subset (h.pubLink p' l' e he))
  · intro e he
    exact hpub.subset (h.pubEntry e he)
  · intro o' ho' l'
    simp only [setNb_nb]
    split
    · rename_i hc
      rw [h.okB.tab.unique ho' ho hc.1, hc.2]
      exact hv.dist
    · exact fun e he => (h.ordB o' ho' l' e he).imp (fun hd => hd.mono hpub) id

theorem GuarB.setNb {p : PointId} {c : CSt T} (h : GInvB B cfg c) {o : Ref T} (ho : Stored c.idx o)
    {l : Nat} (hl : l < cfg.maxLayer) {v : List (PWO T)} {pub' : List PointId}
    (hpub : c.pub <:+ pub') (hpub' : ∀ q ∈ pub', q = p ∨ q ∈ c.pub)
    (hps : ∃ o, Stored c.idx o ∧ o.pid = p)
    (hop : o.pid = p ∨ (o.pid ∈ c.pub ∧ W l ∧ o.pid ∉ c.held))
    (hmine : ∀ e ∈ v, e ∈ c.idx.nb o.pid l ∨ e.pt.pid = p ∨ Older pub' e.pt.pid o.pid) (hpe : c.pub = [] → pub' = [])
    (hv : NbOKB B cfg c.idx pub' o l v) (him : B.wild o.pid l ∨ Improves (degreeBound cfg l) (c.idx.nb o.pid l) v)
    (hlen : (c.idx.nb o.pid l).length ≤ v.length) :
    GuarB B cfg W p c ⟨c.idx.setNb o.pid l v, c.held, pub'⟩ := by
  refine ⟨h.setNb ho hl hpub ?_ hpe hv, rfl, rfl, hpub, ?_, ?_, ?_⟩
  · intro q hq
    rcases hpub' q hq with rfl | hq
    · exact hps
    · exact h.pubStored q hq
  · intro p' hne
    refine ⟨fun _ h => h, hpub, ?_, ?_, rfl, fun e he => ⟨e, he, Nat.le_refl _⟩, ?_, ?_⟩
    · intro l' hl'
      simp only [setNb_nb]
      rw [if_neg]
      rintro ⟨rfl, rfl⟩
      rcases hop with h | h
      · exact hne h
      · exact hl' h.2.1
    · intro hp'
      refine ⟨fun hq => ?_, fun l' => ?_⟩
      · rcases hpub' _ hq with h | h
        · exact hne h
        · exact hp' h
      · simp only [setNb_nb]
        rw [if_neg]
        rintro ⟨rfl, -⟩
        rcases hop with h | h
        · exact hne h
        · exact hp' h.1
    · intro hp' l'
      simp only [setNb_nb]
      rw [if_neg]
      rintro ⟨rfl, -⟩
      rcases hop with h | h
      · exact hne h
      · exact h.2.2 hp'
    · intro q l' e he hep
      simp only [setNb_nb] at he
      split at he
      · rename_i hc
        obtain ⟨rfl, rfl⟩ := hc
        rcases hmine e he with h | h | h
        · exact Or.inl h
        · exact absurd (hep.symm.trans h) hne
        · exact Or.inr (hep ▸ h)
      · exact Or.inl he
  · intro q l'
    simp only [setNb_nb]
    split
    · rename_i hc
      obtain ⟨rfl, rfl⟩ := hc
      exact him
    · exact Or.inr (.refl _ _)
  · intro q l'
    simp only [setNb_nb]
    split
    · rename_i hc
      obtain ⟨rfl, rfl⟩ := hc
      exact hlen
    · exact Nat.le_refl _

theorem mem_layersDown {hi lo l : Nat} : l ∈ layersDown hi lo ↔ lo ≤ l ∧ l ≤ hi := by
  simp [layersDown, List.mem_range'_1]
  omega

theorem nodup_layersDown (hi lo : Nat) : (layersDown hi lo).Nodup := by
  unfold layersDown
  exact (List.reverse_perm _).nodup_iff.2 List.nodup_range'

/-- descent through the upper layers -/
theorem upperP_safe (L : P.Lawful) {r : Ref T} {fuel : Nat} (hfu : N + 1 ≤ fuel) :
    ∀ (ls : List Nat) (f₀ : Nat → List (PWO T)) (ep : Ref T) (d : F32) (s : CSt T),
    EInvB B cfg N D s → Fresh r f₀ s →
    Known r.pid s ep → ls.Nodup → (∀ l ∈ ls, 0 < l ∧ l < cfg.maxLayer ∧ f₀ l = []) →
    SafeB B cfg N D W r.pid
      (fun ep' s => (∃ f, Fresh r f s ∧ ∀ l, l ∉ ls → f l = f₀ l) ∧ Known r.pid s ep')
      (upperP P cfg fuel r ls ep d) s := by
  intro ls
  induction ls with
  | nil =>
    intro f₀ ep d s hi hf hep _ _ s' hi' hr
    exact ⟨⟨_, hf.rel hr, fun _ _ => rfl⟩, hep.rel hr⟩
  | cons l ls ih =>
    intro f₀ ep d s hi hf hep hnd hls
    obtain ⟨hl0, hlm, hlnil⟩ := hls l (by simp)
    have hnd' := List.nodup_cons.1 hnd
    simp only [upperP]
    apply SafeB.bind ?_ hi (SafeB.frame (Grow.refl s)
      (searchLayerP_safe (f₀ := f₀) (ef := 1) L hfu hlm hi hf hep))
    rintro h s1 hi1 ⟨⟨hf1, hres, hone⟩, hgr⟩
    have hlegal := hone (Nat.le_refl 1)
    have hlen := hres.len
    rw [if_neg (by simp at hlen; omega)]
    have hep1 := hep.grow hgr
    have hls' : ∀ l' ∈ ls, 0 < l' ∧ l' < cfg.maxLayer ∧ f₀ l' = [] :=
      fun l' hl' => hls l' (List.mem_cons_of_mem _ hl')
    cases hp : P.pop h with
    | none =>
      exact (ih f₀ ep d s1 hi1 hf1 hep1 hnd'.2 hls').mono fun _ _ _ h =>
        ⟨h.1.imp fun f hf => ⟨hf.1, fun l' hl' => hf.2 l' fun hm => hl' (List.mem_cons_of_mem _ hm)⟩, h.2⟩
    | some z =>
      obtain ⟨e, h'⟩ := z
      have hem : e ∈ P.items h := (L.mem_pop hp).2 (Or.inl rfl)
      have hnext : ∀ (f : Nat → List (PWO T)) (s2 : CSt T), EInvB B cfg N D s2 → Fresh r f s2 →
          Known r.pid s2 ep → Known r.pid s2 e.pt → (∀ l' ∈ ls, f l' = []) →
          (∀ l', l' ≠ l → f l' = f₀ l') →
          SafeB B cfg N D W r.pid
            (fun ep' s => (∃ f, Fresh r f s ∧ ∀ l', l' ∉ l :: ls → f l' = f₀ l') ∧ Known r.pid s ep')
            (if (cfg.eval r.data e.pt.data).lt d = true then
              upperP P cfg fuel r ls e.pt (cfg.eval r.data e.pt.data)
            else upperP P cfg fuel r ls ep d) s2 := by
        intro f s2 hi2 hf2 hk2 hk2' hfn hfo
        have hout : ∀ (x : Ref T) (s : CSt T), EInvB B cfg N D s →
            ((∃ f', Fresh r f' s ∧ ∀ l', l' ∉ ls → f' l' = f l') ∧ Known r.pid s x) →
            ((∃ f', Fresh r f' s ∧ ∀ l', l' ∉ l :: ls → f' l' = f₀ l') ∧ Known r.pid s x) :=
          fun _ _ _ h => ⟨h.1.imp fun f' hf' => ⟨hf'.1, fun l' hl' => by
            rw [List.mem_cons, not_or] at hl'
            rw [hf'.2 l' hl'.2, hfo l' hl'.1]⟩, h.2⟩
        have hx : ∀ l' ∈ ls, 0 < l' ∧ l' < cfg.maxLayer ∧ f l' = [] :=
          fun l' hl' => ⟨(hls' l' hl').1, (hls' l' hl').2.1, hfn l' hl'⟩
        split
        · exact (ih f _ _ s2 hi2 hf2 hk2' hnd'.2 hx).mono hout
        · exact (ih f _ _ s2 hi2 hf2 hk2 hnd'.2 hx).mono hout
      simp only
      apply SafeB.read
      intro s2 hi2 hr2
      have hf2 := hf1.rel hr2
      have hk2 := hep1.rel hr2
      have hk2' := (hres.inK e hem).rel hr2
      have hfn : ∀ l' ∈ ls, f₀ l' = [] := fun l' hl' => (hls' l' hl').2.2
      by_cases hlt : (s2.idx.nb r.pid l).length < cfg.maxNbU8
      · rw [if_pos hlt]
        intro s3 hi3 hr3
        have hf3 := hf2.rel hr3
        have hk3 := hk2.rel hr3
        have hk3' := hk2'.rel hr3
        refine ⟨?_, fun _ => ?_⟩
        · left
          simp only [decide_eq_true_eq]
          exact List.count_eq_zero.1 hf3.held
        · have hnil : s3.idx.nb r.pid l = [] := by rw [hf3.nb, hlnil]
          have hG : GuarB B cfg W r.pid s3
              { s3 with idx := s3.idx.setNb r.pid l (s3.idx.nb r.pid l ++ [e]) } := by
            have hone : [e].length ≤ degreeBound cfg l := by
              have : cfg.maxNbU8 ≤ cfg.maxNb := Nat.mod_le _ _
              simp [degreeBound, Nat.pos_iff_ne_zero.1 hl0]
              omega
            apply GuarB.setNb hi3.inv hf3.stored hlm (List.suffix_refl _) (fun _ h => Or.inr h)
              ⟨r, hf3.stored, rfl⟩ (Or.inl rfl) ?_ id
            rotate_left 3
            · rw [hnil]
              intro e' he'
              rw [List.mem_singleton.1 he']
              exact Or.inr (Or.inr (Older.of_new hk3'.2.1 hf3.priv))
            rotate_left
            · rw [hnil]
              exact Or.inr (.of_nil hone)
            · rw [hnil]; simp
            rw [hnil]
            refine .mk' ?_ ?_ ?_ ?_ ?_ ?_ ?_ hone
            · simpa using hk3'.1
            · simpa using hk3'.2.1
            · simpa using hk3'.2.2
            · intro e' he'
              rw [List.mem_singleton.1 he']
              exact Or.inl ⟨Older.of_new hk3'.2.1 hf3.priv, hres.dist e hem⟩
            · simpa using hlegal e hem
            · simp
            · simp [pids]
          refine ⟨hG, ?_⟩
          apply hnext (fun l' => if l' = l then [e] else f₀ l') _ (hi3.step hG)
          · refine ⟨hf3.stored, hf3.priv, hf3.held, ?_⟩
            intro l'
            simp only [setNb_nb, hnil, true_and, List.nil_append]
            split
            · rfl
            · exact hf3.nb l'
          · exact hk3
          · exact hk3'
          · intro l' hl'
            rw [if_neg (by rintro rfl; exact hnd'.1 hl')]
            exact hfn l' hl'
          · intro l' hl'
            exact if_neg hl'
      · rw [if_neg hlt]
        exact hnext f₀ s2 hi2 hf2 hk2 hk2' hfn (fun _ _ => rfl)

/-- linking in the point's own layers -/
theorem lowerP_safe (L : P.Lawful) {r : Ref T} {fuel : Nat} (hfu : N + 1 ≤ fuel) :
    ∀ (ls : List Nat) (f₀ : Nat → List (PWO T)) (ep : Ref T) (s : CSt T),
    EInvB B cfg N D s → Fresh r f₀ s → Known r.pid s ep → ls.Nodup →
    (∀ l ∈ ls, l < cfg.maxLayer ∧ f₀ l = []) →
    SafeB B cfg N D W r.pid (fun _ s => ∃ f, Fresh r f s) (lowerP P cfg fuel r ls ep) s := by
  intro ls
  induction ls with
  | nil =>
    intro f₀ ep s hi hf hep _ _ s' hi' hr
    exact ⟨_, hf.rel hr⟩
  | cons l ls ih =>
    intro f₀ ep s hi hf hep hnd hls
    obtain ⟨hlm, hlnil⟩ := hls l (by simp)
    have hnd' := List.nodup_cons.1 hnd
    have hls' : ∀ l' ∈ ls, l' < cfg.maxLayer ∧ f₀ l' = [] :=
      fun l' hl' => hls l' (List.mem_cons_of_mem _ hl')
    simp only [lowerP]
    apply SafeB.bind ?_ hi (SafeB.frame (Grow.refl s)
      (searchLayerP_safe (f₀ := f₀) (ef := cfg.efC) L hfu hlm hi hf hep))
    rintro h s1 hi1 ⟨⟨hf1, hres, -⟩, hgr⟩
    have hep1 := hep.grow hgr
    apply SafeB.ofExcept
    · intro e he
      refine ⟨fromPositive_err he, Or.inl fun hl => ?_, hf1.held, hep1.pubNe, Or.inl hf1.priv⟩
      obtain ⟨nh, hnh, -⟩ := fromPositive_ok L (P.items h) P.empty
        (fun x hx => by
          rw [hres.dist x hx]
          exact hl _ _ (hi1.data _ hf1.stored) (hi1.data _ (hres.inK x hx).1)) L.built_empty
      rw [hnh] at he
      cases he
    intro nh hnh0
    have hlegal := fromPositive_legal _ _ _ hnh0
    obtain ⟨nh', hnh, hperm, hBn⟩ := fromPositive_ok L (P.items h) P.empty hlegal L.built_empty
    rw [hnh0] at hnh
    cases hnh
    rw [L.items_empty, List.append_nil] at hperm
    by_cases hne : P.items nh = []
    · rw [if_pos hne]
      exact ih f₀ ep s1 hi1 hf1 hep1 hnd'.2 hls'
    · rw [if_neg hne]
      have hc : CandOK P cfg r s1 nh := by
        refine ⟨?_, ?_, ?_⟩
        · intro x hx
          obtain ⟨y, hy, rfl⟩ := List.mem_map.1 (hperm.mem_iff.1 hx)
          exact hres.inK y hy
        · intro x hx
          obtain ⟨y, hy, rfl⟩ := List.mem_map.1 (hperm.mem_iff.1 hx)
          simp [hres.dist y hy]
        · have h3 := hperm.map (fun x : PWO T => x.pt.pid)
          rw [h3.nodup_iff]
          show (pids ((P.items h).map PWO.flip)).Nodup
          rw [pids_flip]
          exact hres.nd
      have hleg : ∀ x ∈ P.items nh, x.dist.neg.Legal := by
        intro x hx
        obtain ⟨y, hy, rfl⟩ := List.mem_map.1 (hperm.mem_iff.1 hx)
        simpa using hlegal y hy
      apply SafeB.bind ?_ hi1 (SafeB.frame (Grow.refl s1) (selectP_safe L hi1 hf1 hep1.pubNe hc hleg hBn))
      rintro v s2 hi2 ⟨⟨hf2, hv⟩, hgr2⟩
      have hep2 := hep1.grow hgr2
      rw [L.sortC_legal (fun y hy => (hv.legal y hy).1)]
      simp only [Prog.ofExcept]
      have hsp := L.sort_perm v
      have hmem : ∀ y, y ∈ P.sort v ↔ y ∈ v := fun y => hsp.mem_iff
      intro s3 hi3 hr3
      have hf3 := hf2.rel hr3
      have hv3 := hv.rel hr3
      refine ⟨?_, fun _ => ?_⟩
      · left
        simp only [decide_eq_true_eq]
        exact List.count_eq_zero.1 hf3.held
      · have hG : GuarB B cfg W r.pid s3 { s3 with idx := s3.idx.setNb r.pid l (P.sort v) } := by
          apply GuarB.setNb hi3.inv hf3.stored hlm (List.suffix_refl _) (fun _ h => Or.inr h)
            ⟨r, hf3.stored, rfl⟩ (Or.inl rfl) ?_ id
          rotate_left 3
          · intro e he
            exact Or.inr (Or.inr (Older.of_new (hv3.known e ((hmem e).1 he)).2.1 hf3.priv))
          rotate_left
          · rw [hf3.nb, hlnil]
            exact Or.inr (.of_nil (by rw [hsp.length_eq]; exact hv3.len))
          · rw [hf3.nb, hlnil]; simp
          refine .mk' ?_ ?_ ?_ ?_ ?_ (L.sort_sorted v (fun y hy => (hv.legal y hy).1)) ?_ ?_
          · intro e he; exact (hv3.known e ((hmem e).1 he)).1
          · intro e he; exact (hv3.known e ((hmem e).1 he)).2.1
          · intro e he; exact (hv3.known e ((hmem e).1 he)).2.2
          · intro e he
            exact Or.inl ⟨Older.of_new (hv3.known e ((hmem e).1 he)).2.1 hf3.priv,
              hv3.dist e ((hmem e).1 he)⟩
          · intro e he; exact hv3.legal e ((hmem e).1 he)
          · exact (hsp.map (fun x : PWO T => x.pt.pid)).nodup_iff.2 hv3.nd
          · rw [hsp.length_eq]; exact hv3.len
        refine ⟨hG, ?_⟩
        have hi4 := hi3.step hG
        have hf4 : Fresh r (fun l' => if l' = l then P.sort v else f₀ l')
            { s3 with idx := s3.idx.setNb r.pid l (P.sort v) } := by
          refine ⟨hf3.stored, hf3.priv, hf3.held, ?_⟩
          intro l'
          simp only [setNb_nb, true_and]
          split
          · rfl
          · exact hf3.nb l'
        have hls4 : ∀ l' ∈ ls, l' < cfg.maxLayer ∧ (if l' = l then P.sort v else f₀ l') = [] := by
          intro l' hl'
          rw [if_neg (by rintro rfl; exact hnd'.1 hl')]
          exact hls' l' hl'
        cases hs : P.sort v with
        | nil =>
          simp only [hs] at hi4 hf4 hls4 ⊢
          exact ih _ ep _ hi4 hf4 (hep2.rel hr3) hnd'.2 hls4
        | cons n ns =>
          have hn : Known r.pid s3 n.pt := hv3.known n ((hmem n).1 (by rw [hs]; simp))
          simp only [hs] at hi4 hf4 hls4 ⊢
          exact ih _ n.pt _ hi4 hf4 hn hnd'.2 hls4

/-! ## Reverse links -/

theorem NbOKB.pubMono {s : Idx T} {pub pub' : List PointId} {o : Ref T} {l : Nat}
    {v : List (PWO T)} (h : NbOKB B cfg s pub o l v) (hp : pub <:+ pub') :
    NbOKB B cfg s pub' o l v :=
  ⟨h.stored, fun e he => hp.subset (h.pub e he), h.noSelf,
    fun e he => (h.dist e he).imp (fun hd => hd.mono hp) id, h.num, h.legal, h.sorted, h.nodup, h.bound⟩

/-- a link of `r` that is going to be reversed -/
structure RevOK (cfg : Cfg T) (r : Ref T) (s : CSt T) (q : PWO T) : Prop where
  stored : Stored s.idx q.pt
  pub : q.pt.pid ∈ s.pub
  ne : q.pt.pid ≠ r.pid
  dist : DistOrd cfg s.pub r q
  legal : q.dist.Legal

theorem RevOK.grow {r : Ref T} {s s' : CSt T} {q : PWO T} (h : RevOK cfg r s q) (hg : Grow s s') :
    RevOK cfg r s' q :=
  ⟨hg.stored _ h.stored, hg.pub.subset h.pub, h.ne, h.dist.mono hg.pub, h.legal⟩

theorem RevOK.rel {r : Ref T} {s s' : CSt T} {q : PWO T} (h : RevOK cfg r s q)
    (hg : Rel W r.pid s s') : RevOK cfg r s' q :=
  ⟨hg.stored _ h.stored, hg.pub.subset h.pub, h.ne, h.dist.mono hg.pub, h.legal⟩

theorem revList_ok (L : P.Lawful) {r : Ref T} {s : CSt T} {q : PWO T} {old : List (PWO T)}
    (hr : Stored s.idx r) (hq : RevOK cfg r s q)
    (ho : NbOKB B cfg s.idx s.pub q.pt r.pid.layer old) :
    NbOKB B cfg s.idx (r.pid :: s.pub) q.pt r.pid.layer (revList P cfg r q old).1 ∧
      (∀ e, (revList P cfg r q old).2 = some e → e ≠ .fuel ∧ B.wild q.pt.pid r.pid.layer) ∧
      (B.wild q.pt.pid r.pid.layer ∨
        Improves (degreeBound cfg r.pid.layer) old (revList P cfg r q old).1) := by
  have ho' := ho.pubMono (pub' := r.pid :: s.pub) (List.suffix_cons _ _)
  unfold revList
  split
  · exact ⟨ho', (fun e he => nomatch he), Or.inr (.refl _ _)⟩
  · rename_i hany
    have hany : ∀ o ∈ old, o.pt.pid ≠ r.pid := by simpa using hany
    simp only
    have hleg : B.wild q.pt.pid r.pid.layer ∨ ∀ y ∈ old ++ [(⟨r, q.dist⟩ : PWO T)], y.dist.isNaN = false := by
      refine ho.num.imp id fun hn y hy => ?_
      rcases List.mem_append.1 hy with hy | hy
      · exact hn y hy
      · rw [List.mem_singleton.1 hy]; exact hq.legal.1
    have hthr : (if 0 < r.pid.layer then cfg.maxNb else 2 * cfg.maxNb) =
        degreeBound cfg r.pid.layer := by
      unfold degreeBound
      by_cases h0 : r.pid.layer = 0
      · simp [h0]
      · simp [h0, Nat.pos_of_ne_zero h0]
    have hsl := (L.sort_perm (old ++ [(⟨r, q.dist⟩ : PWO T)])).length_eq
    have him : B.wild q.pt.pid r.pid.layer ∨ Improves (degreeBound cfg r.pid.layer) old
        (if degreeBound cfg r.pid.layer < (old ++ [(⟨r, q.dist⟩ : PWO T)]).length then
          (P.sort (old ++ [(⟨r, q.dist⟩ : PWO T)])).dropLast else P.sort (old ++ [(⟨r, q.dist⟩ : PWO T)])) := by
      rcases hleg with hw | hleg
      · exact Or.inl hw
      · rcases ho.sorted with hw | hso
        · exact Or.inl hw
        · right
          rw [← hsl]
          exact .push hso (L.sort_sorted _ hleg) (L.sort_perm _)
    rw [hthr]
    have hsc : B.wild q.pt.pid r.pid.layer ∨ P.sortC (old ++ [(⟨r, q.dist⟩ : PWO T)]) =
        .ok (P.sort (old ++ [(⟨r, q.dist⟩ : PWO T)])) := hleg.imp id L.sortC_legal
    generalize hv : old ++ [(⟨r, q.dist⟩ : PWO T)] = v at hleg hsl him hsc ⊢
    have hsp := L.sort_perm v
    have hvl : v.length = old.length + 1 := by rw [← hv]; simp
    have hmem : ∀ y, y ∈ P.sort v ↔ y ∈ old ∨ y = ⟨r, q.dist⟩ := by
      intro y; rw [hsp.mem_iff, ← hv]; simp
    have hbig : ∀ w : List (PWO T), w.Sublist (P.sort v) →
        (B.wild q.pt.pid r.pid.layer ∨ w.length ≤ max (degreeBound cfg r.pid.layer) (B.len q.pt.pid r.pid.layer)) →
        NbOKB B cfg s.idx (r.pid :: s.pub) q.pt r.pid.layer w := by
      intro w hw hwl
      have hm : ∀ y ∈ w, y ∈ old ∨ y = ⟨r, q.dist⟩ := fun y hy => (hmem y).1 (hw.subset hy)
      refine ⟨?_, ?_, ?_, ?_, ?_, ?_, hleg.imp id fun hl => (L.sort_sorted v hl).sublist hw, ?_, hwl⟩
      · intro e he
        rcases hm e he with h | rfl
        · exact ho.stored e h
        · exact hr
      · intro e he
        rcases hm e he with h | rfl
        · exact ho'.pub e h
        · simp
      · intro e he
        rcases hm e he with h | rfl
        · exact ho.noSelf e h
        · exact Or.inl fun h => hq.ne h.symm
      · intro e he
        rcases hm e he with h | rfl
        · exact ho'.dist e h
        · exact Or.inl (hq.dist.mono (List.suffix_cons _ _)).symm
      · exact hleg.imp id fun hl e he => hl e (hsp.mem_iff.1 (hw.subset he))
      · intro e he
        rcases hm e he with h | rfl
        · exact ho.legal e h
        · exact Or.inl hq.legal
      · have h1 : (P.sort v).Pairwise (fun a b => a.pt.pid ≠ b.pt.pid ∨
            B.link q.pt.pid r.pid.layer a ∧ B.link q.pt.pid r.pid.layer b) := by
          rw [hsp.pairwise_iff (fun hx => hx.imp Ne.symm And.symm), ← hv, List.pairwise_append]
          refine ⟨ho.nodup, by simp, ?_⟩
          intro a ha b hb
          rw [List.mem_singleton.1 hb]
          exact Or.inl (hany a ha)
        exact h1.sublist hw
    have hb := ho.bound
    cases hs : P.sortC v with
    | error e =>
      have hw : B.wild q.pt.pid r.pid.layer := hsc.resolve_right fun h => by rw [hs] at h; cases h
      refine ⟨hbig _ (List.Sublist.refl _) (Or.inl hw), fun e' he' => ⟨?_, hw⟩, Or.inl hw⟩
      cases he'
      exact Policy.sortC_err hs
    | ok u =>
      obtain rfl := Policy.sortC_ok hs
      refine ⟨?_, (fun e he => nomatch he), him⟩
      simp only
      split
      · apply hbig _ (List.dropLast_sublist _)
        refine hb.imp id fun hb => ?_
        rw [List.length_dropLast, hsp.length_eq]
        omega
      · apply hbig _ (List.Sublist.refl _)
        refine hb.imp id fun hb => ?_
        rw [hsp.length_eq]
        omega

theorem GuarB.held {p : PointId} {s : CSt T} (h : GInvB B cfg s) {held' : List PointId}
    (hh : ∀ p', p' ≠ p → held'.count p' = s.held.count p') :
    GuarB B cfg W p s { s with held := held' } :=
  ⟨⟨h.okB, h.pubLink, h.pubEntry, h.pubStored, h.pubNe, h.ordB⟩, rfl, rfl, List.suffix_refl _,
    fun p' hne => ⟨fun _ h => h, List.suffix_refl _, fun _ _ => rfl, fun h => ⟨h, fun _ => rfl⟩,
      hh p' hne, fun e he => ⟨e, he, Nat.le_refl _⟩, fun _ _ => rfl, fun _ _ _ h _ => Or.inl h⟩,
    fun _ _ => Or.inr (.refl _ _), fun _ _ => Nat.le_refl _⟩

theorem release_guar {p : PointId} {s : CSt T} (h : GInvB B cfg s) : GuarB B cfg W p s (release p s) := by
  apply GuarB.held h
  intro p' hne
  exact List.count_erase_of_ne hne

/-- no layer where others may add reverse links is below the level of `r` -/
abbrev Uniform (W : Nat → Prop) (r : Ref T) : Prop := ∀ l, W l → r.pid.layer ≤ l

/-- what a reverse link adds to a list -/
theorem revList_new {r : Ref T} {q : PWO T} {old : List (PWO T)} (L : P.Lawful) :
    ∀ e ∈ (revList P cfg r q old).1, e ∈ old ∨ e.pt.pid = r.pid := by
  unfold revList
  split
  · exact fun e he => Or.inl he
  · have hnew : ∀ e ∈ old ++ [(⟨r, q.dist⟩ : PWO T)], e ∈ old ∨ e.pt.pid = r.pid := by
      intro e he
      rcases List.mem_append.1 he with h | h
      · exact Or.inl h
      · rw [List.mem_singleton.1 h]; exact Or.inr rfl
    simp only
    intro e he
    cases hs : P.sortC (old ++ [(⟨r, q.dist⟩ : PWO T)]) with
    | error x => rw [hs] at he; exact hnew e ((L.sort_perm _).mem_iff.1 he)
    | ok v =>
      rw [hs] at he
      obtain rfl := Policy.sortC_ok hs
      apply hnew e ((L.sort_perm _).mem_iff.1 _)
      simp only at he
      generalize (if 0 < r.pid.layer then cfg.maxNb else 2 * cfg.maxNb) = thr at he
      split at he
      · exact List.dropLast_subset _ he
      · exact he

/-- a list does not get shorter -/
theorem revList_len {r : Ref T} {q : PWO T} {old : List (PWO T)} (L : P.Lawful) :
    old.length ≤ (revList P cfg r q old).1.length := by
  unfold revList
  split
  · exact Nat.le_refl _
  · have hsl := (L.sort_perm (old ++ [(⟨r, q.dist⟩ : PWO T)])).length_eq
    rw [List.length_append, List.length_singleton] at hsl
    simp only
    cases hs : P.sortC (old ++ [(⟨r, q.dist⟩ : PWO T)]) with
    | error x => simp only; omega
    | ok v =>
      obtain rfl := Policy.sortC_ok hs
      simp only
      generalize (if 0 < r.pid.layer then cfg.maxNb else 2 * cfg.maxNb) = thr
      split
      · rw [List.length_dropLast]; omega
      · omega

/-- while the links of a point of level 0 are reversed, its remaining neighbours have it in no list
unless it became visible before them -/
def RevLow (r : Ref T) (qs : List (PWO T)) (s : CSt T) : Prop :=
  (∀ q ∈ qs, ∃ l, q ∈ s.idx.nb r.pid l) ∧ (qs.map (·.pt.pid)).Nodup ∧
  (r.pid.layer = 0 → ∀ q ∈ qs, ∀ l, ∀ e ∈ s.idx.nb q.pt.pid l, e.pt.pid = r.pid →
    Older s.pub r.pid q.pt.pid)

theorem RevLow.rel {r : Ref T} {qs : List (PWO T)} {s s' : CSt T} (h : RevLow r qs s)
    (hh : s.held.count r.pid = 1) (hr : Rel W r.pid s s') : RevLow r qs s' := by
  refine ⟨fun q hq => ?_, h.2.1, fun h0 q hq l e he hep => ?_⟩
  · obtain ⟨l, hl⟩ := h.1 q hq
    exact ⟨l, by rwa [hr.frozen (List.count_pos_iff.1 (by omega)) l]⟩
  · rcases hr.mine _ _ e he hep with h1 | h1
    · exact (h.2.2 h0 q hq l e h1 hep).mono hr.pub
    · exact h1

/-- the lists of `r` that remain to be reversed hold points that became visible before `r` -/
def RevReady (W : Nat → Prop) (r : Ref T) (rest : List Nat) (s : CSt T) : Prop :=
  Uniform W r → (∀ l ∈ rest, l < r.pid.layer) ∧
    (r.pid ∉ s.pub ∨ ∀ l ∈ rest, ∀ e ∈ s.idx.nb r.pid l, Older s.pub e.pt.pid r.pid)

theorem RevReady.rel {r : Ref T} {rest : List Nat} {s s' : CSt T} (h : RevReady W r rest s)
    (hr : Rel W r.pid s s') : RevReady W r rest s' := by
  intro hu
  obtain ⟨h1, h2⟩ := h hu
  refine ⟨h1, ?_⟩
  rcases h2 with h2 | h2
  · exact Or.inl (hr.priv h2).1
  · right
    intro l hl e he
    rw [hr.wr l (fun hW => by have := hu l hW; have := h1 l hl; omega)] at he
    exact (h2 l hl e he).mono hr.pub

theorem revInner_safe (L : P.Lawful) {r : Ref T} {k : Prog (CSt T) Unit} {rest : List Nat}
    {Q : Unit → CSt T → Prop} (hW : W r.pid.layer)
    (hk : ∀ s, EInvB B cfg N D s → Stored s.idx r → s.held.count r.pid = 0 → RevReady W r rest s →
      SafeB B cfg N D W r.pid Q k s) :
    ∀ (qs : List (PWO T)) (s : CSt T), Stored s.idx r → s.held.count r.pid = 1 →
      (∀ q ∈ qs, RevOK cfg r s q) → (Uniform W r → ∀ q ∈ qs, Older s.pub q.pt.pid r.pid) →
      RevLow r qs s → RevReady W r rest s →
      SafeB B cfg N D W r.pid Q (revInner P cfg r k qs) s := by
  intro qs
  induction qs with
  | nil =>
    intro s hst hh _ _ _ hrr s' hi' hr
    refine ⟨Or.inl rfl, fun _ => ?_⟩
    have hG := release_guar (W := W) (p := r.pid) hi'.inv
    have hrr' := hrr.rel hr
    refine ⟨hG, hk _ (hi'.step hG) (hr.stored _ hst) ?_ hrr'⟩
    have := hr.held
    rw [hh] at this
    simp [release, List.count_erase_self, this]
  | cons q qs ih =>
    intro s hst hh hqs hold hlow hrr
    have hq := hqs q (by simp)
    simp only [revInner]
    rw [if_neg (fun h => hq.ne h.symm)]
    intro s' hi' hr
    have hst' := hr.stored _ hst
    have hq' := hq.rel hr
    have hrr' := hrr.rel hr
    have hlow' := hlow.rel hh hr
    have hlm : r.pid.layer < cfg.maxLayer := hi'.inv.okB.tab.layer_lt hst'
    obtain ⟨h1, h2, h3⟩ := revList_ok L hst' hq' (hi'.inv.nbOK hq'.stored r.pid.layer)
    refine ⟨?_, fun hgd => ?_⟩
    · by_cases hheld : q.pt.pid ∈ s'.held
      · obtain ⟨l, hl⟩ := hlow'.1 q (by simp)
        exact Or.inr ⟨q.pt.pid, hheld, hq.ne, fun hu => (hold hu q (by simp)).mono hr.pub,
          ⟨l, q, hl, rfl⟩, fun h0 => hlow'.2.2 h0 q (by simp)⟩
      · left
        simp only [decide_eq_true_eq]
        exact hheld
    · have hG : GuarB B cfg W r.pid s' { s' with
            idx := s'.idx.setNb q.pt.pid r.pid.layer
              (revList P cfg r q (s'.idx.nb q.pt.pid r.pid.layer)).1,
            pub := r.pid :: s'.pub } := by
        apply GuarB.setNb hi'.inv hq'.stored hlm (List.suffix_cons _ _)
          (fun _ h => List.mem_cons.1 h) ⟨r, hst', rfl⟩ (Or.inr ⟨hq'.pub, hW, of_decide_eq_true hgd⟩)
          (fun e he => (revList_new L e he).imp id Or.inl) (fun h0 => absurd hq'.pub (by rw [h0]; simp)) h1 h3
          (revList_len L)
      refine ⟨hG, ?_⟩
      cases h4 : (revList P cfg r q (s'.idx.nb q.pt.pid r.pid.layer)).2 with
      | some e =>
        obtain ⟨h5, h6⟩ := h2 e h4
        simp only [h4]
        intro s2 hi2 hr2
        refine ⟨Or.inl rfl, fun _ => ⟨release_guar hi2.inv, h5, Or.inr ⟨_, _, h6⟩, ?_,
          hr2.pubNe (by simp), Or.inr ⟨_, _, h6⟩⟩⟩
        have := hr2.held
        simp only [hr.held, hh] at this
        simp [release, List.count_erase_self, this]
      | none =>
      simp only [h4]
      apply ih
      · exact hst'
      · exact hr.held.trans hh
      · intro q' hq''
        exact ((hqs q' (List.mem_cons_of_mem _ hq'')).rel hr).grow
          ⟨fun _ h => h, List.suffix_cons _ _⟩
      · intro hu q' hq''
        exact ((hold hu q' (List.mem_cons_of_mem _ hq'')).mono hr.pub).mono (List.suffix_cons _ _)
      · obtain ⟨i1, i2, i3⟩ := hlow'
        rw [List.map_cons, List.nodup_cons] at i2
        refine ⟨fun q' hq'' => ?_, i2.2, fun h0 q' hq'' l e he hep => ?_⟩
        · obtain ⟨l, hl⟩ := i1 q' (List.mem_cons_of_mem _ hq'')
          refine ⟨l, ?_⟩
          rw [setNb_nb, if_neg (fun h => hq.ne h.1.symm)]
          exact hl
        · simp only at he
          have hne : ¬ (q'.pt.pid = q.pt.pid ∧ l = r.pid.layer) := fun h =>
            i2.1 (h.1 ▸ List.mem_map_of_mem (f := fun x : PWO T => x.pt.pid) hq'')
          rw [setNb_nb, if_neg hne] at he
          exact (i3 h0 q' (List.mem_cons_of_mem _ hq'') l e he hep).mono (List.suffix_cons _ _)
      · intro hu
        obtain ⟨i1, i2⟩ := hrr' hu
        refine ⟨i1, Or.inr ?_⟩
        intro l hl e he
        simp only at he
        rw [setNb_nb, if_neg (fun h => hq.ne h.1.symm)] at he
        refine Older.mono ?_ (List.suffix_cons _ _)
        rcases i2 with i2 | i2
        · exact Older.of_new (hi'.inv.pubLink _ _ e he) i2
        · exact i2 l hl e he

theorem reverseP_safe (L : P.Lawful) {r : Ref T} (hB : ∀ l e, ¬ B.link r.pid l e)
    {k : Prog (CSt T) Unit} {Q : Unit → CSt T → Prop} (hW : W r.pid.layer)
    (hk : ∀ s, EInvB B cfg N D s → Stored s.idx r → s.held.count r.pid = 0 →
      SafeB B cfg N D W r.pid Q k s) :
    ∀ (ls : List Nat) (s : CSt T), ls.Pairwise (fun a b => b < a) → (∀ l ∈ ls, l ≤ r.pid.layer) →
      EInvB B cfg N D s → Stored s.idx r → s.held.count r.pid = 0 →
      (RevReady W r ls s ∨ r.pid ∉ s.pub) →
      SafeB B cfg N D W r.pid Q (reverseP P cfg r k ls) s := by
  intro ls
  induction ls with
  | nil => intro s _ _ hi hst hh _; exact hk s hi hst hh
  | cons l ls ih =>
    intro s hdec hle hi hst hh hrr s' hi' hr
    obtain ⟨hd1, hd2⟩ := List.pairwise_cons.1 hdec
    have hlt : ∀ l' ∈ ls, l' < r.pid.layer := by
      intro l' hl'
      have := hd1 l' hl'
      have := hle l (by simp)
      omega
    have hrr' : RevReady W r (l :: ls) s' ∨ r.pid ∉ s'.pub := by
      rcases hrr with h | h
      · exact Or.inl (h.rel hr)
      · exact Or.inr (hr.priv h).1
    refine ⟨Or.inl rfl, fun _ => ?_⟩
    have hst' := hr.stored _ hst
    refine ⟨?_, ?_⟩
    · apply GuarB.held hi'.inv
      intro p' hne
      rw [List.count_cons_of_ne (Ne.symm hne)]
    · apply revInner_safe (rest := ls) L hW (fun s hi hst hh hrr => ih s hd2
        (fun l' hl' => Nat.le_of_lt (hlt l' hl')) hi hst hh (Or.inl hrr))
      · exact hst'
      · simp [hr.held, hh]
      · intro q hq
        refine ⟨hi'.inv.okB.stored _ _ q hq, hi'.inv.pubLink _ _ q hq,
          (hi'.inv.okB.noSelf _ _ q hq).resolve_right (hB _ _),
          (hi'.inv.ordB _ hst' _ q hq).resolve_right (hB _ _),
          (hi'.inv.okB.legal _ _ q hq).resolve_right (hB _ _)⟩
      · intro hu q hq
        have hqp := hi'.inv.pubLink _ _ q hq
        rcases hrr' with h | h
        · rcases (h hu).2 with h | h
          · exact Older.of_new hqp h
          · exact h l (by simp) q hq
        · exact Older.of_new hqp h
      · refine ⟨fun q hq => ⟨l, hq⟩, ?_, fun h0 q hq l' e he hep => ?_⟩
        · exact List.pairwise_map.2 ((hi'.inv.okB.nodup r.pid l).imp
            fun h => h.resolve_right fun h' => hB _ _ h'.1)
        · have hnp : r.pid ∉ s'.pub := by
            rcases hrr' with h | h
            · have := (h (fun l _ => by omega)).1 l (by simp)
              omega
            · exact h
          exact absurd (hep ▸ hi'.inv.pubLink _ _ e he) hnp
      · intro hu
        refine ⟨hlt, ?_⟩
        rcases hrr' with h | h
        · rcases (h hu).2 with h | h
          · exact Or.inl h
          · exact Or.inr (fun l' hl' => h l' (List.mem_cons_of_mem _ hl'))
        · exact Or.inl h

theorem layersDown_dec (hi lo : Nat) : (layersDown hi lo).Pairwise (fun a b => b < a) := by
  unfold layersDown
  rw [List.pairwise_reverse]
  exact List.pairwise_lt_range'

theorem checkEntry_entry (p : Ref T) (s : CSt T) :
    ∃ e, (checkEntry p s).idx.entry = some e ∧ p.pid.layer ≤ e.pid.layer ∧
      (e = p ∨ s.idx.entry = some e) := by
  unfold checkEntry
  simp only
  split
  · exact ⟨p, rfl, Nat.le_refl _, Or.inl rfl⟩
  · rename_i e he
    split
    · exact ⟨p, rfl, Nat.le_refl _, Or.inl rfl⟩
    · exact ⟨e, rfl, by omega, Or.inr he⟩

theorem checkEntry_guar {p : Ref T} {s : CSt T} (h : GInvB B cfg s) (hp : Stored s.idx p) :
    GuarB B cfg W p.pid s (checkEntry p s) := by
  obtain ⟨e, he, hle, hor⟩ := checkEntry_entry p s
  refine ⟨⟨⟨⟨h.okB.tab.len, h.okB.tab.ids⟩, h.okB.owner, h.okB.lay, h.okB.stored, h.okB.noSelf, h.okB.dist,
    h.okB.num, h.okB.legal, h.okB.sorted, h.okB.nodup, h.okB.bound, ?_⟩, ?_, ?_, ?_, fun _ => by rw [he]; simp, ?_⟩,
    rfl, rfl, ?_, ?_, fun _ _ => Or.inr (.refl _ _), fun _ _ => Nat.le_refl _⟩
  · intro e' he'
    rw [he] at he'
    cases he'
    rcases hor with rfl | h1
    · exact hp
    · exact h.okB.entry _ h1
  · intro q l e' he'
    exact List.mem_cons_of_mem _ (h.pubLink q l e' he')
  · intro e' he'
    rw [he] at he'
    cases he'
    rcases hor with rfl | h1
    · exact List.mem_cons_self
    · exact List.mem_cons_of_mem _ (h.pubEntry _ h1)
  · intro q hq
    rcases List.mem_cons.1 hq with rfl | hq
    · exact ⟨p, hp, rfl⟩
    · exact h.pubStored q hq
  · intro o ho l e' he'
    exact (h.ordB o ho l e' he').imp (fun hd => hd.mono (List.suffix_cons _ _)) id
  · exact List.suffix_cons _ _
  · intro p' hne
    refine ⟨fun _ h => h, List.suffix_cons _ _, fun _ _ => rfl, ?_, rfl, ?_, fun _ _ => rfl,
      fun _ _ _ h _ => Or.inl h⟩
    · intro hp'
      refine ⟨fun hq => ?_, fun _ => rfl⟩
      rcases List.mem_cons.1 hq with h1 | h1
      · exact hne h1
      · exact hp' h1
    · intro e0 he0
      refine ⟨e, he, ?_⟩
      unfold checkEntry at he
      simp only [he0] at he
      split at he
      · cases he; omega
      · cases he; exact Nat.le_refl _

/-- the entry point is at least as high as the inserted point -/
def EntryAbove (p : Ref T) (s : CSt T) : Prop :=
  ∃ e, s.idx.entry = some e ∧ p.pid.layer ≤ e.pid.layer

theorem checkEntryP_safe {r : Ref T} {s : CSt T} (hst : Stored s.idx r)
    (hh : s.held.count r.pid = 0) :
    SafeB B cfg N D W r.pid (fun _ s => EntryAbove r s ∧ s.held.count r.pid = 0 ∧ s.pub ≠ [])
      (checkEntryP r) s := by
  intro s' hi' hr
  refine ⟨Or.inl rfl, fun _ => ⟨checkEntry_guar hi'.inv (hr.stored _ hst), ?_⟩⟩
  intro s'' hi'' hr'
  obtain ⟨e, he, hle, -⟩ := checkEntry_entry r s'
  obtain ⟨e', he', hle'⟩ := hr'.entry e he
  refine ⟨⟨e', he', by omega⟩, ?_, hr'.pubNe (by simp [checkEntry])⟩
  rw [hr'.held]
  exact hr.held.trans hh

/-- The whole linking phase. -/
theorem linkP_safe (L : P.Lawful) {r : Ref T} {fuel rank : Nat} (hfu : N + 1 ≤ fuel) {s : CSt T}
    (hB : ∀ l e, ¬ B.link r.pid l e) (hW : W r.pid.layer) (hf : Fresh r (fun _ => []) s) :
    SafeB B cfg N D W r.pid
      (fun _ s => ((rank = 1 ∧ r.pid ∉ s.pub ∧ ∀ l, s.idx.nb r.pid l = []) ∨ EntryAbove r s) ∧ s.held.count r.pid = 0 ∧ s.pub ≠ [])
      (linkP P cfg fuel r rank) s := by
  unfold linkP
  apply SafeB.read
  intro s1 hi1 hr1
  have hf1 := hf.rel hr1
  cases hep : s1.idx.entry with
  | none => exact (checkEntryP_safe hf1.stored hf1.held).mono (fun _ _ _ h => ⟨Or.inr h.1, h.2⟩)
  | some ep =>
    simp only
    split
    · rename_i hrk
      intro s2 _ hr2
      exact ⟨Or.inl ⟨hrk, (hr2.priv hf1.priv).1,
          fun l => ((hr2.priv hf1.priv).2 l).trans (hf1.nb l)⟩, hr2.held.trans hf1.held,
        hr2.pubNe (List.ne_nil_of_mem (hi1.inv.pubEntry _ hep))⟩
    · have hk := Known.entry hi1 hf1.priv hep
      have hlm := hi1.inv.okB.tab.layer_lt hk.1
      apply SafeB.bind ?_ hi1 (upperP_safe L hfu _ _ ep _ s1 hi1 hf1 hk (nodup_layersDown _ _) ?_)
      · rintro ep' s2 hi2 ⟨⟨f, hf2, hfo⟩, hk2⟩
        have hlm2 := hi2.inv.okB.tab.layer_lt hf2.stored
        apply SafeB.bind ?_ hi2 (lowerP_safe L hfu _ f ep' s2 hi2 hf2 hk2 (nodup_layersDown _ _) ?_)
        · rintro _ s3 hi3 ⟨f3, hf3⟩
          apply reverseP_safe L hB hW ?_ _ s3 (layersDown_dec _ _)
            (fun l hl => (mem_layersDown.1 hl).2) hi3 hf3.stored hf3.held (Or.inr hf3.priv)
          intro s4 hi4 hst4 hh4
          exact (checkEntryP_safe hst4 hh4).mono (fun _ _ _ h => ⟨Or.inr h.1, h.2⟩)
        · intro l hl
          have := mem_layersDown.1 hl
          exact ⟨by omega, hfo l fun hm => by have := mem_layersDown.1 hm; omega⟩
      · intro l hl
        have := mem_layersDown.1 hl
        exact ⟨by omega, by omega, rfl⟩

end Verif
