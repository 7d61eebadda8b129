import Verif.SearchLegal
import Verif.TableLemmas
import Verif.SelectLemmas

set_option autoImplicit false

/-!
# Rely–guarantee reasoning on insertion threads

`GInvB` is the invariant of the shared state, true between any two atomic actions.
`Rel p` is what the thread inserting the point `p` knows about the actions of the others.
`SafeB p` says that a thread keeps the invariant and the other threads' expectations, and never
panics on legal distances.
-/

namespace Verif
variable {T : Type}

/-- `q` became visible before `p` (`pub` is the history of publications, last one first). -/
def Older (pub : List PointId) (q p : PointId) : Prop :=
  q ∈ pub ∧ pub.reverse.idxOf q < pub.reverse.idxOf p

theorem Older.mono {pub pub' : List PointId} {q p : PointId} (h : Older pub q p)
    (hs : pub <:+ pub') : Older pub' q p := by
  obtain ⟨t, rfl⟩ := hs
  refine ⟨List.mem_append_right _ h.1, ?_⟩
  have hq : q ∈ pub.reverse := List.mem_reverse.2 h.1
  rw [List.reverse_append, List.idxOf_append, List.idxOf_append, if_pos hq]
  split
  · exact h.2
  · have := List.idxOf_lt_length_of_mem hq
    omega

theorem Older.of_new {pub : List PointId} {q p : PointId} (hq : q ∈ pub) (hp : p ∉ pub) :
    Older pub q p := by
  refine ⟨hq, ?_⟩
  have h1 : q ∈ pub.reverse := List.mem_reverse.2 hq
  have h2 : p ∉ pub.reverse := fun h => hp (List.mem_reverse.1 h)
  rw [List.idxOf_eq_length h2]
  exact List.idxOf_lt_length_of_mem h1

/-- The distance of a link between two points is the distance function applied to the one that
became visible last, then to the other one. -/
def DistOrd (cfg : Cfg T) (pub : List PointId) (o : Ref T) (e : PWO T) : Prop :=
  (Older pub e.pt.pid o.pid ∧ e.dist = cfg.eval o.data e.pt.data) ∨
  (Older pub o.pid e.pt.pid ∧ e.dist = cfg.eval e.pt.data o.data)

theorem DistOrd.mono {cfg : Cfg T} {pub pub' : List PointId} {o : Ref T} {e : PWO T}
    (h : DistOrd cfg pub o e) (hs : pub <:+ pub') : DistOrd cfg pub' o e :=
  h.imp (fun h => ⟨h.1.mono hs, h.2⟩) (fun h => ⟨h.1.mono hs, h.2⟩)

theorem DistOrd.dist {cfg : Cfg T} {pub : List PointId} {o : Ref T} {e : PWO T}
    (h : DistOrd cfg pub o e) :
    e.dist = cfg.eval o.data e.pt.data ∨ e.dist = cfg.eval e.pt.data o.data :=
  h.imp (fun h => h.2) (fun h => h.2)

theorem Improves.refl (n : Nat) (a : List (PWO T)) : Improves n a a :=
  ⟨Nat.le_refl _, Nat.le_max_left _ _, fun i x y hx hy => by rw [hx] at hy; cases hy; exact Int.le_refl _,
    fun _ h h' => absurd h h'⟩

theorem Improves.of_nil {n : Nat} {b : List (PWO T)} (h : b.length ≤ n) : Improves n [] b :=
  ⟨Nat.zero_le _, Nat.le_trans h (Nat.le_max_right _ _), fun i x y hx => by simp at hx, fun _ h => by cases h⟩

theorem Improves.trans {n : Nat} {a b c : List (PWO T)} (h : Improves n a b) (h' : Improves n b c) :
    Improves n a c := by
  have h1 := h.len
  have h2 := h'.len
  have h3 := h.cap
  have h4 := h'.cap
  refine ⟨by omega, by omega, ?_, ?_⟩
  · intro i x z hx hz
    have hi := (List.getElem?_eq_some_iff.1 hx).1
    have hb : b[i]? = some b[i] := List.getElem?_eq_getElem (by omega)
    exact Int.le_trans (h'.nearer i _ z hb hz) (h.nearer i x _ hx hb)
  · intro e he hc
    by_cases hb : e ∈ b
    · exact h'.lost e hb hc
    · obtain ⟨k1, k2⟩ := h.lost e he hb
      refine ⟨by omega, fun z hz => ?_⟩
      obtain ⟨i, hi⟩ := List.getElem?_of_mem hz
      have hlt := (List.getElem?_eq_some_iff.1 hi).1
      have hlt' : i < b.length := by omega
      exact Int.le_trans (h'.nearer i _ z (List.getElem?_eq_getElem hlt') hi) (k2 _ (List.getElem_mem hlt'))

/-- in a sorted list, the elements at most `k` come first -/
theorem countP_le_of_lt {k : Int} {i : Nat} {b : List (PWO T)}
    (hs : b.Pairwise (fun a b => a.dist.key ≤ b.dist.key)) {y : PWO T} (hy : b[i]? = some y)
    (hk : k < y.dist.key) : b.countP (fun e => decide (e.dist.key ≤ k)) ≤ i := by
  have hi := (List.getElem?_eq_some_iff.1 hy).1
  have hd : (b.drop i).countP (fun e => decide (e.dist.key ≤ k)) = 0 := by
    rw [List.countP_eq_zero]
    intro e he
    rw [decide_eq_true_eq]
    have hd : b.drop i = y :: b.drop (i + 1) := by
      rw [List.drop_eq_getElem_cons hi, (List.getElem?_eq_some_iff.1 hy).2]
    have hp := hs.sublist (List.drop_sublist i b)
    rw [hd] at he hp
    rcases List.mem_cons.1 he with rfl | he
    · omega
    · have := (List.pairwise_cons.1 hp).1 e he
      omega
  rw [← List.take_append_drop i b, List.countP_append, hd]
  have := List.countP_le_length (p := fun e : PWO T => decide (e.dist.key ≤ k)) (l := b.take i)
  rw [List.length_take] at this
  omega

/-- in a sorted list with more elements, each place holds one that is no farther -/
theorem nearer_of_perm {a v w : List (PWO T)}
    (ha : a.Pairwise (fun a b => a.dist.key ≤ b.dist.key))
    (hv : v.Pairwise (fun a b => a.dist.key ≤ b.dist.key)) (hp : v.Perm (a ++ w)) :
    ∀ (i : Nat) y z, a[i]? = some y → v[i]? = some z → z.dist.key ≤ y.dist.key := by
  intro i y z hy hz
  have hi := (List.getElem?_eq_some_iff.1 hy).1
  by_cases hc : z.dist.key ≤ y.dist.key
  · exact hc
  · have h1 := countP_le_of_lt hv hz (k := y.dist.key) (by omega)
    have h2 : (a ++ w).countP (fun e => decide (e.dist.key ≤ y.dist.key)) ≤ i := by
      rw [← hp.countP_eq]; exact h1
    rw [List.countP_append] at h2
    have h3 : (a.take (i + 1)).countP (fun e => decide (e.dist.key ≤ y.dist.key)) = i + 1 := by
      have : (a.take (i + 1)).length = i + 1 := by rw [List.length_take]; omega
      refine Eq.trans (List.countP_eq_length.2 ?_) this
      intro e he
      rw [decide_eq_true_eq]
      obtain ⟨j, hj⟩ := List.getElem?_of_mem he
      have hj' := (List.getElem?_eq_some_iff.1 hj).1
      rw [List.length_take] at hj'
      rw [List.getElem?_take_of_lt (by omega)] at hj
      have hja := (List.getElem?_eq_some_iff.1 hj).1
      by_cases hij : j = i
      · subst hij
        rw [hj] at hy
        cases hy
        exact Int.le_refl _
      · have := List.pairwise_iff_getElem.1 ha j i hja hi (by omega)
        rw [(List.getElem?_eq_some_iff.1 hj).2, (List.getElem?_eq_some_iff.1 hy).2] at this
        exact this
    have h4 : (a.take (i + 1)).countP (fun e => decide (e.dist.key ≤ y.dist.key)) ≤
        a.countP (fun e => decide (e.dist.key ≤ y.dist.key)) :=
      (List.take_sublist _ _).countP_le
    omega

/-- a sorted list with one more link, the farthest one being dropped when there are too many -/
theorem Improves.push {n : Nat} {a v : List (PWO T)} {x : PWO T}
    (ha : a.Pairwise (fun a b => a.dist.key ≤ b.dist.key))
    (hv : v.Pairwise (fun a b => a.dist.key ≤ b.dist.key)) (hp : v.Perm (a ++ [x])) :
    Improves n a (if n < v.length then v.dropLast else v) := by
  have hlen : v.length = a.length + 1 := by rw [hp.length_eq]; simp
  have hnear := nearer_of_perm ha hv hp
  split
  · rename_i hlt
    have hdl : v.dropLast.length = a.length := by rw [List.length_dropLast]; omega
    refine ⟨by omega, by omega, ?_, ?_⟩
    · intro i y z hy hz
      rw [List.dropLast_eq_take] at hz
      have hi := (List.getElem?_eq_some_iff.1 hy).1
      rw [List.getElem?_take_of_lt (by omega)] at hz
      exact hnear i y z hy hz
    · intro e he hn
      refine ⟨by omega, fun e' he' => ?_⟩
      have hev : e ∈ v := hp.mem_iff.2 (List.mem_append_left _ he)
      have hne : v ≠ [] := List.ne_nil_of_mem hev
      have hsplit := List.dropLast_concat_getLast hne
      have : e = v.getLast hne := by
        rw [← hsplit] at hev
        rcases List.mem_append.1 hev with h | h
        · exact absurd h hn
        · exact List.mem_singleton.1 h
      rw [← hsplit] at hv
      rw [this]
      exact (List.pairwise_append.1 hv).2.2 e' he' _ (by simp)
  · refine ⟨by omega, by omega, hnear, ?_⟩
    intro e he hn
    exact absurd (hp.mem_iff.2 (List.mem_append_left _ he)) hn

/-- a list sorted again -/
theorem Improves.of_perm {n : Nat} {a v : List (PWO T)}
    (ha : a.Pairwise (fun a b => a.dist.key ≤ b.dist.key))
    (hv : v.Pairwise (fun a b => a.dist.key ≤ b.dist.key)) (hp : v.Perm a) : Improves n a v :=
  ⟨Nat.le_of_eq hp.length_eq.symm, by rw [hp.length_eq]; exact Nat.le_max_left _ _,
    nearer_of_perm (w := []) ha hv (by rwa [List.append_nil]), fun _ h h' => absurd (hp.mem_iff.2 h) h'⟩

/-- Invariant of the shared state during concurrent insertions. -/
structure GInvB (B : Base T) (cfg : Cfg T) (c : CSt T) : Prop where
  okB : IdxOKB B cfg c.idx
  pubLink : ∀ q l, ∀ e ∈ c.idx.nb q l, e.pt.pid ∈ c.pub
  pubEntry : ∀ e, c.idx.entry = some e → e.pid ∈ c.pub
  pubStored : ∀ q ∈ c.pub, ∃ o, Stored c.idx o ∧ o.pid = q
  pubNe : c.pub ≠ [] → c.idx.entry ≠ none
  ordB : ∀ o, Stored c.idx o → ∀ l, ∀ e ∈ c.idx.nb o.pid l, DistOrd cfg c.pub o e ∨ B.link o.pid l e

/-- without inherited links -/
abbrev GInv (cfg : Cfg T) (c : CSt T) : Prop := GInvB Base.none cfg c

theorem GInvB.ok {cfg : Cfg T} {c : CSt T} (h : GInvB Base.none cfg c) : IdxOK cfg c.idx :=
  idxOKB_none.1 h.okB

theorem GInvB.ord {cfg : Cfg T} {c : CSt T} (h : GInvB Base.none cfg c) :
    ∀ o, Stored c.idx o → ∀ l, ∀ e ∈ c.idx.nb o.pid l, DistOrd cfg c.pub o e :=
  fun o ho l e he => (h.ordB o ho l e he).resolve_right id

theorem GInvB.mk' {cfg : Cfg T} {c : CSt T} (ok : IdxOK cfg c.idx)
    (pubLink : ∀ q l, ∀ e ∈ c.idx.nb q l, e.pt.pid ∈ c.pub)
    (pubEntry : ∀ e, c.idx.entry = some e → e.pid ∈ c.pub)
    (pubStored : ∀ q ∈ c.pub, ∃ o, Stored c.idx o ∧ o.pid = q)
    (pubNe : c.pub ≠ [] → c.idx.entry ≠ none)
    (ord : ∀ o, Stored c.idx o → ∀ l, ∀ e ∈ c.idx.nb o.pid l, DistOrd cfg c.pub o e) :
    GInv cfg c :=
  ⟨idxOKB_none.2 ok, pubLink, pubEntry, pubStored, pubNe, fun o ho l e he => Or.inl (ord o ho l e he)⟩

/-- Invariant with a bound on the number of points and a property of the stored vectors. -/
structure EInvB (B : Base T) (cfg : Cfg T) (N : Nat) (D : List T → Prop) (c : CSt T) : Prop where
  inv : GInvB B cfg c
  size : c.idx.points.length ≤ N
  data : ∀ v, Stored c.idx v → D v.data

/-- What the thread inserting `p` may assume about the steps of the other threads, `W` being the
layers in which they add reverse links. -/
structure Rel (W : Nat → Prop) (p : PointId) (s s' : CSt T) : Prop where
  stored : ∀ v, Stored s.idx v → Stored s'.idx v
  pub : s.pub <:+ s'.pub
  wr : ∀ l, ¬ W l → s'.idx.nb p l = s.idx.nb p l
  priv : p ∉ s.pub → p ∉ s'.pub ∧ ∀ l, s'.idx.nb p l = s.idx.nb p l
  held : s'.held.count p = s.held.count p
  entry : ∀ e, s.idx.entry = some e → ∃ e', s'.idx.entry = some e' ∧ e.pid.layer ≤ e'.pid.layer
  frozen : p ∈ s.held → ∀ l, s'.idx.nb p l = s.idx.nb p l
  mine : ∀ q l, ∀ e ∈ s'.idx.nb q l, e.pt.pid = p → e ∈ s.idx.nb q l ∨ Older s'.pub p q

theorem Rel.refl (W : Nat → Prop) (p : PointId) (s : CSt T) : Rel W p s s :=
  ⟨fun _ h => h, List.suffix_refl _, fun _ _ => rfl, fun h => ⟨h, fun _ => rfl⟩, rfl,
    fun e h => ⟨e, h, Nat.le_refl _⟩, fun _ _ => rfl, fun _ _ _ h _ => Or.inl h⟩

theorem Rel.trans {W : Nat → Prop} {p : PointId} {s s' s'' : CSt T} (h : Rel W p s s') (h' : Rel W p s' s'') :
    Rel W p s s'' := by
  refine ⟨fun v hv => h'.stored v (h.stored v hv), h.pub.trans h'.pub,
    fun l hl => (h'.wr l hl).trans (h.wr l hl), ?_,
    h'.held.trans h.held, ?_, ?_, ?_⟩
  · intro hp
    obtain ⟨h1, h2⟩ := h.priv hp
    obtain ⟨h3, h4⟩ := h'.priv h1
    exact ⟨h3, fun l => (h4 l).trans (h2 l)⟩
  · intro e he
    obtain ⟨e1, h1, h2⟩ := h.entry e he
    obtain ⟨e2, h3, h4⟩ := h'.entry e1 h1
    exact ⟨e2, h3, Nat.le_trans h2 h4⟩
  · intro hp l
    have hp' : p ∈ s'.held := List.count_pos_iff.1 (h.held ▸ List.count_pos_iff.2 hp)
    exact (h'.frozen hp' l).trans (h.frozen hp l)
  · intro q l e he hep
    rcases h'.mine q l e he hep with h1 | h1
    · exact (h.mine q l e h1 hep).imp id (fun h2 => h2.mono h'.pub)
    · exact Or.inr h1

theorem Rel.pubNe {W : Nat → Prop} {p : PointId} {s s' : CSt T} (h : Rel W p s s')
    (hp : s.pub ≠ []) : s'.pub ≠ [] := by
  intro h0
  have := h.pub
  rw [h0] at this
  exact hp (List.suffix_nil.1 this)

/-- What the thread inserting `p` guarantees for each of its steps. -/
structure GuarB (B : Base T) (cfg : Cfg T) (W : Nat → Prop) (p : PointId) (s s' : CSt T) : Prop where
  inv : GInvB B cfg s'
  layers : s'.idx.layers = s.idx.layers
  count : s'.idx.nbPoint = s.idx.nbPoint
  pub : s.pub <:+ s'.pub
  others : ∀ p', p' ≠ p → Rel W p' s s'
  imp : ∀ q l, B.wild q l ∨ Improves (degreeBound cfg l) (s.idx.nb q l) (s'.idx.nb q l)
  len : ∀ q l, (s.idx.nb q l).length ≤ (s'.idx.nb q l).length

/-- The distance is legal on the vectors of interest. -/
def LegalD (cfg : Cfg T) (D : List T → Prop) : Prop :=
  ∀ a b, D a → D b → (cfg.eval a b).Legal

section
variable {α β : Type} (B : Base T) (cfg : Cfg T) (N : Nat) (D : List T → Prop) (W : Nat → Prop) (p : PointId)

/-- The rest of a thread inserting `p` behaves well from the shared state `s`, whatever the others
do; it ends with `Q`. -/
def SafeB (Q : α → CSt T → Prop) : Prog (CSt T) α → CSt T → Prop
  | .ret a, s => ∀ s', EInvB B cfg N D s' → Rel W p s s' → Q a s'
  | .fail e, s => e ≠ .fuel ∧ (¬ LegalD cfg D ∨ B.Wild) ∧ s.held.count p = 0 ∧ s.pub ≠ [] ∧
      (p ∉ s.pub ∨ B.Wild)
  | .act g u k, s => ∀ s', EInvB B cfg N D s' → Rel W p s s' →
      (g s' = true ∨ ∃ q ∈ s'.held, q ≠ p ∧ ((∀ l, W l → p.layer ≤ l) → Older s'.pub q p) ∧
        (∃ l, ∃ e ∈ s'.idx.nb p l, e.pt.pid = q) ∧
        (p.layer = 0 → ∀ l, ∀ e ∈ s'.idx.nb q l, e.pt.pid = p → Older s'.pub p q)) ∧
      (g s' = true → GuarB B cfg W p s' (u s') ∧ SafeB Q (k s') (u s'))

end

variable {α β : Type} {B : Base T} {cfg : Cfg T} {N : Nat} {D : List T → Prop} {W : Nat → Prop}
  {p : PointId}

/-- without inherited links -/
abbrev EInv (cfg : Cfg T) (N : Nat) (D : List T → Prop) (c : CSt T) : Prop := EInvB Base.none cfg N D c

theorem EInvB.step {s s' : CSt T} (h : EInvB B cfg N D s) (hg : GuarB B cfg W p s s') :
    EInvB B cfg N D s' := by
  refine ⟨hg.inv, ?_, ?_⟩
  · unfold Idx.points; rw [hg.layers]; exact h.size
  · intro v hv
    apply h.data
    unfold Stored Idx.points at hv ⊢
    rw [hg.layers] at hv; exact hv

theorem SafeB.rel {Q : α → CSt T → Prop} {t : Prog (CSt T) α} {s s' : CSt T}
    (h : SafeB B cfg N D W p Q t s) (hr : Rel W p s s') : SafeB B cfg N D W p Q t s' := by
  cases t with
  | ret a => exact fun s'' hi hr' => h s'' hi (hr.trans hr')
  | fail e => exact ⟨h.1, h.2.1, hr.held.trans h.2.2.1, hr.pubNe h.2.2.2.1, h.2.2.2.2.imp (fun h => (hr.priv h).1) id⟩
  | act g u k => exact fun s'' hi hr' => h s'' hi (hr.trans hr')

theorem SafeB.bind {Q : α → CSt T → Prop} {R : β → CSt T → Prop} {t : Prog (CSt T) α}
    {f : α → Prog (CSt T) β} (hf : ∀ a s, EInvB B cfg N D s → Q a s → SafeB B cfg N D W p R (f a) s) :
    ∀ {s : CSt T}, EInvB B cfg N D s → SafeB B cfg N D W p Q t s → SafeB B cfg N D W p R (t.bind f) s := by
  induction t with
  | ret a => intro s hi h; exact hf a s hi (h s hi (Rel.refl W p s))
  | fail e => intro s _ h; exact h
  | act g u k ih =>
    intro s hi h s' hi' hr
    obtain ⟨h1, h2⟩ := h s' hi' hr
    refine ⟨h1, fun hg => ?_⟩
    obtain ⟨h3, h4⟩ := h2 hg
    exact ⟨h3, ih s' (hi'.step h3) h4⟩

theorem SafeB.mono {Q R : α → CSt T → Prop} {t : Prog (CSt T) α}
    (hf : ∀ a s, EInvB B cfg N D s → Q a s → R a s) :
    ∀ {s : CSt T}, SafeB B cfg N D W p Q t s → SafeB B cfg N D W p R t s := by
  induction t with
  | ret a => intro s h s' hi hr; exact hf a s' hi (h s' hi hr)
  | fail e => intro s h; exact h
  | act g u k ih =>
    intro s h s' hi' hr
    obtain ⟨h1, h2⟩ := h s' hi' hr
    refine ⟨h1, fun hg => ?_⟩
    obtain ⟨h3, h4⟩ := h2 hg
    exact ⟨h3, ih s' h4⟩

theorem GuarB.refl {s : CSt T} (h : GInvB B cfg s) : GuarB B cfg W p s s :=
  ⟨h, rfl, rfl, List.suffix_refl _, fun p' _ => Rel.refl W p' s, fun _ _ => Or.inr (.refl _ _), fun _ _ => Nat.le_refl _⟩

/-- what only grows -/
structure Grow (s s' : CSt T) : Prop where
  stored : ∀ v, Stored s.idx v → Stored s'.idx v
  pub : s.pub <:+ s'.pub

theorem Grow.refl (s : CSt T) : Grow s s := ⟨fun _ h => h, List.suffix_refl _⟩

theorem Grow.pubNe {s s' : CSt T} (h : Grow s s') (hp : s.pub ≠ []) : s'.pub ≠ [] := by
  intro h0
  have := h.pub
  rw [h0] at this
  exact hp (List.suffix_nil.1 this)

theorem Grow.rel {s s' s'' : CSt T} (h : Grow s s') (hr : Rel W p s' s'') : Grow s s'' :=
  ⟨fun v hv => hr.stored v (h.stored v hv), h.pub.trans hr.pub⟩

theorem Grow.guar {s s' s'' : CSt T} (h : Grow s s') (hr : GuarB B cfg W p s' s'') : Grow s s'' := by
  refine ⟨fun v hv => ?_, h.pub.trans hr.pub⟩
  have := h.stored v hv
  unfold Stored Idx.points at this ⊢
  rw [hr.layers]; exact this

theorem SafeB.frame {Q : α → CSt T → Prop} {t : Prog (CSt T) α} {s0 : CSt T} :
    ∀ {s : CSt T}, Grow s0 s → SafeB B cfg N D W p Q t s →
      SafeB B cfg N D W p (fun a s' => Q a s' ∧ Grow s0 s') t s := by
  induction t with
  | ret a => intro s hg h s' hi hr; exact ⟨h s' hi hr, hg.rel hr⟩
  | fail e => intro s _ h; exact h
  | act g u k ih =>
    intro s hgr h s' hi' hr
    obtain ⟨h1, h2⟩ := h s' hi' hr
    refine ⟨h1, fun hg => ?_⟩
    obtain ⟨h3, h4⟩ := h2 hg
    exact ⟨h3, ih s' ((hgr.rel hr).guar h3) h4⟩

theorem SafeB.read {Q : α → CSt T → Prop} {k : CSt T → Prog (CSt T) α} {s : CSt T}
    (h : ∀ s', EInvB B cfg N D s' → Rel W p s s' → SafeB B cfg N D W p Q (k s') s') :
    SafeB B cfg N D W p Q (Prog.read k) s :=
  fun s' hi hr => ⟨Or.inl rfl, fun _ => ⟨GuarB.refl hi.inv, h s' hi hr⟩⟩

theorem SafeB.ofExcept {Q : α → CSt T → Prop} {x : Except Panic β} {k : β → Prog (CSt T) α}
    {s : CSt T} (he : ∀ e, x = .error e → e ≠ .fuel ∧ (¬ LegalD cfg D ∨ B.Wild) ∧ s.held.count p = 0 ∧
      s.pub ≠ [] ∧ (p ∉ s.pub ∨ B.Wild))
    (h : ∀ b, x = .ok b → SafeB B cfg N D W p Q (k b) s) :
    SafeB B cfg N D W p Q (Prog.ofExcept x k) s := by
  cases x with
  | error e => exact he e rfl
  | ok b => exact h b rfl

/-- points the thread inserting `p` may meet -/
def Known (p : PointId) (s : CSt T) (v : Ref T) : Prop :=
  Stored s.idx v ∧ v.pid ∈ s.pub ∧ v.pid ≠ p

theorem Known.rel {s s' : CSt T} (h : Rel W p s s') {v : Ref T} (hv : Known p s v) :
    Known p s' v := ⟨h.stored v hv.1, h.pub.subset hv.2.1, hv.2.2⟩

theorem Known.grow {s s' : CSt T} (h : Grow s s') {v : Ref T} (hv : Known p s v) :
    Known p s' v := ⟨h.stored v hv.1, h.pub.subset hv.2.1, hv.2.2⟩

theorem Known.pubNe {s : CSt T} {v : Ref T} (hv : Known p s v) : s.pub ≠ [] :=
  List.ne_nil_of_mem hv.2.1

theorem Known.count {s : CSt T} (hi : EInvB B cfg N D s) (l : List (Ref T))
    (hl : ∀ v ∈ l, Known p s v) (hn : (l.map (·.pid)).Nodup) : l.length ≤ N :=
  Nat.le_trans (hi.inv.okB.tab.count (fun v hv => (hl v hv).1) hn) hi.size

theorem Known.link {s : CSt T} (hi : EInvB B cfg N D s) (hp : p ∉ s.pub) {q : PointId} {l : Nat}
    {e : PWO T} (he : e ∈ s.idx.nb q l) : Known p s e.pt :=
  ⟨hi.inv.okB.stored _ _ e he, hi.inv.pubLink _ _ e he,
    fun h => hp (h ▸ hi.inv.pubLink _ _ e he)⟩

theorem Known.entry {s : CSt T} (hi : EInvB B cfg N D s) (hp : p ∉ s.pub) {e : Ref T}
    (he : s.idx.entry = some e) : Known p s e :=
  ⟨hi.inv.okB.entry _ he, hi.inv.pubEntry _ he, fun h => hp (h ▸ hi.inv.pubEntry _ he)⟩

theorem InvA.mono {P : Policy T} {eval : List T → List T → F32} {q : List T} {ef : Nat}
    {K K' : Ref T → Prop} {st : SL P} (hK : ∀ v, K v → K' v) (h : InvA P eval q ef K st) :
    InvA P eval q ef K' st :=
  ⟨fun v hv => hK v (h.visK v hv), h.visNd, h.retIn, h.candIn, h.retNd, h.candNd, h.candB, h.retB,
    h.retCE, h.retLen, h.meas⟩

theorem ResA.mono {P : Policy T} {eval : List T → List T → F32} {q : List T} {ef : Nat}
    {K K' : Ref T → Prop} {r : P.H} (hK : ∀ v, K v → K' v) (h : ResA P eval q ef K r) :
    ResA P eval q ef K' r :=
  ⟨fun v hv => hK _ (h.inK v hv), h.dist, fun hN => h.legal fun v hv => hN v (hK v hv),
    fun hN => h.built fun v hv => hN v (hK v hv), h.nd, h.len⟩

/-! ## Search from inside an insertion -/

/-- state of a thread whose point is not yet visible; its neighbours are `f` -/
structure Fresh (r : Ref T) (f : Nat → List (PWO T)) (s : CSt T) : Prop where
  stored : Stored s.idx r
  priv : r.pid ∉ s.pub
  held : s.held.count r.pid = 0
  nb : ∀ l, s.idx.nb r.pid l = f l

theorem Fresh.rel {r : Ref T} {f : Nat → List (PWO T)} {s s' : CSt T} (h : Rel W r.pid s s')
    (hf : Fresh r f s) : Fresh r f s' :=
  ⟨h.stored _ hf.stored, (h.priv hf.priv).1, h.held.trans hf.held,
    fun l => ((h.priv hf.priv).2 l).trans (hf.nb l)⟩

variable {P : Policy T} {f₀ : Nat → List (PWO T)}

theorem head_err {ef : Nat} {filt : Option (DataId → Bool)} {st : SL P} {e : Panic}
    (he : head P ef filt st = .panic e) : e ≠ .fuel := by
  unfold head at he
  split at he
  · cases he
  · split at he
    · cases he; simp
    · repeat' split at he
      all_goals first | (cases he; done) | (cases he; simp)

theorem loopP_safe (L : P.Lawful) {r : Ref T} {ef layer : Nat} : ∀ (n : Nat) (st : SL P)
    (s : CSt T), EInvB B cfg N D s → Fresh r f₀ s → s.pub ≠ [] → InvA P cfg.eval r.data ef (Known r.pid s) st →
    (LegalD cfg D → ∃ exp, InvN P cfg.eval r.data ef exp st) → (ef ≤ 1 → InvO P st) →
    N + P.len st.cand + 1 ≤ n + st.vis.length →
    SafeB B cfg N D W r.pid (fun h s => Fresh r f₀ s ∧ ResA P cfg.eval r.data ef (Known r.pid s) h ∧
        (ef ≤ 1 → ∀ x ∈ P.items h, x.dist.Legal))
      (loopP P cfg r.data ef layer n st) s := by
  intro n
  induction n with
  | zero =>
    intro st s hi hf _ hA _ _ hn
    have := Known.count hi st.vis hA.visK hA.visNd
    omega
  | succ n ih =>
    intro st s hi hf hne hA hN hO hn
    have hLeg : LegalD cfg D → ∀ s', EInvB B cfg N D s' → Fresh r f₀ s' → ∀ v, Known r.pid s' v →
        (cfg.eval r.data v.data).Legal := by
      intro hl s' hi' hf' v hv
      exact hl _ _ (hi'.data _ hf'.stored) (hi'.data _ hv.1)
    have hh := head_invA (filt := none) L hA
    simp only [loopP]
    cases hhd : head P ef none st with
    | done h =>
      rw [hhd] at hh
      intro s' hi' hr
      refine ⟨hf.rel hr, hh.mono (fun v => Known.rel hr), fun he => ?_⟩
      have := head_invO L hA (hO he)
      rw [hhd] at this
      exact this
    | panic e =>
      refine ⟨head_err hhd, Or.inl fun hl => ?_, hf.held, hne, Or.inl hf.priv⟩
      obtain ⟨exp, hN⟩ := hN hl
      rcases head_legal (filt := none) L hA (hLeg hl s hi hf) hN.ne with ⟨-, h2⟩ | ⟨c, cand', f, -, -, h3⟩
      · rw [hhd] at h2; cases h2
      · rcases h3 with ⟨h3, -⟩ | h3 <;> (rw [hhd] at h3; cases h3)
    | expand c st' =>
      rw [hhd] at hh
      simp only at hh ⊢
      apply SafeB.read
      intro s' hi' hr
      have hf' := hf.rel hr
      have hA' : InvA P cfg.eval r.data ef (Known r.pid s') st' := hh.1.mono (fun v => Known.rel hr)
      have hs : ∀ e ∈ s'.idx.nb c.pid layer, Known r.pid s' e.pt :=
        fun e he => Known.link hi' hf'.priv he
      have hN' : LegalD cfg D → ∃ exp, InvN P cfg.eval r.data ef exp st' := by
        intro hl
        obtain ⟨exp, hN⟩ := hN hl
        rcases head_legal (filt := none) L hA (hLeg hl s hi hf) hN.ne with
          ⟨-, h2⟩ | ⟨c', cand', f, h1, h2, h3⟩
        · rw [hhd] at h2; cases h2
        · rcases h3 with ⟨h3, -⟩ | h3
          · rw [hhd] at h3; cases h3
          · rw [hhd] at h3
            cases h3
            refine ⟨c'.pt :: exp, hN.ne, ?_, hN.far⟩
            intro x hx
            rcases hN.ce x hx with ⟨y, hy, hyx⟩ | h
            · rcases (L.mem_pop h1).1 hy with rfl | hy
              · right; rw [← hyx]; simp
              · exact Or.inl ⟨y, hy, hyx⟩
            · exact Or.inr (List.mem_cons_of_mem _ h)
      cases hsc : scanList P cfg.eval r.data ef none (s'.idx.nb c.pid layer) st' with
      | error x =>
        refine ⟨by rw [scanList_err hsc]; simp, Or.inl fun hl => ?_, hf'.held, hr.pubNe hne, Or.inl hf'.priv⟩
        obtain ⟨exp, hN⟩ := hN' hl
        obtain ⟨st'', h1, -⟩ := scanList_invN L (fun v hv => (hLeg hl s' hi' hf' v hv).1) hA' hN hs
        rw [h1] at hsc; cases hsc
      | ok o =>
        cases o with
        | stop r' =>
          have := scanList_invA L hA' hs hsc
          intro s'' hi'' hr'
          exact ⟨hf'.rel hr', resA_empty this, by simp only at this; rw [this]; simp⟩
        | go st'' =>
          have h3 := scanList_invA L hA' hs hsc
          simp only at h3 ⊢
          refine ih st'' s' hi' hf' (hr.pubNe hne) h3.1 ?_ ?_ ?_
          · intro hl
            obtain ⟨exp, hN⟩ := hN' hl
            obtain ⟨st3, h1, h2⟩ := scanList_invN L (fun v hv => (hLeg hl s' hi' hf' v hv).1) hA' hN hs
            rw [h1] at hsc
            cases hsc
            exact ⟨exp, h2⟩
          · intro he
            have h7 := head_invO L hA (hO he)
            rw [hhd] at h7
            obtain ⟨h8, h9⟩ := scanList_invO L he h7.1 h7.2 hsc
            exact ⟨h8, Or.inl h9⟩
          · have h4 := hh.2.2.1
            rw [← h4] at hn
            have h5 := hh.2.2.2.1
            have h6 := h3.2.2.2
            omega

theorem invN_init (L : P.Lawful) {eval : List T → List T → F32} {q : List T} {ef : Nat}
    {ep : Ref T} : InvN P eval q ef [] (slInit P eval q ep) := by
  constructor <;> simp [slInit, L.items_push_empty]

theorem searchLayerP_safe (L : P.Lawful) {r ep : Ref T} {ef layer fuel : Nat} {s : CSt T}
    (hfu : N + 1 ≤ fuel) (hly : layer < cfg.maxLayer) (_hi : EInvB B cfg N D s)
    (hf : Fresh r f₀ s) (hep : Known r.pid s ep) :
    SafeB B cfg N D W r.pid (fun h s => Fresh r f₀ s ∧ ResA P cfg.eval r.data ef (Known r.pid s) h ∧
        (ef ≤ 1 → ∀ x ∈ P.items h, x.dist.Legal))
      (searchLayerP P cfg fuel r.data ep ef layer) s := by
  unfold searchLayerP
  apply SafeB.read
  intro s' hi' hr
  have hf' := hf.rel hr
  have hlt : layer < s'.idx.layers.length := by rw [hi'.inv.okB.tab.len]; exact hly
  rw [List.getElem?_eq_getElem hlt]
  cases s'.idx.layers[layer] with
  | nil =>
    intro s'' hi'' hr'
    exact ⟨hf'.rel hr', resA_empty L.items_empty, by simp [L.items_empty]⟩
  | cons a as =>
    simp only
    apply loopP_safe L fuel _ s' hi' hf' (hep.rel hr).pubNe (invA_init L (hep.rel hr))
    · intro _; exact ⟨[], invN_init L⟩
    · intro _; exact invO_init L
    · simp [slInit, Policy.len, L.items_push_empty]; omega

end Verif
