import Verif.Linked
import Verif.SearchConc
import Verif.SmallLemmas

set_option autoImplicit false

/-!
# Insertions of level 0 in parallel, no list being full in the end: lemmas

The final state `c` of the execution is fixed.  As no list of layer 0 is full in `c`, none ever was, so that no link
of layer 0 is lost before: what a thread reads or writes in layer 0 is found in `c`.
-/

namespace Verif
variable {T : Type} {P : Policy T} {cfg : Cfg T}

section
variable (cfg) (c : Idx T) (e0 : Ref T)

/-- links of layer 0 are found in `c`, and no list is full -/
def Below (s : Idx T) : Prop :=
  ∀ p, (s.nb p 0).length < 2 * cfg.maxNb ∧ ∀ e ∈ s.nb p 0, e ∈ c.nb p 0

/-- in `c` the point is reached from `e0` by links of layer 0 -/
def Joined (p : PointId) : Prop := ∃ v : Ref T, v.pid = p ∧ Reaches (links c 0) e0 v

/-- in `c` there is a link back for the link `e` of `a` -/
def Back (a : PointId) (e : PWO T) : Prop := ∃ e' ∈ c.nb e.pt.pid 0, e'.pt.pid = a

/-- what the threads use of the states they meet -/
structure Seen (s : CSt T) : Prop where
  below : Below cfg c s.idx
  noSelf : ∀ p, ∀ e ∈ s.idx.nb p 0, e.pt.pid ≠ p
  joined : ∀ p, ∀ e ∈ s.idx.nb p 0, Joined c e0 e.pt.pid

/-- the thread inserting `r` returns only if there is a link back for the link `e` of `r` -/
def Will (r : PointId) (e : PWO T) : Prog (CSt T) Unit → Prop
  | .ret _ => Back c r e
  | .fail _ => True
  | .act _ u k => ∀ s, Seen cfg c e0 s → Below cfg c (u s).idx → e ∈ s.idx.nb r 0 → Will r e (k s)

/-- each link the thread inserting `r` creates in layer 0 has a link back, or will have one when the thread returns;
the point is made visible once it is joined to the others, or by the last action -/
def Fair (r : PointId) : Prog (CSt T) Unit → Prop
  | .ret _ => True
  | .fail _ => True
  | .act _ u k => ∀ s, Seen cfg c e0 s → Below cfg c (u s).idx →
      (∀ a, ∀ e ∈ (u s).idx.nb a 0, e ∈ s.idx.nb a 0 ∨ Back c a e ∨ (a = r ∧ Will cfg c e0 r e (k s))) ∧
      ((u s).pub = s.pub ∨ ((u s).pub = r :: s.pub ∧ (Joined c e0 r ∨ k s = .ret ()))) ∧
      Fair r (k s)
end

variable {c : Idx T} {e0 : Ref T}

theorem Joined.step {p : PointId} (h : Joined c e0 p) {e : PWO T} (he : e ∈ c.nb p 0) : Joined c e0 e.pt.pid := by
  obtain ⟨v, rfl, hv⟩ := h
  exact ⟨e.pt, rfl, .step hv he⟩

theorem Will.of_back {r : PointId} {e : PWO T} (h : Back c r e) : ∀ t, Will cfg c e0 r e t := by
  intro t
  induction t with
  | ret a => exact h
  | fail e => trivial
  | act g u k ih => exact fun s _ _ _ => ih s

/-! ## The reverse links -/

/-- the list written has the new point -/
theorem revList_has (L : P.Lawful) {r : Ref T} (h0 : r.pid.layer = 0) {q : PWO T} {old : List (PWO T)}
    (hlen : old.length < 2 * cfg.maxNb) : ∃ e ∈ (revList P cfg r q old).1, e.pt.pid = r.pid := by
  by_cases hany : old.any (fun o => o.pt.pid = r.pid) = true
  · obtain ⟨o, ho, hor⟩ := List.any_eq_true.1 hany
    refine ⟨o, ?_, by simpa using hor⟩
    unfold revList
    rw [if_pos hany]
    exact ho
  · have hno : ∀ o ∈ old, o.pt.pid ≠ r.pid := by
      intro o ho heq
      exact hany (List.any_eq_true.2 ⟨o, ho, by simpa using heq⟩)
    exact ⟨_, (revList_room L (by rw [h0]; simpa using hlen) hno).2, rfl⟩

theorem will_revInner (L : P.Lawful) {r : Ref T} (h0 : r.pid.layer = 0) {e : PWO T} (hne : e.pt.pid ≠ r.pid)
    (k : Prog (CSt T) Unit) : ∀ qs : List (PWO T), e ∈ qs → Will cfg c e0 r.pid e (revInner P cfg r k qs) := by
  intro qs
  induction qs with
  | nil => intro h; cases h
  | cons q qs ih =>
    intro he
    unfold revInner
    split
    · rename_i heq
      rcases List.mem_cons.1 he with rfl | he
      · exact absurd heq.symm hne
      · exact ih he
    · intro s hs hu _
      dsimp only
      rcases List.mem_cons.1 he with rfl | he
      · apply Will.of_back
        obtain ⟨e', he', hr⟩ := revList_has (P := P) L h0 (q := e) (hs.below e.pt.pid).1
        refine ⟨e', (hu e.pt.pid).2 e' ?_, hr⟩
        rw [h0]
        rw [setNb_nb, if_pos ⟨rfl, rfl⟩]
        exact he'
      · split
        · exact fun _ _ _ _ => trivial
        · exact ih he

theorem will_reverse (L : P.Lawful) {r : Ref T} (h0 : r.pid.layer = 0) {e : PWO T} (k : Prog (CSt T) Unit) : Will cfg c e0 r.pid e (reverseP P cfg r k [0]) := by
  intro s hs hu he
  exact will_revInner L h0 (hs.noSelf _ e he) _ _ he

theorem fair_revInner (L : P.Lawful) {r : Ref T} (h0 : r.pid.layer = 0) {k : Prog (CSt T) Unit}
    (hk : Fair cfg c e0 r.pid k) : ∀ qs : List (PWO T), (∀ q ∈ qs, q ∈ c.nb r.pid 0 ∧ Joined c e0 q.pt.pid) →
    Fair cfg c e0 r.pid (revInner P cfg r k qs) := by
  intro qs
  induction qs with
  | nil =>
    intro _ s _ _
    exact ⟨fun a e he => Or.inl he, Or.inl rfl, hk⟩
  | cons q qs ih =>
    intro hq
    have ih := ih fun x hx => hq x (List.mem_cons_of_mem _ hx)
    obtain ⟨hq1, hq2⟩ := hq q List.mem_cons_self
    unfold revInner
    split
    · exact ih
    · intro s hs hu
      refine ⟨fun a e he => ?_, Or.inr ⟨rfl, Or.inl ?_⟩, ?_⟩
      · change e ∈ (s.idx.setNb q.pt.pid r.pid.layer _).nb a 0 at he
        rw [setNb_nb, h0] at he
        split at he
        · rename_i haq
          rcases revList_new L e he with h1 | h1
          · exact Or.inl (haq.1 ▸ h1)
          · exact Or.inr (Or.inl ⟨q, h1 ▸ hq1, haq.1.symm⟩)
        · exact Or.inl he
      · obtain ⟨e', he', hr⟩ := revList_has (P := P) L h0 (q := q) (hs.below q.pt.pid).1
        rw [← hr]
        refine hq2.step ((hu q.pt.pid).2 e' ?_)
        rw [h0]
        rw [setNb_nb, if_pos ⟨rfl, rfl⟩]
        exact he'
      · dsimp only
        split
        · exact fun s _ _ => ⟨fun a e he => Or.inl he, Or.inl rfl, trivial⟩
        · exact ih

theorem fair_checkEntry (r : Ref T) : Fair cfg c e0 r.pid (checkEntryP r) :=
  fun _ _ _ => ⟨fun _ _ he => Or.inl he, Or.inr ⟨rfl, Or.inr rfl⟩, trivial⟩

theorem fair_reverse (L : P.Lawful) {r : Ref T} (h0 : r.pid.layer = 0) :
    Fair cfg c e0 r.pid (reverseP P cfg r (checkEntryP r) [0]) := by
  intro s hs _
  refine ⟨fun _ _ he => Or.inl he, Or.inl rfl, ?_⟩
  exact fair_revInner L h0 (fair_checkEntry r) _ fun q hq => ⟨(hs.below _).2 q hq, hs.joined _ q hq⟩

/-! ## What only reads -/

theorem fair_bind_ro {α : Type} {r : PointId} {t : Prog (CSt T) α} (h : ReadOnly t) {f : α → Prog (CSt T) Unit}
    (hf : ∀ a, Fair cfg c e0 r (f a)) : Fair cfg c e0 r (t.bind f) := by
  induction t with
  | ret a => exact hf a
  | fail e => trivial
  | act g u k ih =>
    intro s _ _
    rw [(h.1 s).2]
    exact ⟨fun _ _ he => Or.inl he, Or.inl rfl, ih s (h.2 s)⟩

theorem fair_read {r : PointId} {k : CSt T → Prog (CSt T) Unit} (h : ∀ s, Fair cfg c e0 r (k s)) :
    Fair cfg c e0 r (Prog.read k) :=
  fun s _ _ => ⟨fun _ _ he => Or.inl he, Or.inl rfl, h s⟩

theorem loopP_ro (q : List T) (ef layer : Nat) : ∀ (n : Nat) (st : SL P),
    ReadOnly (loopP P cfg q ef layer n st) := by
  intro n
  induction n with
  | zero => intro st; trivial
  | succ n ih =>
    intro st
    simp only [loopP]
    split
    · trivial
    · trivial
    · apply ReadOnly.read
      intro s
      split
      · trivial
      · trivial
      · exact ih _

theorem searchLayerP_ro (fuel : Nat) (q : List T) (ep : Ref T) (ef layer : Nat) :
    ReadOnly (searchLayerP P cfg fuel q ep ef layer) := by
  apply ReadOnly.read
  intro s
  split
  · trivial
  · trivial
  · exact loopP_ro _ _ _ _ _

theorem extendP_ro (layer : Nat) (cands : List (Ref T)) : ∀ (ps acc : List (Ref T)),
    ReadOnly (extendP layer cands ps acc) := by
  intro ps
  induction ps with
  | nil => intro acc; trivial
  | cons p ps ih => intro acc; exact ReadOnly.read fun s => ih _

theorem selectP_ro (p : Ref T) (cands : P.H) (asked : Nat) (ext : Bool) (layer : Nat) (kp : Bool) :
    ReadOnly (selectP P cfg p cands asked ext layer kp) := by
  unfold selectP
  split
  · exact .ofExcept fun _ => trivial
  split
  · exact (extendP_ro _ _ _ _).bind fun _ => .ofExcept fun _ => .ofExcept fun _ => trivial
  · exact .ofExcept fun _ => trivial

/-! ## The insertion -/

theorem prog_bind_assoc {σ α β γ : Type} (t : Prog σ α) (f : α → Prog σ β) (h : β → Prog σ γ) :
    (t.bind f).bind h = t.bind fun a => (f a).bind h := by
  induction t with
  | ret a => rfl
  | fail e => rfl
  | act g u k ih =>
    show Prog.act g u _ = Prog.act g u _
    congr 1
    funext s
    exact ih s

theorem fair_upper {r : Ref T} {fuel : Nat} {f : Ref T → Prog (CSt T) Unit}
    (hf : ∀ ep, Fair cfg c e0 r.pid (f ep)) : ∀ (ls : List Nat) (ep : Ref T) (d : F32), (∀ l ∈ ls, 0 < l) →
    Fair cfg c e0 r.pid ((upperP P cfg fuel r ls ep d).bind f) := by
  intro ls
  induction ls with
  | nil => intro ep d _; exact hf ep
  | cons l ls ih =>
    intro ep d hl
    have ih := fun ep d => ih ep d fun x hx => hl x (List.mem_cons_of_mem _ hx)
    have hl0 := hl l List.mem_cons_self
    unfold upperP
    rw [prog_bind_assoc]
    refine fair_bind_ro (searchLayerP_ro _ _ _ _ _) fun h => ?_
    split
    · trivial
    split
    · exact ih _ _
    rename_i e _ _
    have hnext : Fair cfg c e0 r.pid ((if (cfg.eval r.data e.pt.data).lt d = true then
        upperP P cfg fuel r ls e.pt (cfg.eval r.data e.pt.data) else upperP P cfg fuel r ls ep d).bind f) := by
      split
      · exact ih _ _
      · exact ih _ _
    refine fair_read fun s => ?_
    dsimp only
    by_cases hlt : (s.idx.nb r.pid l).length < cfg.maxNbU8
    · rw [if_pos hlt]
      intro s _ _
      refine ⟨fun a e' he => ?_, Or.inl rfl, hnext⟩
      change e' ∈ (s.idx.setNb r.pid l _).nb a 0 at he
      rw [setNb_nb, if_neg (fun h => by omega)] at he
      exact Or.inl he
    · rw [if_neg hlt]
      exact hnext

theorem fair_lower (L : P.Lawful) {r : Ref T} (h0 : r.pid.layer = 0) {fuel : Nat} (ep : Ref T) :
    Fair cfg c e0 r.pid ((lowerP P cfg fuel r [0] ep).bind fun _ => reverseP P cfg r (checkEntryP r) [0]) := by
  have hrev := fair_reverse (cfg := cfg) (c := c) (e0 := e0) (P := P) L h0
  unfold lowerP
  rw [prog_bind_assoc]
  refine fair_bind_ro (searchLayerP_ro _ _ _ _ _) fun h => ?_
  cases fromPositive P (P.items h) P.empty with
  | error e => trivial
  | ok nh =>
    change Fair cfg c e0 r.pid ((if P.items nh = [] then _ else _ : Prog (CSt T) Unit).bind _)
    split
    · exact hrev
    · rw [prog_bind_assoc]
      refine fair_bind_ro (selectP_ro _ _ _ _ _ _) fun v => ?_
      cases P.sortC v with
      | error e => trivial
      | ok nbrs =>
        intro s hs hu
        cases nbrs <;>
        · refine ⟨fun a e he => ?_, Or.inl rfl, hrev⟩
          by_cases har : a = r.pid
          · exact Or.inr (Or.inr ⟨har, will_reverse L h0 _⟩)
          · change e ∈ (s.idx.setNb r.pid 0 _).nb a 0 at he
            rw [setNb_nb, if_neg (fun h => har h.1)] at he
            exact Or.inl he

theorem fair_link (L : P.Lawful) {r : Ref T} (h0 : r.pid.layer = 0) (fuel rank : Nat) :
    Fair cfg c e0 r.pid (linkP P cfg fuel r rank) := by
  have hd : layersDown 0 0 = [0] := rfl
  unfold linkP
  refine fair_read fun s => ?_
  split
  · exact fair_checkEntry r
  split
  · trivial
  · rw [h0]
    refine fair_upper (fun ep => ?_) _ _ _ fun l hl => (mem_layersDown.1 hl).1
    rw [hd]
    exact fair_lower L h0 ep

theorem fair_count (L : P.Lawful) {r : Ref T} (h0 : r.pid.layer = 0) (fuel : Nat) :
    Fair cfg c e0 r.pid (countP P cfg fuel r) :=
  fun _ _ _ => ⟨fun _ _ he => Or.inl he, Or.inl rfl, fair_link L h0 _ _⟩

/-! ## All the threads -/

variable (cfg c e0) in
/-- invariant of the executions that end in `c` -/
structure FlatInv (s : CSt T) (ts : List (Prog (CSt T) Unit)) (ph : List (Phase T)) : Prop where
  link : ∀ a, ∀ e ∈ s.idx.nb a 0, Back c a e ∨ ∃ (i : Nat) (b : Phase T) (r : Ref T) (t : Prog (CSt T) Unit),
    ph[i]? = some b ∧ ts[i]? = some t ∧ b.ref = some r ∧ a = r.pid ∧ Will cfg c e0 r.pid e t
  thr : ∀ (i : Nat) b r t, ph[i]? = some b → ts[i]? = some t → b.ref = some r → Fair cfg c e0 r.pid t
  pub : ∀ q ∈ s.pub, Joined c e0 q

variable {fuel N : Nat} {D : List T → Prop} {W : Nat → Prop}

theorem flatInv_stepAt (L : P.Lawful) {s0 : CSt T} {jobs : List (Job T)} (hj0 : ∀ j ∈ jobs, j.level = 0) {s : CSt T}
    {ts : List (Prog (CSt T) Unit)} {i : Nat} (hi : i < ts.length) {g : CSt T → Bool} {u : CSt T → CSt T}
    {k : CSt T → Prog (CSt T) Unit} (hact : ts[i] = .act g u k) {ph ph' : List (Phase T)}
    (h : SysInv P cfg fuel N D W s0 jobs s ts ph) (h' : SysInv P cfg fuel N D W s0 jobs (u s) (ts.set i (k s)) ph')
    (hw' : LinkInv s0 (u s) (ts.set i (k s)) ph') (hb : Below cfg c s.idx) (hb' : Below cfg c (u s).idx)
    (hoth : ∀ n, n ≠ i → ph'[n]? = ph[n]?)
    (hmine : ∀ a, ph[i]? = some a → ∃ a', ph'[i]? = some a' ∧
        (a.ref = none → ∃ j, jobs[i]? = some j ∧ a'.ref = some (newRef (j.data, j.id) j.level s.idx)) ∧
        (a.ref ≠ none → a'.ref = a.ref)) (hf : FlatInv cfg c e0 s ts ph) :
    FlatInv cfg c e0 (u s) (ts.set i (k s)) ph' := by
  have hti : ts[i]? = some (.act g u k) := by rw [List.getElem?_eq_getElem hi, hact]
  have hti' : (ts.set i (k s))[i]? = some (k s) := List.getElem?_set_self hi
  have hilt : i < jobs.length := h.tlen ▸ hi
  have hji : jobs[i]? = some jobs[i] := List.getElem?_eq_getElem hilt
  have hlev : jobs[i].level = 0 := hj0 _ (List.getElem_mem hilt)
  have hplt : i < ph.length := by rw [h.len]; exact hilt
  have hpi : ph[i]? = some ph[i] := List.getElem?_eq_getElem hplt
  generalize jobs[i] = j at hji hlev
  generalize ph[i] = a at hpi
  have hseen : Seen cfg c e0 s :=
    ⟨hb, fun p e he => (h.env.inv.ok.noSelf p 0 e he), fun p e he => hf.pub _ (h.env.inv.pubLink p 0 e he)⟩
  obtain ⟨a', ha', hidle, hsame⟩ := hmine a hpi
  have hT := h.thr i j a _ hji hpi hti
  -- threads other than `i`
  have hkeep : ∀ n, n ≠ i → (ts.set i (k s))[n]? = ts[n]? := fun n hn => List.getElem?_set_ne (Ne.symm hn)
  cases har : a.ref with
  | none =>
    obtain ⟨j', hj', hr'⟩ := hidle har
    rw [hji] at hj'
    cases hj'
    cases a with
    | added r => cases har
    | running r rk => cases har
    | idle =>
      obtain ⟨hprog, -, hlt, -⟩ := hT
      have hlt' : j.level < s.idx.layers.length := by rw [h.env.inv.okB.tab.len]; exact hlt
      unfold Job.prog insertP at hprog
      cases hprog
      refine ⟨fun p e he => ?_, fun n b r t hbn htn hr => ?_, hf.pub⟩
      · rcases hf.link p e he with h1 | ⟨n, b, r, t, h1, h2, h3, h4⟩
        · exact Or.inl h1
        · have hni : n ≠ i := by
            rintro rfl
            rw [hpi] at h1
            cases h1
            cases h3
          exact Or.inr ⟨n, b, r, t, (hoth n hni).trans h1, (hkeep n hni).trans h2, h3, h4⟩
      · by_cases hni : n = i
        · subst hni
          rw [ha'] at hbn
          cases hbn
          rw [hti'] at htn
          cases htn
          rw [hr'] at hr
          cases hr
          dsimp only
          rw [if_pos hlt']
          exact fair_count L hlev _
        · exact hf.thr n b r t ((hoth n hni).symm.trans hbn) ((hkeep n hni).symm.trans htn) hr
  | some r =>
    have hr' : a'.ref = some r := (hsame (by rw [har]; simp)).trans har
    obtain ⟨hlinks, hpub, hfair⟩ := hf.thr i a r _ hpi hti har s hseen hb'
    have hlay : r.pid.layer = 0 := by
      cases a with
      | idle => cases har
      | added r1 => cases har; rw [← hlev]; exact hT.2.2.1.2.2
      | running r1 rk => cases har; rw [← hlev]; exact hT.2.2.2.2
    have hlink : ∀ p, ∀ e ∈ (u s).idx.nb p 0, Back c p e ∨
        ∃ (i' : Nat) (b : Phase T) (r : Ref T) (t : Prog (CSt T) Unit),
          ph'[i']? = some b ∧ (ts.set i (k s))[i']? = some t ∧ b.ref = some r ∧ p = r.pid ∧
            Will cfg c e0 r.pid e t := by
      intro p e he
      rcases hlinks p e he with h1 | h1 | ⟨h1, h2⟩
      · rcases hf.link p e h1 with h2 | ⟨n, b, r1, t, h2, h3, h4, h5, h6⟩
        · exact Or.inl h2
        · by_cases hni : n = i
          · subst hni
            rw [hpi] at h2
            cases h2
            rw [hti] at h3
            cases h3
            rw [har] at h4
            cases h4
            exact Or.inr ⟨n, a', r, _, ha', hti', hr', h5, h6 s hseen hb' (h5 ▸ h1)⟩
          · exact Or.inr ⟨n, b, r1, t, (hoth n hni).trans h2, (hkeep n hni).trans h3, h4, h5, h6⟩
      · exact Or.inl h1
      · exact Or.inr ⟨i, a', r, _, ha', hti', hr', h1, h2⟩
    refine ⟨hlink, fun n b r1 t hbn htn hr => ?_, ?_⟩
    · by_cases hni : n = i
      · subst hni
        rw [ha'] at hbn
        cases hbn
        rw [hti'] at htn
        cases htn
        rw [hr'] at hr
        cases hr
        exact hfair
      · exact hf.thr n b r1 t ((hoth n hni).symm.trans hbn) ((hkeep n hni).symm.trans htn) hr
    · rcases hpub with hpub | ⟨hpub, hor⟩
      · rw [hpub]
        exact hf.pub
      · have hj : Joined c e0 r.pid := by
          rcases hor with h1 | h1
          · exact h1
          have hl := hw'.thr i a' _ r ha' hti' hr'
          rw [h1] at hl
          have hne := hl (u s) (.refl _) r.pid.layer (Nat.le_refl _) (Or.inr rfl)
          rw [hlay] at hne
          obtain ⟨e, he⟩ := List.exists_mem_of_ne_nil _ hne
          have hself := h'.env.inv.ok.noSelf r.pid 0 e he
          have hin := h'.env.inv.pubLink r.pid 0 e he
          rw [hpub] at hin
          have hje := hf.pub _ ((List.mem_cons.1 hin).resolve_left hself)
          have hback : Back c r.pid e := by
            rcases hlink r.pid e he with h2 | ⟨n, b, r1, t, h2, h3, h4, h5, h6⟩
            · exact h2
            · by_cases hni : n = i
              · subst hni
                rw [hti', h1] at h3
                cases h3
                rw [← h5] at h6
                exact h6
              · exact absurd h5 (h'.dist i n a' b r r1 (Ne.symm hni) ha' h2 hr' h4)
          obtain ⟨e', he', hr1⟩ := hback
          exact hr1 ▸ hje.step he'
        intro q hq
        rw [hpub] at hq
        rcases List.mem_cons.1 hq with rfl | hq
        · exact hj
        · exact hf.pub q hq

theorem flatInv_steps (L : P.Lawful) (hfu : N + 1 ≤ fuel) {s0 : CSt T} (he0 : s0.idx.entry ≠ none)
    (hn0 : s0.idx.nbPoint ≠ 0) {jobs : List (Job T)} (hj0 : ∀ j ∈ jobs, j.level = 0)
    {c1 : CSt T} {ts1 : List (Prog (CSt T) Unit)} (hN : ∀ p, (c1.idx.nb p 0).length < 2 * cfg.maxNb)
    {a b : CSt T × List (Prog (CSt T) Unit)} (hs : Steps a b) (hend : Steps b (c1, ts1)) {ph : List (Phase T)}
    (h : SysInv P cfg fuel N D W s0 jobs a.1 a.2 ph) (hw : LinkInv s0 a.1 a.2 ph)
    (hf : FlatInv cfg c1.idx e0 a.1 a.2 ph) :
    ∃ ph', SysInv P cfg fuel N D W s0 jobs b.1 b.2 ph' ∧ LinkInv s0 b.1 b.2 ph' ∧
      FlatInv cfg c1.idx e0 b.1 b.2 ph' := by
  have hB : Base.none.Owned s0.idx := Base.owned_none _
  have hm : 0 < cfg.maxNb := by
    have := hN ⟨0, 0⟩
    omega
  have below : ∀ {x : CSt T × List (Prog (CSt T) Unit)} {ph : List (Phase T)}, Steps x (c1, ts1) →
      SysInv P cfg fuel N D W s0 jobs x.1 x.2 ph → Below cfg c1.idx x.1.idx := by
    intro x ph hx hS p
    have himp := (steps_improves L hfu hB hx hS p 0).resolve_left id
    have h1 := himp.len
    have h2 := hN p
    simp only at h1
    refine ⟨by omega, fun e he => ?_⟩
    refine Classical.byContradiction fun hne => ?_
    have h3 := (himp.lost e he hne).1
    simp only [degreeBound, if_true] at h3
    omega
  induction hs with
  | refl => exact ⟨ph, h, hw, hf⟩
  | @step b b' hs1 hstep ih =>
    obtain ⟨ph1, h1, hw1, hf1⟩ := ih ((Steps.step (.refl _) hstep).trans hend)
    have hb := below ((Steps.step (.refl _) hstep).trans hend) h1
    cases hstep with
    | mk i hi g u k hact hg =>
    obtain ⟨ph', h', hoth, -, hmine⟩ := sysInv_stepAt L hfu hB hi hact hg h1
    have hw' := linkInv_stepAt L hm he0 hn0 hi hact hg h1 hw1 hoth hmine
    exact ⟨ph', h', hw', flatInv_stepAt L hj0 hi hact h1 h' hw' hb (below hend h') hoth hmine hf1⟩

end Verif
