import Verif.DumpConc
import Verif.ApiLemmas
import Verif.SearchConc

set_option autoImplicit false

/-! # A dump running at the same time as insertions: lemmas -/

namespace Verif
variable {T : Type} {P : Policy T} {cfg : Cfg T}

/-- the insertions are not influenced by the dump -/
theorem DSteps.steps {a b : DSys T} (h : DSteps a b) : Steps (a.st, a.ins) (b.st, b.ins) := by
  induction h with
  | refl => exact .refl _
  | step _ hs ih =>
    cases hs with
    | ins h _ => exact .step ih h
    | _ => exact ih

theorem DExec.exec {c0 : CSt T} {jobs : List (Job T)} {m : DSys T} (h : DExec P cfg c0 jobs m) :
    Exec P cfg c0 jobs m.st m.ins := DSteps.steps h

theorem stored_layers {s s' : Idx T} (h : s'.layers = s.layers) (p : Ref T) : Stored s' p ↔ Stored s p := by
  unfold Stored Idx.points
  rw [h]

theorem layer_layers {s s' : Idx T} (h : s'.layers = s.layers) (l : Nat) : s'.layer l = s.layer l := by
  unfold Idx.layer
  rw [h]

variable {B : Base T}

/-- Lists taken from indexes with the same table can be mixed. -/
theorem IdxOKB.mix {s1 s2 s : Idx T} (h1 : IdxOKB B cfg s1) (h2 : IdxOKB B cfg s2) (hl1 : s.layers = s1.layers)
    (hl2 : s.layers = s2.layers) (hn : ∀ q, s.nb q = s1.nb q ∨ s.nb q = s2.nb q)
    (he : s.entry = s1.entry ∨ s.entry = s2.entry) : IdxOKB B cfg s := by
  have hs1 : ∀ p, Stored s p ↔ Stored s1 p := stored_layers hl1
  have hs2 : ∀ p, Stored s p ↔ Stored s2 p := stored_layers hl2
  refine ⟨⟨?_, ?_⟩, ?_, ?_, ?_, ?_, ?_, ?_, ?_, ?_, ?_, ?_, ?_⟩
  · rw [hl1]; exact h1.tab.len
  · intro l r p hp
    rw [layer_layers hl1] at hp
    exact h1.tab.ids l r p hp
  · intro p l hp
    rcases hn p with e | e <;> rw [e] at hp
    · obtain ⟨o, ho, hp⟩ := h1.owner p l hp; exact ⟨o, (hs1 o).2 ho, hp⟩
    · obtain ⟨o, ho, hp⟩ := h2.owner p l hp; exact ⟨o, (hs2 o).2 ho, hp⟩
  · intro p l hp
    rcases hn p with e | e <;> rw [e] at hp
    · exact h1.lay p l hp
    · exact h2.lay p l hp
  · intro p l x hx
    rcases hn p with e | e <;> rw [e] at hx
    · exact (hs1 _).2 (h1.stored p l x hx)
    · exact (hs2 _).2 (h2.stored p l x hx)
  · intro p l x hx
    rcases hn p with e | e <;> rw [e] at hx
    · exact h1.noSelf p l x hx
    · exact h2.noSelf p l x hx
  · intro o ho l x hx
    rcases hn o.pid with e | e <;> rw [e] at hx
    · exact h1.dist o ((hs1 o).1 ho) l x hx
    · exact h2.dist o ((hs2 o).1 ho) l x hx
  · intro p l
    rcases hn p with e | e <;> rw [e]
    · exact h1.num p l
    · exact h2.num p l
  · intro p l x hx
    rcases hn p with e | e <;> rw [e] at hx
    · exact h1.legal p l x hx
    · exact h2.legal p l x hx
  · intro p l
    rcases hn p with e | e <;> rw [e]
    · exact h1.sorted p l
    · exact h2.sorted p l
  · intro p l
    rcases hn p with e | e <;> rw [e]
    · exact h1.nodup p l
    · exact h2.nodup p l
  · intro p l
    rcases hn p with e | e <;> rw [e]
    · exact h1.bound p l
    · exact h2.bound p l
  · intro x hx
    rcases he with e | e <;> rw [e] at hx
    · exact (hs1 _).2 (h1.entry x hx)
    · exact (hs2 _).2 (h2.entry x hx)

theorem IdxOK.mix {s1 s2 s : Idx T} (h1 : IdxOK cfg s1) (h2 : IdxOK cfg s2) (hl1 : s.layers = s1.layers)
    (hl2 : s.layers = s2.layers) (hn : ∀ q, s.nb q = s1.nb q ∨ s.nb q = s2.nb q)
    (he : s.entry = s1.entry ∨ s.entry = s2.entry) : IdxOK cfg s :=
  idxOKB_none.1 (IdxOKB.mix (idxOKB_none.2 h1) (idxOKB_none.2 h2) hl1 hl2 hn he)

/-- an index without links -/
theorem IdxOKB.clear {s : Idx T} (h : IdxOKB B cfg s) : IdxOKB B cfg { s with nb := fun _ _ => [] } := by
  refine ⟨⟨h.tab.len, h.tab.ids⟩, ?_, ?_, ?_, ?_, ?_, ?_, ?_, ?_, ?_, ?_, fun e he => h.entry e he⟩ <;>
    simp

/-- the list of `p` in `nb` is the one `p` had at a moment when the dump had locked the table -/
def ReadAt (m0 m : DSys T) (nb : PointId → Nat → List (PWO T)) (p : Ref T) : Prop :=
  ∃ m1, DSteps m0 m1 ∧ DSteps m1 m ∧ m1.dump.holds = true ∧ nb p.pid = m1.st.idx.nb p.pid

theorem ReadAt.step {m0 m m' : DSys T} {nb : PointId → Nat → List (PWO T)} {p : Ref T}
    (h : ReadAt m0 m nb p) (hs : DStep m m') : ReadAt m0 m' nb p := by
  obtain ⟨m1, h1, h2, h3, h4⟩ := h
  exact ⟨m1, h1, .step h2 hs, h3, h4⟩

/-- What is known of the dump. `dims` is a property of the dimension read. -/
def DumpOKB (B : Base T) (cfg : Cfg T) (dims : Nat → Prop) (c0 : CSt T) (m0 m : DSys T) : Prop :=
  match m.dump with
  | .start => True
  | .dim d => dims d
  | .count d n => dims d ∧ n ≤ m.st.idx.points.length
  | .table d n todo nb => dims d ∧ n ≤ m.st.idx.points.length ∧
      IdxOKB B cfg { m.st.idx with nb := nb } ∧
      ∀ p, Stored m.st.idx p → p ∈ todo ∨ ReadAt m0 m nb p
  | .done d s => dims d ∧ s.nbPoint ≤ s.points.length ∧ IdxOKB B cfg s ∧
      (∀ p, Stored c0.idx p → Stored s p) ∧ (∀ p, Stored s p → Stored m.st.idx p) ∧
      (∀ e, c0.idx.entry = some e → ∃ e', s.entry = some e' ∧ e.pid.layer ≤ e'.pid.layer) ∧
      ∀ p, Stored s p → ReadAt m0 m s.nb p

/-- facts about the states of an execution of insertions -/
structure ExecFactsB (B : Base T) (cfg : Cfg T) (D : List T → Prop) (c0 s : CSt T) : Prop where
  ok : IdxOKB B cfg s.idx
  count : s.idx.nbPoint ≤ s.idx.points.length
  old : ∀ p, Stored c0.idx p → Stored s.idx p
  entry : ∀ e, c0.idx.entry = some e → ∃ e', s.idx.entry = some e' ∧ e.pid.layer ≤ e'.pid.layer
  data : ∀ p, Stored s.idx p → D p.data

theorem filterMap_ref_length (ph : List (Phase T)) :
    ph.countP Phase.isRunning ≤ (ph.filterMap Phase.ref).length := by
  induction ph with
  | nil => simp
  | cons a ph ih =>
    cases a <;> simp only [List.countP_cons, List.filterMap_cons, Phase.isRunning, Phase.ref, List.length_cons] <;>
      simp <;> omega

theorem Exec.factsB (L : P.Lawful) {c0 : CSt T} (h : GoodCB B cfg c0) (hB : B.Owned c0.idx) {jobs : List (Job T)}
    (hl : ∀ j ∈ jobs, j.level < cfg.maxLayer) {c : CSt T} {ts : List (Prog (CSt T) Unit)}
    (he : Exec P cfg c0 jobs c ts) (D : List T → Prop) (hD : ∀ v, Stored c0.idx v → D v.data)
    (hDj : ∀ j ∈ jobs, D j.data) : ExecFactsB B cfg D c0 c := by
  obtain ⟨ph, hi⟩ := Exec.invB L h hB hl he D hD hDj
  refine ⟨hi.env.inv.okB, ?_, fun p hp => (hi.old p hp).stored p hp, hi.entry, hi.env.data⟩
  have h1 := hi.perm.length_eq
  have h2 := filterMap_ref_length ph
  have h3 := h.count
  rw [List.length_append] at h1
  have h4 := hi.count
  omega

theorem points_pid_injB {s : Idx T} (h : IdxOKB B cfg s) {p q : Ref T} (hp : Stored s p) (hq : Stored s q)
    (hpq : p.pid = q.pid) : p = q := by
  obtain ⟨ps, hps, hp⟩ := List.mem_flatten.1 hp
  obtain ⟨l, hl⟩ := List.getElem?_of_mem hps
  obtain ⟨r, hr⟩ := List.getElem?_of_mem hp
  obtain ⟨qs, hqs, hq⟩ := List.mem_flatten.1 hq
  obtain ⟨l', hl'⟩ := List.getElem?_of_mem hqs
  obtain ⟨r', hr'⟩ := List.getElem?_of_mem hq
  have e1 := h.tab.ids l r p (by rw [layer_eq hl]; exact hr)
  have e2 := h.tab.ids l' r' q (by rw [layer_eq hl']; exact hr')
  rw [e1, e2] at hpq
  injection hpq with h1 h2
  subst h1 h2
  rw [hl, Option.some.injEq] at hl'
  subst hl'
  rw [hr, Option.some.injEq] at hr'
  exact hr'

theorem dumpOKB (L : P.Lawful) {c0 : CSt T} (h : GoodCB B cfg c0) (hB : B.Owned c0.idx) {jobs : List (Job T)}
    (hl : ∀ j ∈ jobs, j.level < cfg.maxLayer) (D : List T → Prop) (hD : ∀ v, Stored c0.idx v → D v.data)
    (hDj : ∀ j ∈ jobs, D j.data) (dims : Nat → Prop)
    (hdim : ∀ s, ExecFactsB B cfg D c0 s → dims (getDataDimension s.idx)) {m : DSys T}
    (he : DExec P cfg c0 jobs m) :
    DumpOKB B cfg dims c0
      ⟨c0, jobs.map (Job.prog P cfg (c0.idx.points.length + jobs.length + 2)), .start⟩ m := by
  unfold DExec at he
  generalize hm0 : (⟨c0, jobs.map (Job.prog P cfg (c0.idx.points.length + jobs.length + 2)), .start⟩ :
    DSys T) = m0 at he ⊢
  induction he with
  | refl => subst hm0; trivial
  | @step b c hb hs ih =>
    have hfb : ExecFactsB B cfg D c0 b.st :=
      Exec.factsB L h hB hl (DExec.exec (m := b) (by rw [DExec, hm0]; exact hb)) D hD hDj
    have hfc : ExecFactsB B cfg D c0 c.st :=
      Exec.factsB L h hB hl (DExec.exec (m := c) (by rw [DExec, hm0]; exact .step hb hs)) D hD hDj
    have hs0 := hs
    cases hs with
    | @ins s s' ts ts' d hst hlay =>
      have mono : s.idx.points.length ≤ s'.idx.points.length ∧
          ∀ p, Stored s.idx p → Stored s'.idx p := by
        obtain ⟨ph, hi⟩ := Exec.invB L h hB hl (DExec.exec (m := ⟨s, ts, d⟩) (by rw [DExec, hm0]; exact hb)) D hD hDj
        have hm := (sysInv_mono (c := (s, ts)) (c' := (s', ts')) hst hi).stored
        refine ⟨length_le_of_nodup_subset ?_ fun p hp => hm p hp, hm⟩
        exact List.Pairwise.of_map _ (fun a b hab heq => hab (by rw [heq])) (pids_points_nodup hfb.ok.tab)
      cases d with
      | start => trivial
      | dim d => exact ih
      | count d n => exact ⟨ih.1, Nat.le_trans ih.2 mono.1⟩
      | table d n todo nb =>
        obtain ⟨i1, i2, i3, i4⟩ := ih
        have hlay := hlay rfl
        refine ⟨i1, Nat.le_trans i2 mono.1, ?_, ?_⟩
        · exact IdxOKB.mix i3 hfc.ok hlay rfl (fun q => .inl rfl) (.inr rfl)
        · intro p hp
          exact (i4 p ((stored_layers hlay p).1 hp)).imp id fun hr => hr.step hs0
      | done d x =>
        obtain ⟨i1, i2, i3, i4, i5, i6, i7⟩ := ih
        exact ⟨i1, i2, i3, i4, fun p hp => mono.2 p (i5 p hp), i6, fun p hp => (i7 p hp).step hs0⟩
    | dim => exact hdim _ hfb
    | count => exact ⟨ih, hfb.count⟩
    | lock =>
      exact ⟨ih.1, ih.2, hfb.ok.clear, fun p hp => .inl hp⟩
    | @point s ts d n p todo nb =>
      obtain ⟨i1, i2, i3, i4⟩ := ih
      refine ⟨i1, i2, ?_, ?_⟩
      · refine IdxOKB.mix i3 hfb.ok rfl rfl (fun q => ?_) (.inl rfl)
        by_cases hq : q = p.pid
        · right; simp [hq]
        · left; simp [hq]
      · intro q hq
        by_cases hqp : q.pid = p.pid
        · refine .inr ⟨_, hb, .step (.refl _) hs0, rfl, ?_⟩
          simp [hqp]
        · rcases i4 q hq with hq' | hq'
          · rcases List.mem_cons.1 hq' with rfl | hq'
            · exact absurd rfl hqp
            · exact .inl hq'
          · right
            obtain ⟨m1, h1, h2, h3, h4⟩ := hq'
            exact ⟨m1, h1, .step h2 hs0, h3, by simp [hqp, h4]⟩
    | @entry s ts d n nb =>
      obtain ⟨i1, i2, i3, i4⟩ := ih
      refine ⟨i1, i2, ?_, hfb.old, fun p hp => hp, hfb.entry, ?_⟩
      · exact IdxOKB.mix i3 i3 rfl rfl (fun q => .inl rfl) (.inl rfl)
      · intro p hp
        rcases i4 p hp with hp' | hp'
        · cases hp'
        · exact hp'.step hs0

/-! ## Without inherited links -/

/-- without inherited links -/
def DumpOK (cfg : Cfg T) (dims : Nat → Prop) (c0 : CSt T) (m0 m : DSys T) : Prop :=
  match m.dump with
  | .start => True
  | .dim d => dims d
  | .count d n => dims d ∧ n ≤ m.st.idx.points.length
  | .table d n todo nb => dims d ∧ n ≤ m.st.idx.points.length ∧
      IdxOK cfg { m.st.idx with nb := nb } ∧
      ∀ p, Stored m.st.idx p → p ∈ todo ∨ ReadAt m0 m nb p
  | .done d s => dims d ∧ s.nbPoint ≤ s.points.length ∧ IdxOK cfg s ∧
      (∀ p, Stored c0.idx p → Stored s p) ∧ (∀ p, Stored s p → Stored m.st.idx p) ∧
      (∀ e, c0.idx.entry = some e → ∃ e', s.entry = some e' ∧ e.pid.layer ≤ e'.pid.layer) ∧
      ∀ p, Stored s p → ReadAt m0 m s.nb p

/-- facts about the states of an execution of insertions -/
structure ExecFacts (cfg : Cfg T) (D : List T → Prop) (c0 s : CSt T) : Prop where
  ok : IdxOK cfg s.idx
  count : s.idx.nbPoint ≤ s.idx.points.length
  old : ∀ p, Stored c0.idx p → Stored s.idx p
  entry : ∀ e, c0.idx.entry = some e → ∃ e', s.idx.entry = some e' ∧ e.pid.layer ≤ e'.pid.layer
  data : ∀ p, Stored s.idx p → D p.data

theorem Exec.facts (L : P.Lawful) {c0 : CSt T} (h : GoodC cfg c0) {jobs : List (Job T)}
    (hl : ∀ j ∈ jobs, j.level < cfg.maxLayer) {c : CSt T} {ts : List (Prog (CSt T) Unit)}
    (he : Exec P cfg c0 jobs c ts) (D : List T → Prop) (hD : ∀ v, Stored c0.idx v → D v.data)
    (hDj : ∀ j ∈ jobs, D j.data) : ExecFacts cfg D c0 c := by
  obtain ⟨h1, h2, h3, h4, h5⟩ := Exec.factsB L h (Base.owned_none _) hl he D hD hDj
  exact ⟨idxOKB_none.1 h1, h2, h3, h4, h5⟩

theorem points_pid_inj {s : Idx T} (h : IdxOK cfg s) {p q : Ref T} (hp : Stored s p) (hq : Stored s q)
    (hpq : p.pid = q.pid) : p = q := points_pid_injB (idxOKB_none.2 h) hp hq hpq

theorem dumpOK (L : P.Lawful) {c0 : CSt T} (h : GoodC cfg c0) {jobs : List (Job T)}
    (hl : ∀ j ∈ jobs, j.level < cfg.maxLayer) (D : List T → Prop) (hD : ∀ v, Stored c0.idx v → D v.data)
    (hDj : ∀ j ∈ jobs, D j.data) (dims : Nat → Prop)
    (hdim : ∀ s, ExecFacts cfg D c0 s → dims (getDataDimension s.idx)) {m : DSys T}
    (he : DExec P cfg c0 jobs m) :
    DumpOK cfg dims c0
      ⟨c0, jobs.map (Job.prog P cfg (c0.idx.points.length + jobs.length + 2)), .start⟩ m := by
  have := dumpOKB L h (Base.owned_none _) hl D hD hDj dims
    (fun s hs => hdim s ⟨idxOKB_none.1 hs.ok, hs.count, hs.old, hs.entry, hs.data⟩) he
  unfold DumpOKB at this
  unfold DumpOK
  split
  · trivial
  · simp_all
  · simp_all
  · simp_all [idxOKB_none]
  · simp_all [idxOKB_none]

end Verif
