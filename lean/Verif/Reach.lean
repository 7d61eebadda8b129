import Verif.Sys

set_option autoImplicit false

/-!
# Executions and reachable indexes
-/

namespace Verif
variable {T : Type}

/-- The flags a user may change between insertions (`set_extend_candidates`,
`set_keeping_pruned`, /repo/src/hnsw.rs 834-849). -/
def Cfg.withFlags (cfg : Cfg T) (extend keepPruned : Bool) : Cfg T :=
  { cfg with extend := extend, keepPruned := keepPruned }

/-- `(c, ts)` is reached from the quiescent state `c0` by running the insertions `jobs`, one thread
each, under some schedule (`parallel_insert`, /repo/src/hnsw.rs 1199-1205, or several client
threads calling `insert`). -/
def Exec (P : Policy T) (cfg : Cfg T) (c0 : CSt T) (jobs : List (Job T)) (c : CSt T)
    (ts : List (Prog (CSt T) Unit)) : Prop :=
  Steps (c0, jobs.map (Job.prog P cfg (c0.idx.points.length + jobs.length + 2))) (c, ts)

/-- What is left of an index after a dump and a reload in the same vector type and distance: the
same table and entry point, the same lists sorted again (/repo/src/hnswio.rs 986-990).  That the byte
level model of dump and reload does exactly this is `C40_reload_same_partial`. -/
def Idx.resort (P : Policy T) (s : Idx T) : Idx T :=
  { s with nb := fun p l => P.sort (s.nb p l) }

/-- States that can be obtained: from an empty index, by batches of concurrent insertions (a batch
of one is a plain `insert`), each batch having run until all its threads returned or panicked, and
by dumping the index and going on with a reload of it. -/
inductive ReachC (P : Policy T) (cfg : Cfg T) : CSt T → Prop
  | new : ReachC P cfg (CSt.new cfg.maxLayer)
  | batch {c0 : CSt T} (ext kp : Bool) (jobs : List (Job T)) {c : CSt T}
      {ts : List (Prog (CSt T) Unit)} :
      ReachC P cfg c0 → (∀ j ∈ jobs, j.level < cfg.maxLayer) →
      Exec P (cfg.withFlags ext kp) c0 jobs c ts → (∀ t ∈ ts, t.Finished) → ReachC P cfg c
  | reload {c0 : CSt T} : ReachC P cfg c0 → ReachC P cfg { c0 with idx := c0.idx.resort P }

/-- The same, no insertion having panicked. -/
inductive ReachRet (P : Policy T) (cfg : Cfg T) : CSt T → Prop
  | new : ReachRet P cfg (CSt.new cfg.maxLayer)
  | batch {c0 : CSt T} (ext kp : Bool) (jobs : List (Job T)) {c : CSt T}
      {ts : List (Prog (CSt T) Unit)} :
      ReachRet P cfg c0 → (∀ j ∈ jobs, j.level < cfg.maxLayer) →
      Exec P (cfg.withFlags ext kp) c0 jobs c ts → (∀ t ∈ ts, t = .ret ()) → ReachRet P cfg c
  | reload {c0 : CSt T} : ReachRet P cfg c0 → ReachRet P cfg { c0 with idx := c0.idx.resort P }

theorem ReachRet.reachC {P : Policy T} {cfg : Cfg T} {c : CSt T} (h : ReachRet P cfg c) :
    ReachC P cfg c := by
  induction h with
  | new => exact .new
  | batch ext kp jobs _ hl he hf ih =>
    exact .batch ext kp jobs ih hl he (fun t ht => by rw [hf t ht]; trivial)
  | reload _ ih => exact .reload ih

/-- Indexes that can be obtained. -/
def Reach (P : Policy T) (cfg : Cfg T) (s : Idx T) : Prop := ∃ c, ReachC P cfg c ∧ c.idx = s

/-- States obtained by successive calls of `insert` that all returned, with dumps and reloads in
between. -/
inductive SeqReach (P : Policy T) (cfg : Cfg T) : List (Job T) → CSt T → Prop
  | new : SeqReach P cfg [] (CSt.new cfg.maxLayer)
  | insert {jobs : List (Job T)} {c0 : CSt T} (ext kp : Bool) (j : Job T) {c : CSt T} :
      SeqReach P cfg jobs c0 → j.level < cfg.maxLayer →
      insert P (cfg.withFlags ext kp) c0 (j.data, j.id) j.level = .ok () c →
      SeqReach P cfg (jobs ++ [j]) c
  | reload {jobs : List (Job T)} {c0 : CSt T} :
      SeqReach P cfg jobs c0 → SeqReach P cfg jobs { c0 with idx := c0.idx.resort P }

theorem idxOK_new (cfg : Cfg T) : IdxOK cfg (Idx.new cfg.maxLayer) := by
  constructor
  · exact TableOK.new _
  all_goals first | (intros; contradiction) | simp [Idx.new]
  
variable {B : Base T} {P : Policy T} {cfg : Cfg T}

theorem idxOK_flags {s : Idx T} {e k : Bool} : IdxOK (cfg.withFlags e k) s ↔ IdxOK cfg s :=
  ⟨fun h => ⟨h.tab, h.owner, h.lay, h.stored, h.noSelf, h.dist, h.legal, h.sorted, h.nodup, h.bound,
    h.entry⟩, fun h => ⟨h.tab, h.owner, h.lay, h.stored, h.noSelf, h.dist, h.legal, h.sorted,
    h.nodup, h.bound, h.entry⟩⟩

/-- Invariants of an index that nobody is modifying. -/
structure Good (cfg : Cfg T) (s : Idx T) : Prop where
  ok : IdxOK cfg s
  count : s.nbPoint = s.points.length
  entry : s.points ≠ [] → s.entry ≠ none

/-- Invariants of a state where no insertion is running. -/
structure GoodCB (B : Base T) (cfg : Cfg T) (c : CSt T) : Prop where
  inv : GInvB B cfg c
  held : c.held = []
  count : c.idx.nbPoint = c.idx.points.length
  entry : c.idx.points ≠ [] → c.idx.entry ≠ none
  pubTop : ∀ o, Stored c.idx o → o.pid ∈ c.pub → EntryAbove o c ∨ B.high o.pid ∨ B.Wild

/-- without inherited links -/
abbrev GoodC (cfg : Cfg T) (c : CSt T) : Prop := GoodCB Base.none cfg c

/-- inherited links belong to points of the index -/
def Base.Owned (B : Base T) (s : Idx T) : Prop := ∀ p l e, B.link p l e → ∃ o, Stored s o ∧ o.pid = p

theorem Base.owned_none (s : Idx T) : (Base.none : Base T).Owned s := fun _ _ _ h => h.elim

theorem GoodCB.good {c : CSt T} (h : GoodC cfg c) : Good cfg c.idx := ⟨h.inv.ok, h.count, h.entry⟩

/-- invariant of an execution -/
theorem Exec.invB (L : P.Lawful) {c0 : CSt T} (h : GoodCB B cfg c0) (hB : B.Owned c0.idx) {jobs : List (Job T)}
    (hl : ∀ j ∈ jobs, j.level < cfg.maxLayer) {c : CSt T} {ts : List (Prog (CSt T) Unit)}
    (he : Exec P cfg c0 jobs c ts) (D : List T → Prop) (hD : ∀ v, Stored c0.idx v → D v.data)
    (hDj : ∀ j ∈ jobs, D j.data) :
    ∃ ph, SysInvB B P cfg (c0.idx.points.length + jobs.length + 2)
      (c0.idx.points.length + jobs.length) D
      (fun l => ∃ j ∈ jobs, j.level = l) c0 jobs c ts ph :=
  sysInv_steps (c' := (c, ts)) L (by omega) hB he
    (sysInv_init h.inv h.held hl (fun j hj => ⟨j, hj, rfl⟩) hD hDj (Nat.le_refl _))

theorem Exec.inv (L : P.Lawful) {c0 : CSt T} (h : GoodC cfg c0) {jobs : List (Job T)}
    (hl : ∀ j ∈ jobs, j.level < cfg.maxLayer) {c : CSt T} {ts : List (Prog (CSt T) Unit)}
    (he : Exec P cfg c0 jobs c ts) (D : List T → Prop) (hD : ∀ v, Stored c0.idx v → D v.data)
    (hDj : ∀ j ∈ jobs, D j.data) :
    ∃ ph, SysInv P cfg (c0.idx.points.length + jobs.length + 2)
      (c0.idx.points.length + jobs.length) D
      (fun l => ∃ j ∈ jobs, j.level = l) c0 jobs c ts ph :=
  Exec.invB L h (Base.owned_none _) hl he D hD hDj

theorem SysInvB.all_running {fuel N : Nat} {D : List T → Prop} {W : Nat → Prop} {s0 : CSt T}
    {jobs : List (Job T)} {s : CSt T} {ts : List (Prog (CSt T) Unit)} {ph : List (Phase T)}
    (h : SysInvB B P cfg fuel N D W s0 jobs s ts ph) (hf : ∀ t ∈ ts, t.Finished) :
    ∀ a ∈ ph, a.isRunning = true := by
  intro a ha
  obtain ⟨i, hi⟩ := List.getElem?_of_mem ha
  have hlt : i < ph.length := (List.getElem?_eq_some_iff.1 hi).1
  have hj : i < jobs.length := h.len ▸ hlt
  have ht : i < ts.length := h.tlen ▸ hj
  have hT := h.thr i _ a _ (List.getElem?_eq_getElem hj) hi (List.getElem?_eq_getElem ht)
  have hfin := hf _ (List.getElem_mem ht)
  cases a with
  | idle => rw [hT.1] at hfin; exact absurd hfin (by simp [Job.prog, insertP, Prog.Finished])
  | added r => rw [hT.1] at hfin; exact absurd hfin (by simp [countP, Prog.Finished])
  | running r rk => rfl

theorem filterMap_length_of_running {ph : List (Phase T)} (h : ∀ a ∈ ph, a.isRunning = true) :
    (ph.filterMap Phase.ref).length = ph.length := by
  induction ph with
  | nil => rfl
  | cons a ph ih =>
    have := h a (by simp)
    cases a with
    | idle => cases this
    | added r => cases this
    | running r rk =>
      simp [Phase.ref, ih (fun b hb => h b (List.mem_cons_of_mem _ hb))]

/-- after all threads are done, the counter is the number of points, no lock is held, and there is
an entry point -/
theorem SysInvB.final {fuel N : Nat} {D : List T → Prop} {W : Nat → Prop} {s0 : CSt T}
    {jobs : List (Job T)} {s : CSt T} {ts : List (Prog (CSt T) Unit)} {ph : List (Phase T)}
    (h : SysInvB B P cfg fuel N D W s0 jobs s ts ph) (hf : ∀ t ∈ ts, t.Finished)
    (h0 : s0.idx.nbPoint = s0.idx.points.length) (hne : s0.idx.points ≠ [] → s0.idx.entry ≠ none) :
    s.idx.nbPoint = s.idx.points.length ∧ (s.idx.points ≠ [] → s.idx.entry ≠ none) ∧
      s.held = [] := by
  have hall := h.all_running hf
  have hfin' : ∀ (i : Nat) (r : Ref T) (rk : Nat), ph[i]? = some (.running r rk) →
      s.held.count r.pid = 0 ∧ s.pub ≠ [] := by
    intro i r rk hi
    have hlt : i < ph.length := (List.getElem?_eq_some_iff.1 hi).1
    have hj : i < jobs.length := h.len ▸ hlt
    have ht : i < ts.length := h.tlen ▸ hj
    have hT := h.thr i _ _ _ (List.getElem?_eq_getElem hj) hi (List.getElem?_eq_getElem ht)
    have hfin := hf _ (List.getElem_mem ht)
    cases hti : ts[i] with
    | ret a =>
      rw [hti] at hT
      exact (hT.1 s h.env (Rel.refl _ _ _)).2
    | fail e =>
      rw [hti] at hT
      exact ⟨hT.1.2.2.1, hT.1.2.2.2.1⟩
    | act g u k => rw [hti] at hfin; exact absurd hfin (by simp [Prog.Finished])
  refine ⟨?_, ?_, ?_⟩
  · rw [h.count, h.perm.length_eq, List.length_append, filterMap_length_of_running hall, h0]
    congr 1
    exact List.countP_eq_length.2 hall
  · intro hp
    cases hph : ph with
    | nil =>
      have h1 : s.idx.points.Perm s0.idx.points := by
        have := h.perm
        rw [hph] at this
        simpa using this
      have h2 : s0.idx.points ≠ [] := by
        intro h0
        rw [h0] at h1
        exact hp h1.eq_nil
      cases he : s0.idx.entry with
      | none => exact absurd he (hne h2)
      | some e =>
        obtain ⟨e', he', -⟩ := h.entry e he
        rw [he']; simp
    | cons a ph' =>
      have ha := hall a (by rw [hph]; simp)
      cases a with
      | idle => cases ha
      | added r => cases ha
      | running r rk => exact h.env.inv.pubNe (hfin' 0 r rk (by rw [hph]; rfl)).2
  · apply List.eq_nil_iff_forall_not_mem.2
    intro q hq
    obtain ⟨i, r, rk, hi, hr⟩ := h.held q hq
    have hc := (hfin' i r rk hi).1
    rw [hr] at hc
    exact (List.count_eq_zero.1 hc) hq

/-- after all threads are done, all visible points are below the entry point -/
theorem SysInvB.pubTop {fuel N : Nat} {D : List T → Prop} {W : Nat → Prop} {s0 : CSt T}
    {jobs : List (Job T)} {s : CSt T} {ts : List (Prog (CSt T) Unit)} {ph : List (Phase T)}
    (h : SysInvB B P cfg fuel N D W s0 jobs s ts ph) (hf : ∀ t ∈ ts, t.Finished)
    (h0 : ∀ o, Stored s0.idx o → o.pid ∈ s0.pub → EntryAbove o s0 ∨ B.high o.pid ∨ B.Wild) :
    ∀ o, Stored s.idx o → o.pid ∈ s.pub → EntryAbove o s ∨ B.high o.pid ∨ B.Wild := by
  have hall := h.all_running hf
  intro o ho hp
  unfold Stored at ho
  rw [h.perm.mem_iff] at ho
  rcases List.mem_append.1 ho with ho | ho
  · have hrel := h.old o ho
    have hp0 : o.pid ∈ s0.pub := by
      apply Classical.byContradiction
      intro hn
      exact (hrel.priv hn).1 hp
    rcases h0 o ho hp0 with ⟨e, he, hle⟩ | h0
    · obtain ⟨e', he', hle'⟩ := hrel.entry e he
      exact Or.inl ⟨e', he', by omega⟩
    · exact Or.inr h0
  · obtain ⟨a, ha, har⟩ := List.mem_filterMap.1 ho
    obtain ⟨i, hi⟩ := List.getElem?_of_mem ha
    have hr := hall a ha
    cases a with
    | idle => cases hr
    | added r => cases hr
    | running r rk =>
      cases har
      have hlt : i < ph.length := (List.getElem?_eq_some_iff.1 hi).1
      have hj : i < jobs.length := h.len ▸ hlt
      have ht : i < ts.length := h.tlen ▸ hj
      have hT := h.thr i _ _ _ (List.getElem?_eq_getElem hj) hi (List.getElem?_eq_getElem ht)
      have hfin := hf _ (List.getElem_mem ht)
      cases hti : ts[i] with
      | ret a =>
        rw [hti] at hT
        rcases (hT.1 s h.env (Rel.refl _ _ _)).1 with ⟨-, h1, -⟩ | h1
        · exact absurd hp h1
        · exact Or.inl h1
      | fail e =>
        rw [hti] at hT
        exact Or.inr (Or.inr (hT.1.2.2.2.2.resolve_left (fun h => h hp)))
      | act g u k => rw [hti] at hfin; exact absurd hfin (by simp [Prog.Finished])

/-- after all threads have returned, a point that is not visible or is above the entry point has no
links -/
theorem SysInvB.unlinked {fuel N : Nat} {D : List T → Prop} {W : Nat → Prop} {s0 : CSt T}
    {jobs : List (Job T)} {s : CSt T} {ts : List (Prog (CSt T) Unit)} {ph : List (Phase T)}
    (h : SysInvB B P cfg fuel N D W s0 jobs s ts ph) (hf : ∀ t ∈ ts, t = .ret ())
    (h0 : ∀ o, Stored s0.idx o → EntryAbove o s0 ∨ (o.pid ∉ s0.pub ∧ ∀ l, s0.idx.nb o.pid l = [])) :
    ∀ o, Stored s.idx o → EntryAbove o s ∨ (o.pid ∉ s.pub ∧ ∀ l, s.idx.nb o.pid l = []) := by
  have hall := h.all_running (fun t ht => by rw [hf t ht]; trivial)
  intro o ho
  unfold Stored at ho
  rw [h.perm.mem_iff] at ho
  rcases List.mem_append.1 ho with ho | ho
  · have hrel := h.old o ho
    rcases h0 o ho with ⟨e, he, hle⟩ | ⟨h1, h2⟩
    · obtain ⟨e', he', hle'⟩ := hrel.entry e he
      exact Or.inl ⟨e', he', by omega⟩
    · exact Or.inr ⟨(hrel.priv h1).1, fun l => ((hrel.priv h1).2 l).trans (h2 l)⟩
  · obtain ⟨a, ha, har⟩ := List.mem_filterMap.1 ho
    obtain ⟨i, hi⟩ := List.getElem?_of_mem ha
    have hr := hall a ha
    cases a with
    | idle => cases hr
    | added r => cases hr
    | running r rk =>
      cases har
      have hlt : i < ph.length := (List.getElem?_eq_some_iff.1 hi).1
      have hj : i < jobs.length := h.len ▸ hlt
      have ht : i < ts.length := h.tlen ▸ hj
      have hT := h.thr i _ _ _ (List.getElem?_eq_getElem hj) hi (List.getElem?_eq_getElem ht)
      rw [hf _ (List.getElem_mem ht)] at hT
      rcases (hT.1 s h.env (Rel.refl _ _ _)).1 with ⟨-, h1, h2⟩ | h1
      · exact Or.inr ⟨h1, h2⟩
      · exact Or.inl h1

theorem idxOKB_flags {s : Idx T} {e k : Bool} : IdxOKB B (cfg.withFlags e k) s ↔ IdxOKB B cfg s :=
  ⟨fun h => ⟨h.tab, h.owner, h.lay, h.stored, h.noSelf, h.dist, h.num, h.legal, h.sorted, h.nodup,
    h.bound, h.entry⟩, fun h => ⟨h.tab, h.owner, h.lay, h.stored, h.noSelf, h.dist, h.num, h.legal,
    h.sorted, h.nodup, h.bound, h.entry⟩⟩

theorem ginv_flags {c : CSt T} {e k : Bool} : GInvB B (cfg.withFlags e k) c ↔ GInvB B cfg c :=
  ⟨fun h => ⟨idxOKB_flags.1 h.okB, h.pubLink, h.pubEntry, h.pubStored, h.pubNe, h.ordB⟩,
    fun h => ⟨idxOKB_flags.2 h.okB, h.pubLink, h.pubEntry, h.pubStored, h.pubNe, h.ordB⟩⟩

theorem good_flags {s : Idx T} {e k : Bool} : Good (cfg.withFlags e k) s ↔ Good cfg s :=
  ⟨fun h => ⟨idxOK_flags.1 h.ok, h.count, h.entry⟩, fun h => ⟨idxOK_flags.2 h.ok, h.count, h.entry⟩⟩

theorem goodC_flags {c : CSt T} {e k : Bool} : GoodCB B (cfg.withFlags e k) c ↔ GoodCB B cfg c :=
  ⟨fun h => ⟨ginv_flags.1 h.inv, h.held, h.count, h.entry, h.pubTop⟩,
    fun h => ⟨ginv_flags.2 h.inv, h.held, h.count, h.entry, h.pubTop⟩⟩

theorem goodC_new : GoodC cfg (CSt.new cfg.maxLayer) := by
  refine ⟨.mk' (idxOK_new cfg) ?_ ?_ ?_ ?_ ?_, rfl, ?_, ?_, ?_⟩ <;>
    simp [CSt.new, Idx.new, Idx.points]

theorem Exec.goodCB (L : P.Lawful) {c0 : CSt T} (h : GoodCB B cfg c0) (hB : B.Owned c0.idx)
    {jobs : List (Job T)} (hl : ∀ j ∈ jobs, j.level < cfg.maxLayer) {c : CSt T}
    {ts : List (Prog (CSt T) Unit)} (he : Exec P cfg c0 jobs c ts) (hf : ∀ t ∈ ts, t.Finished) :
    GoodCB B cfg c := by
  obtain ⟨ph, hS⟩ := Exec.invB L h hB hl he (fun _ => True) (by simp) (by simp)
  have := hS.final hf h.count h.entry
  exact ⟨hS.env.inv, this.2.2, this.1, this.2.1, hS.pubTop hf h.pubTop⟩

theorem Exec.goodC (L : P.Lawful) {c0 : CSt T} (h : GoodC cfg c0) {jobs : List (Job T)}
    (hl : ∀ j ∈ jobs, j.level < cfg.maxLayer) {c : CSt T} {ts : List (Prog (CSt T) Unit)}
    (he : Exec P cfg c0 jobs c ts) (hf : ∀ t ∈ ts, t.Finished) : GoodC cfg c :=
  Exec.goodCB L h (Base.owned_none _) hl he hf

theorem Idx.mem_resort (L : P.Lawful) {s : Idx T} {p : PointId} {l : Nat} {e : PWO T} :
    e ∈ (s.resort P).nb p l ↔ e ∈ s.nb p l :=
  (L.sort_perm _).mem_iff

theorem Idx.resort_nil (L : P.Lawful) {s : Idx T} {p : PointId} {l : Nat} :
    (s.resort P).nb p l = [] ↔ s.nb p l = [] := by
  constructor
  · intro h
    have := L.sort_perm (s.nb p l)
    rw [show P.sort (s.nb p l) = [] from h] at this
    exact this.nil_eq.symm
  · intro h
    have := L.sort_perm (s.nb p l)
    rw [h] at this
    show P.sort (s.nb p l) = []
    rw [h]
    exact this.eq_nil

theorem IdxOK.resort (L : P.Lawful) {s : Idx T} (h : IdxOK cfg s) : IdxOK cfg (s.resort P) where
  tab := ⟨h.tab.len, h.tab.ids⟩
  owner p l hne := h.owner p l (fun h0 => hne ((Idx.resort_nil L).2 h0))
  lay p l hne := h.lay p l (fun h0 => hne ((Idx.resort_nil L).2 h0))
  stored p l e he := h.stored p l e ((Idx.mem_resort L).1 he)
  noSelf p l e he := h.noSelf p l e ((Idx.mem_resort L).1 he)
  dist o ho l e he := h.dist o ho l e ((Idx.mem_resort L).1 he)
  legal p l e he := h.legal p l e ((Idx.mem_resort L).1 he)
  sorted p l := L.sort_sorted _ (fun e he => (h.legal p l e he).1)
  nodup p l := ((L.sort_perm (s.nb p l)).map (·.pt.pid)).nodup_iff.2 (h.nodup p l)
  bound p l := by
    show (P.sort (s.nb p l)).length ≤ _
    rw [(L.sort_perm _).length_eq]
    exact h.bound p l
  entry := h.entry

theorem GoodCB.resort (L : P.Lawful) {c : CSt T} (h : GoodC cfg c) :
    GoodC cfg { c with idx := c.idx.resort P } where
  inv := .mk' (h.inv.ok.resort L) (fun q l e he => h.inv.pubLink q l e ((Idx.mem_resort L).1 he))
    h.inv.pubEntry h.inv.pubStored h.inv.pubNe
    (fun o ho l e he => h.inv.ord o ho l e ((Idx.mem_resort L).1 he))
  held := h.held
  count := h.count
  entry := h.entry
  pubTop := h.pubTop

theorem ReachC.goodC (L : P.Lawful) {c : CSt T} (h : ReachC P cfg c) : GoodC cfg c := by
  induction h with
  | new => exact goodC_new
  | batch ext kp jobs _ hl he hf ih =>
    exact goodC_flags.1 (Exec.goodC (cfg := cfg.withFlags ext kp) L (goodC_flags.2 ih) hl he hf)
  | reload _ ih => exact ih.resort L

theorem ReachRet.unlinked (L : P.Lawful) {c : CSt T} (h : ReachRet P cfg c) :
    ∀ o, Stored c.idx o → EntryAbove o c ∨ (o.pid ∉ c.pub ∧ ∀ l, c.idx.nb o.pid l = []) := by
  induction h with
  | new => intro o ho; simp [Stored, CSt.new, Idx.new, Idx.points] at ho
  | batch ext kp jobs h0 hl he hf ih =>
    obtain ⟨ph, hS⟩ := Exec.inv (cfg := cfg.withFlags ext kp) L
      (goodC_flags.2 (h0.reachC.goodC L)) hl he (fun _ => True) (by simp) (by simp)
    exact hS.unlinked hf ih
  | reload _ ih =>
    intro o ho
    exact (ih o ho).imp id fun h => ⟨h.1, fun l => (Idx.resort_nil L).2 (h.2 l)⟩

theorem Reach.good (L : P.Lawful) {s : Idx T} (h : Reach P cfg s) : Good cfg s := by
  obtain ⟨c, hc, rfl⟩ := h
  exact (hc.goodC L).good

/-! ## A single thread -/

theorem Steps.trans {σ α : Type} {a b c : σ × List (Prog σ α)} (h : Steps a b) (h' : Steps b c) :
    Steps a c := by
  induction h' with
  | refl => exact h
  | step _ hs ih => exact .step ih hs

/-- running a program alone is one of its schedules -/
theorem run_steps {σ α : Type} (t : Prog σ α) : ∀ (s : σ),
    match t.run s with
    | .ok a s' => Steps (s, [t]) (s', [.ret a])
    | .panic e s' => Steps (s, [t]) (s', [.fail e])
    | .blocked s' => ∃ g u k, Steps (s, [t]) (s', [.act g u k]) ∧ g s' = false := by
  induction t with
  | ret a => intro s; exact .refl _
  | fail e => intro s; exact .refl _
  | act g u k ih =>
    intro s
    simp only [Prog.run]
    by_cases hg : g s = true
    · rw [if_pos hg]
      have h1 : Steps (s, [Prog.act g u k]) (u s, [k s]) :=
        .step (.refl _) (Step.mk (ts := [Prog.act g u k]) 0 (by simp) g u k rfl hg)
      have := ih s (u s)
      split at this
      · exact h1.trans this
      · exact h1.trans this
      · obtain ⟨g', u', k', h2, h3⟩ := this
        exact ⟨g', u', k', h1.trans h2, h3⟩
    · rw [if_neg hg]
      exact ⟨g, u, k, .refl _, by simpa using hg⟩

/-- A single insertion never blocks. -/
theorem insert_not_blockedB (L : P.Lawful) {c0 : CSt T} {B : Base T} (h : GoodCB B cfg c0) (hB : B.Owned c0.idx) {j : Job T}
    (hl : j.level < cfg.maxLayer) (c : CSt T) :
    insert P cfg c0 (j.data, j.id) j.level ≠ .blocked c := by
  intro hb
  have hr := run_steps (insertP P cfg (c0.idx.points.length + 3) (j.data, j.id) j.level) c0
  unfold insert at hb
  rw [hb] at hr
  obtain ⟨g, u, k, hs, hg⟩ := hr
  obtain ⟨ph, hS⟩ := Exec.invB (jobs := [j]) L h hB (by simpa using hl) hs (fun _ => True) (by simp)
    (by simp)
  have hp : ph.length = 1 := hS.len
  match ph, hp with
  | [a], _ =>
    have hT := hS.thr 0 j a _ rfl rfl rfl
    cases a with
    | idle =>
      have := hT.1
      unfold Job.prog insertP at this
      cases this
      simp at hg
    | added r =>
      have := hT.1
      unfold countP at this
      cases this
      simp at hg
    | running r rk =>
      rcases (hT.1 c hS.env (Rel.refl _ _ _)).1 with h1 | ⟨q, hq, hne, -⟩
      · rw [hg] at h1; cases h1
      · obtain ⟨i, r', rk', hi, hr'⟩ := hS.held q hq
        cases i with
        | zero => simp at hi; exact hne (by rw [← hr', hi.1])
        | succ i => simp at hi

theorem insert_not_blocked (L : P.Lawful) {c0 : CSt T} (h : GoodC cfg c0) {j : Job T}
    (hl : j.level < cfg.maxLayer) (c : CSt T) :
    insert P cfg c0 (j.data, j.id) j.level ≠ .blocked c :=
  insert_not_blockedB L h (Base.owned_none _) hl c

/-- outcome of a single insertion, as an execution -/
theorem insert_execB (L : P.Lawful) {c0 : CSt T} {B : Base T} (h : GoodCB B cfg c0) (hB : B.Owned c0.idx) {j : Job T}
    (hl : j.level < cfg.maxLayer) :
    ∃ c t, Exec P cfg c0 [j] c [t] ∧ t.Finished ∧
      (insert P cfg c0 (j.data, j.id) j.level = .ok () c ∧ t = .ret () ∨
       ∃ e, insert P cfg c0 (j.data, j.id) j.level = .panic e c ∧ t = .fail e) := by
  have hr := run_steps (insertP P cfg (c0.idx.points.length + 3) (j.data, j.id) j.level) c0
  have hnb := insert_not_blockedB L h hB hl
  unfold insert at hnb ⊢
  cases ho : (insertP P cfg (c0.idx.points.length + 3) (j.data, j.id) j.level).run c0 with
  | ok a c => rw [ho] at hr; exact ⟨c, .ret (), hr, trivial, Or.inl ⟨rfl, rfl⟩⟩
  | panic e c => rw [ho] at hr; exact ⟨c, .fail e, hr, trivial, Or.inr ⟨e, rfl, rfl⟩⟩
  | blocked c => exact absurd ho (hnb c)

theorem insert_exec (L : P.Lawful) {c0 : CSt T} (h : GoodC cfg c0) {j : Job T}
    (hl : j.level < cfg.maxLayer) :
    ∃ c t, Exec P cfg c0 [j] c [t] ∧ t.Finished ∧
      (insert P cfg c0 (j.data, j.id) j.level = .ok () c ∧ t = .ret () ∨
       ∃ e, insert P cfg c0 (j.data, j.id) j.level = .panic e c ∧ t = .fail e) :=
  insert_execB L h (Base.owned_none _) hl

theorem ReachC.insert (L : P.Lawful) {c0 : CSt T} (h : ReachC P cfg c0) (ext kp : Bool) {j : Job T}
    (hl : j.level < cfg.maxLayer) :
    ReachC P cfg (Verif.insert P (cfg.withFlags ext kp) c0 (j.data, j.id) j.level).state := by
  obtain ⟨c, t, he, hf, ho⟩ := insert_exec (cfg := cfg.withFlags ext kp) L
    (goodC_flags.2 (h.goodC L)) hl
  have : (Verif.insert P (cfg.withFlags ext kp) c0 (j.data, j.id) j.level).state = c := by
    rcases ho with ⟨h1, -⟩ | ⟨e, h1, -⟩ <;> rw [h1] <;> rfl
  rw [this]
  exact .batch ext kp [j] h (by simpa using hl) he (by simpa using hf)

theorem SeqReach.reachC (L : P.Lawful) {jobs : List (Job T)} {c : CSt T}
    (h : SeqReach P cfg jobs c) : ReachC P cfg c := by
  induction h with
  | new => exact .new
  | insert ext kp j _ hl hi ih =>
    have := ih.insert L ext kp hl
    rw [hi] at this
    exact this
  | reload _ ih => exact ih.reload

end Verif
