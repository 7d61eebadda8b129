import Verif.InsertSafe
import Verif.Disc

set_option autoImplicit false

/-!
# Systems of insertion threads

Invariant of any number of concurrent insertions, under any schedule.
-/

namespace Verif
variable {T : Type}

/-- One insertion to perform: the vector, its external id, and the level drawn for it. -/
structure Job (T : Type) where
  data : List T
  id : DataId
  level : Nat

/-- The program of one call to `insert`. -/
def Job.prog (P : Policy T) (cfg : Cfg T) (fuel : Nat) (j : Job T) : Prog (CSt T) Unit :=
  insertP P cfg fuel (j.data, j.id) j.level

/-- the point `r` was created for the job `j` -/
def IsRef (j : Job T) (r : Ref T) : Prop :=
  r.data = j.data ∧ r.origin = j.id ∧ r.pid.layer = j.level

/-- Progress of a thread (proof device). -/
inductive Phase (T : Type) where
  | idle
  | added (r : Ref T)
  | running (r : Ref T) (rank : Nat)

def Phase.ref : Phase T → Option (Ref T)
  | idle => none
  | added r => some r
  | running r _ => some r

def Phase.isIdle : Phase T → Bool
  | idle => true
  | _ => false

def Phase.isRunning : Phase T → Bool
  | running .. => true
  | _ => false

section
variable (B : Base T) (P : Policy T) (cfg : Cfg T) (fuel N : Nat) (D : List T → Prop) (W : Nat → Prop)

def ThreadOKB (n0 : Nat) (j : Job T) (t : Prog (CSt T) Unit) (s : CSt T) : Phase T → Prop
  | .idle => t = j.prog P cfg fuel ∧ D j.data ∧ j.level < cfg.maxLayer ∧ W j.level
  | .added r => t = countP P cfg fuel r ∧ Fresh r (fun _ => []) s ∧ IsRef j r ∧ W r.pid.layer ∧
      ∀ l e, ¬ B.link r.pid l e
  | .running r rank =>
    SafeB B cfg N D W r.pid (fun _ s =>
      ((rank = 1 ∧ r.pid ∉ s.pub ∧ ∀ l, s.idx.nb r.pid l = []) ∨ EntryAbove r s) ∧
      s.held.count r.pid = 0 ∧ s.pub ≠ []) t s ∧
      n0 < rank ∧ IsRef j r

structure SysInvB (s0 : CSt T) (jobs : List (Job T)) (s : CSt T) (ts : List (Prog (CSt T) Unit))
    (ph : List (Phase T)) : Prop where
  len : ph.length = jobs.length
  tlen : ts.length = jobs.length
  env : EInvB B cfg N D s
  thr : ∀ (i : Nat) j a t, jobs[i]? = some j → ph[i]? = some a → ts[i]? = some t →
    ThreadOKB B P cfg fuel N D W s0.idx.nbPoint j t s a
  perm : s.idx.points.Perm (s0.idx.points ++ ph.filterMap Phase.ref)
  count : s.idx.nbPoint = s0.idx.nbPoint + ph.countP Phase.isRunning
  size : s.idx.points.length + ph.countP Phase.isIdle ≤ N
  held : ∀ q ∈ s.held, ∃ (i : Nat) (r : Ref T) (rk : Nat), ph[i]? = some (.running r rk) ∧ r.pid = q
  dist : ∀ (i j : Nat) a b r r', i ≠ j → ph[i]? = some a → ph[j]? = some b → a.ref = some r →
    b.ref = some r' → r.pid ≠ r'.pid
  entry : ∀ e, s0.idx.entry = some e → ∃ e', s.idx.entry = some e' ∧ e.pid.layer ≤ e'.pid.layer
  old : ∀ o, Stored s0.idx o → Rel W o.pid s0 s
  disc : ∀ (i : Nat) r rk t, ph[i]? = some (.running r rk) → ts[i]? = some t →
    ∃ b : Bool, Disc r.pid t b ∧ s.held.count r.pid = b.toNat

end

/-- without inherited links -/
abbrev SysInv (P : Policy T) (cfg : Cfg T) (fuel N : Nat) (D : List T → Prop) (W : Nat → Prop)
    (s0 : CSt T) (jobs : List (Job T)) (s : CSt T) (ts : List (Prog (CSt T) Unit))
    (ph : List (Phase T)) : Prop :=
  SysInvB Base.none P cfg fuel N D W s0 jobs s ts ph

/-! ## List lemmas -/

theorem filterMap_set_same {α β : Type} {f : α → Option β} {b : α} : ∀ {l : List α} {i : Nat} {a : α},
    l[i]? = some a → f b = f a → (l.set i b).filterMap f = l.filterMap f := by
  intro l
  induction l with
  | nil => intro i a h _; simp at h
  | cons x l ih =>
    intro i a h hf
    cases i with
    | zero =>
      simp at h
      subst h
      simp [List.filterMap_cons, hf]
    | succ i =>
      simp at h
      simp [List.filterMap_cons, ih h hf]

theorem filterMap_set_perm {α β : Type} {f : α → Option β} {b : α} {y : β} (hb : f b = some y) :
    ∀ {l : List α} {i : Nat} {a : α}, l[i]? = some a → f a = none →
    ((l.set i b).filterMap f).Perm (y :: l.filterMap f) := by
  intro l
  induction l with
  | nil => intro i a h _; simp at h
  | cons x l ih =>
    intro i a h hf
    cases i with
    | zero =>
      simp at h
      subst h
      simp [hf, hb]
    | succ i =>
      simp at h
      have := ih h hf
      simp only [List.set_cons_succ, List.filterMap_cons]
      split
      · exact this
      · exact (this.cons _).trans (List.Perm.swap _ _ _)

theorem countP_set' {α : Type} {f : α → Bool} {b : α} {l : List α} {i : Nat} {a : α}
    (h : l[i]? = some a) :
    (l.set i b).countP f + (if f a then 1 else 0) = l.countP f + (if f b then 1 else 0) := by
  obtain ⟨hi, rfl⟩ := List.getElem?_eq_some_iff.1 h
  rw [List.countP_set hi]
  have : f l[i] = true → 0 < l.countP f := fun h => List.countP_pos_iff.2 ⟨_, List.getElem_mem hi, h⟩
  split
  · rename_i h; have := this h; omega
  · omega

theorem flatten_modify_perm {α : Type} (a : α) (f : List α → List α) :
    ∀ (xs : List (List α)) (i : Nat) (x : List α), xs[i]? = some x → (f x).Perm (a :: x) →
    ((xs.modify i f).flatten).Perm (a :: xs.flatten) := by
  intro xs
  induction xs with
  | nil => intro i x h; simp at h
  | cons y xs ih =>
    intro i x h hf
    cases i with
    | zero =>
      simp at h
      subst h
      simpa using hf.append_right xs.flatten
    | succ i =>
      simp at h
      simp only [List.modify_succ_cons, List.flatten_cons]
      exact ((ih i x h hf).append_left y).trans List.perm_middle

theorem points_addPoint (item : List T × DataId) (level : Nat) (s : Idx T)
    (h : level < s.layers.length) :
    (addPoint item level s).points.Perm (newRef item level s :: s.points) := by
  unfold Idx.points addPoint
  simp only
  apply flatten_modify_perm _ _ _ _ _ (List.getElem?_eq_getElem h)
  have : s.layer level = s.layers[level] := by simp [Idx.layer, List.getElem?_eq_getElem h]
  simp only [newRef, this]
  exact List.perm_append_singleton _ _

/-! ## Initial state -/

variable {B : Base T} {P : Policy T} {cfg : Cfg T} {fuel N : Nat} {D : List T → Prop} {W : Nat → Prop}

theorem sysInv_init {c : CSt T} (h : GInvB B cfg c) (hh : c.held = []) {jobs : List (Job T)}
    (hl : ∀ j ∈ jobs, j.level < cfg.maxLayer) (hW : ∀ j ∈ jobs, W j.level)
    (hD : ∀ v, Stored c.idx v → D v.data) (hDj : ∀ j ∈ jobs, D j.data)
    (hN : c.idx.points.length + jobs.length ≤ N) :
    SysInvB B P cfg fuel N D W c jobs c (jobs.map (Job.prog P cfg fuel))
      (jobs.map fun _ => .idle) := by
  refine ⟨by simp, by simp, ⟨h, ?_, hD⟩, ?_, ?_, ?_, ?_, ?_, ?_, ?_, fun _ _ => Rel.refl _ _ _, ?_⟩
  · show c.idx.points.length ≤ N
    omega
  · intro i j a t hj ha ht
    simp only [List.getElem?_map, hj, Option.map_some, Option.some.injEq] at ha ht
    subst ha; subst ht
    have := List.mem_of_getElem? hj
    exact ⟨rfl, hDj j this, hl j this, hW j this⟩
  · show c.idx.points.Perm _
    have : (jobs.map fun _ => (Phase.idle : Phase T)).filterMap Phase.ref = [] := by
      rw [List.filterMap_eq_nil_iff]
      intro a ha
      obtain ⟨_, _, rfl⟩ := List.mem_map.1 ha
      rfl
    rw [this, List.append_nil]
  · have : (jobs.map fun _ => (Phase.idle : Phase T)).countP Phase.isRunning = 0 := by
      rw [List.countP_eq_zero]
      intro a ha
      obtain ⟨_, _, rfl⟩ := List.mem_map.1 ha
      simp [Phase.isRunning]
    rw [this]; rfl
  · have : (jobs.map fun _ => (Phase.idle : Phase T)).countP Phase.isIdle ≤ jobs.length := by
      have := List.countP_le_length (p := Phase.isIdle) (l := jobs.map fun _ => (Phase.idle : Phase T))
      simpa using this
    show c.idx.points.length + _ ≤ N
    omega
  · intro q hq; simp [hh] at hq
  · intro i j a b r r' _ ha _ har
    obtain ⟨_, _, rfl⟩ := List.mem_map.1 (List.mem_of_getElem? ha)
    cases har
  · intro e he; exact ⟨e, he, Nat.le_refl _⟩
  · intro i r rk t hp
    simp only [List.getElem?_map] at hp
    cases hj : jobs[i]? <;> rw [hj] at hp <;> cases hp

/-! ## Steps -/

theorem Fresh.of_rel {r : Ref T} {f : Nat → List (PWO T)} {s s' : CSt T}
    (h : Rel W r.pid s s') (hf : Fresh r f s) : Fresh r f s' := hf.rel h

theorem ThreadOKB.rel {n0 : Nat} {j : Job T} {t : Prog (CSt T) Unit} {s s' : CSt T} {a : Phase T}
    (h : ThreadOKB B P cfg fuel N D W n0 j t s a)
    (hr : ∀ r, a.ref = some r → Rel W r.pid s s') : ThreadOKB B P cfg fuel N D W n0 j t s' a := by
  cases a with
  | idle => exact h
  | added r => exact ⟨h.1, h.2.1.rel (hr r rfl), h.2.2⟩
  | running r rk => exact ⟨h.1.rel (hr r rfl), h.2⟩

theorem addPoint_rel (item : List T × DataId) {level : Nat} {s : CSt T}
    (h : level < s.idx.layers.length) (p : PointId) :
    Rel W p s { s with idx := addPoint item level s.idx } :=
  ⟨fun v hv => (stored_addPoint item level s.idx h v).2 (Or.inl hv), List.suffix_refl _,
    fun _ _ => rfl, fun h => ⟨h, fun _ => rfl⟩, rfl, fun e he => ⟨e, he, Nat.le_refl _⟩,
    fun _ _ => rfl, fun _ _ _ h _ => Or.inl h⟩

theorem addPoint_ginv (item : List T × DataId) {level : Nat} {s : CSt T}
    (hl : level < s.idx.layers.length) (h : GInvB B cfg s) :
    GInvB B cfg { s with idx := addPoint item level s.idx } := by
  have hst : ∀ v, Stored s.idx v → Stored (addPoint item level s.idx) v :=
    fun v hv => (stored_addPoint item level s.idx hl v).2 (Or.inl hv)
  have hnew : ∀ l, ∀ e ∈ s.idx.nb (newRef item level s.idx).pid l, False := by
    intro l e he
    have hne : s.idx.nb (newRef item level s.idx).pid l ≠ [] := List.ne_nil_of_mem he
    obtain ⟨o', ho', hp⟩ := h.okB.owner _ _ hne
    exact newRef_fresh h.okB.tab item level ho' hp
  refine ⟨⟨tableOK_addPoint h.okB.tab item level, ?_, h.okB.lay, ?_, h.okB.noSelf, ?_, h.okB.num, h.okB.legal,
    h.okB.sorted, h.okB.nodup, h.okB.bound, ?_⟩, h.pubLink, h.pubEntry, ?_, h.pubNe, ?_⟩
  · intro p l hne
    obtain ⟨o, ho, hop⟩ := h.okB.owner p l hne
    exact ⟨o, hst o ho, hop⟩
  · intro p l e he
    exact hst _ (h.okB.stored p l e he)
  · intro o ho l e he
    rcases (stored_addPoint item level s.idx hl o).1 ho with ho | rfl
    · exact h.okB.dist o ho l e he
    · exact (hnew l e he).elim
  · intro e he
    exact hst _ (h.okB.entry e he)
  · intro q hq
    obtain ⟨o, ho, hop⟩ := h.pubStored q hq
    exact ⟨o, hst o ho, hop⟩
  · intro o ho l e he
    rcases (stored_addPoint item level s.idx hl o).1 ho with ho | rfl
    · exact h.ordB o ho l e he
    · exact (hnew l e he).elim

theorem SysInvB.stored {s0 : CSt T} {jobs : List (Job T)} {s : CSt T}
    {ts : List (Prog (CSt T) Unit)} {ph : List (Phase T)}
    (h : SysInvB B P cfg fuel N D W s0 jobs s ts ph) {i : Nat} {a : Phase T} {r : Ref T}
    (ha : ph[i]? = some a) (hr : a.ref = some r) : Stored s.idx r := by
  unfold Stored
  rw [h.perm.mem_iff]
  apply List.mem_append_right
  exact List.mem_filterMap.2 ⟨a, List.mem_of_getElem? ha, hr⟩

theorem SysInvB.distOld {s0 : CSt T} {jobs : List (Job T)} {s : CSt T}
    {ts : List (Prog (CSt T) Unit)} {ph : List (Phase T)}
    (h : SysInvB B P cfg fuel N D W s0 jobs s ts ph) {i : Nat} {a : Phase T} {r : Ref T}
    (ha : ph[i]? = some a) (hr : a.ref = some r) : ∀ o, Stored s0.idx o → o.pid ≠ r.pid := by
  intro o ho
  have h1 := pids_points_nodup h.env.inv.okB.tab
  rw [(h.perm.map (·.pid)).nodup_iff, List.map_append, List.nodup_append] at h1
  exact h1.2.2 _ (List.mem_map.2 ⟨o, ho, rfl⟩) _ (List.mem_map.2
    ⟨r, List.mem_filterMap.2 ⟨a, List.mem_of_getElem? ha, hr⟩, rfl⟩)

theorem getElem?_set_cases {α : Type} {l : List α} {i k : Nat} {b c : α}
    (h : (l.set i b)[k]? = some c) : (k = i ∧ c = b ∧ i < l.length) ∨ (k ≠ i ∧ l[k]? = some c) := by
  by_cases hk : i = k
  · subst hk
    left
    by_cases hlt : i < l.length
    · rw [List.getElem?_set_self hlt] at h
      exact ⟨rfl, (Option.some.inj h).symm, hlt⟩
    · rw [List.getElem?_eq_none (by simp; omega)] at h
      cases h
  · right
    rw [List.getElem?_set_ne hk] at h
    exact ⟨fun h => hk h.symm, h⟩

/-- a step of thread `i`, which keeps the guards of the others -/
theorem sysInv_stepAt (L : P.Lawful) (hfu : N + 1 ≤ fuel) {s0 : CSt T}
    (hB : ∀ p l e, B.link p l e → ∃ o, Stored s0.idx o ∧ o.pid = p) {jobs : List (Job T)}
    {s : CSt T} {ts : List (Prog (CSt T) Unit)} {i : Nat} (hi : i < ts.length)
    {g : CSt T → Bool} {u : CSt T → CSt T} {k : CSt T → Prog (CSt T) Unit}
    (hact : ts[i] = .act g u k) (hg : g s = true) {ph : List (Phase T)}
    (h : SysInvB B P cfg fuel N D W s0 jobs s ts ph) :
    ∃ ph', SysInvB B P cfg fuel N D W s0 jobs (u s) (ts.set i (k s)) ph' ∧
      (∀ n, n ≠ i → ph'[n]? = ph[n]?) ∧
      (∀ q ∈ s.held, (∀ r rk, ph[i]? = some (.running r rk) → r.pid ≠ q) → q ∈ (u s).held) ∧
      ∀ a, ph[i]? = some a → ∃ a', ph'[i]? = some a' ∧
        (a.ref = none → ∃ j, jobs[i]? = some j ∧ a'.ref = some (newRef (j.data, j.id) j.level s.idx)) ∧
        (a.ref ≠ none → a'.ref = a.ref) := by
  have hti : ts[i]? = some (.act g u k) := by rw [List.getElem?_eq_getElem hi, hact]
  have hilt : i < jobs.length := h.tlen ▸ hi
  have hji : jobs[i]? = some jobs[i] := List.getElem?_eq_getElem hilt
  have hplt : i < ph.length := by rw [h.len]; exact hilt
  have hpi : ph[i]? = some ph[i] := List.getElem?_eq_getElem hplt
  generalize jobs[i] = j at hji
  generalize hpa : ph[i] = a at hpi
  have hT := h.thr i j a _ hji hpi hti
  -- common part: threads other than `i`
  have hother : ∀ (s' : CSt T) (a' : Phase T) (t' : Prog (CSt T) Unit),
      (∀ r, (∃ (k : Nat) (b : Phase T), k ≠ i ∧ ph[k]? = some b ∧ b.ref = some r) → Rel W r.pid s s') →
      ThreadOKB B P cfg fuel N D W s0.idx.nbPoint j t' s' a' →
      ∀ (k : Nat) (j' : Job T) (b : Phase T) (t : Prog (CSt T) Unit), jobs[k]? = some j' → (ph.set i a')[k]? = some b → (ts.set i t')[k]? = some t →
        ThreadOKB B P cfg fuel N D W s0.idx.nbPoint j' t s' b := by
    intro s' a' t' hrel hok k j' b t hj' hb ht
    rcases getElem?_set_cases hb with ⟨rfl, rfl, -⟩ | ⟨hki, hb⟩
    · rcases getElem?_set_cases ht with ⟨-, rfl, -⟩ | ⟨hne, -⟩
      · rw [hji] at hj'
        cases hj'
        exact hok
      · exact absurd rfl hne
    · rcases getElem?_set_cases ht with ⟨rfl, -, -⟩ | ⟨-, ht⟩
      · exact absurd rfl hki
      · exact (h.thr k j' b t hj' hb ht).rel (fun r hr => hrel r ⟨k, b, hki, hb, hr⟩)
  cases a with
  | idle =>
    obtain ⟨hprog, hDj, hlev, hWj⟩ := hT
    unfold Job.prog insertP at hprog
    cases hprog
    have hlt : j.level < s.idx.layers.length := by rw [h.env.inv.okB.tab.len]; exact hlev
    simp only [if_pos hlt]
    generalize hrdef : newRef (j.data, j.id) j.level s.idx = r
    have hrel := fun p => addPoint_rel (W := W) (j.data, j.id) hlt p
    have hgi := addPoint_ginv (j.data, j.id) hlt h.env.inv
    have hstr : Stored (addPoint (j.data, j.id) j.level s.idx) r :=
      (stored_addPoint (j.data, j.id) j.level s.idx hlt r).2 (Or.inr hrdef.symm)
    have hfresh : ∀ v, Stored s.idx v → v.pid ≠ r.pid := by
      intro v hv; rw [← hrdef]; exact newRef_fresh h.env.inv.okB.tab _ _ hv
    have hF : Fresh r (fun _ => []) { s with idx := addPoint (j.data, j.id) j.level s.idx } := by
      refine ⟨hstr, ?_, ?_, ?_⟩
      · intro hp
        obtain ⟨o, ho, hop⟩ := h.env.inv.pubStored _ hp
        exact hfresh o ho hop
      · rw [List.count_eq_zero]
        intro hp
        obtain ⟨k, r', rk, hk, hr'⟩ := h.held _ hp
        exact hfresh r' (h.stored hk rfl) hr'
      · intro l
        show s.idx.nb r.pid l = []
        apply Classical.byContradiction
        intro hne
        obtain ⟨o, ho, hop⟩ := h.env.inv.okB.owner _ _ hne
        exact hfresh o ho hop
    have hsz := points_addPoint_length (j.data, j.id) j.level s.idx hlt
    have hcI := countP_set' (f := Phase.isIdle) (b := Phase.added r) hpi
    have hcR := countP_set' (f := Phase.isRunning) (b := Phase.added r) hpi
    simp [Phase.isIdle] at hcI
    simp [Phase.isRunning] at hcR
    refine ⟨ph.set i (.added r), ⟨by simp [h.len], by simp [h.tlen], ⟨hgi, ?_, ?_⟩, ?_, ?_, ?_, ?_, ?_, ?_, ?_,
      fun o ho => (h.old o ho).trans (hrel _), ?_⟩, fun n hn => List.getElem?_set_ne (Ne.symm hn), fun q hq _ => hq,
      fun a ha => ⟨_, List.getElem?_set_self hplt, fun _ => ⟨j, hji, by rw [hrdef]; rfl⟩,
        fun hne => absurd (by rw [hpi] at ha; cases ha; rfl) hne⟩⟩
    · have := h.size
      simp only; omega
    · intro v hv
      rcases (stored_addPoint (j.data, j.id) j.level s.idx hlt v).1 hv with hv | rfl
      · exact h.env.data v hv
      · exact hDj
    · apply hother _ _ _ (fun r _ => hrel r.pid)
      refine ⟨rfl, hF, ?_, ?_⟩
      · rw [← hrdef]; exact ⟨rfl, rfl, rfl⟩
      · refine ⟨by rw [← hrdef]; exact hWj, fun l e hl => ?_⟩
        obtain ⟨o, ho, hop⟩ := hB _ _ _ hl
        exact hfresh o ((h.old o ho).stored o ho) hop
    · have h1 := points_addPoint (j.data, j.id) j.level s.idx hlt
      rw [hrdef] at h1
      refine h1.trans ?_
      refine (h.perm.cons r).trans ?_
      refine List.perm_middle.symm.trans ?_
      exact (filterMap_set_perm (f := Phase.ref) (b := Phase.added r) (y := r) rfl hpi rfl).symm.append_left _
    · show s.idx.nbPoint = _
      rw [h.count]; omega
    · have := h.size
      simp only; omega
    · intro q hq
      obtain ⟨k, r', rk, hk, hr'⟩ := h.held q hq
      refine ⟨k, r', rk, ?_, hr'⟩
      rw [List.getElem?_set_ne]
      · exact hk
      · rintro rfl; rw [hpi] at hk; cases hk
    · intro k k' b b' r1 r2 hne hb hb' hr1 hr2
      rcases getElem?_set_cases hb with ⟨rfl, rfl, -⟩ | ⟨hki, hb2⟩
      · rcases getElem?_set_cases hb' with ⟨rfl, -, -⟩ | ⟨-, hb'⟩
        · exact absurd rfl hne
        · cases hr1
          exact fun he => hfresh r2 (h.stored hb' hr2) he.symm
      · rcases getElem?_set_cases hb' with ⟨rfl, rfl, -⟩ | ⟨-, hb2'⟩
        · cases hr2
          exact hfresh r1 (h.stored hb2 hr1)
        · exact h.dist k k' b b' r1 r2 hne hb2 hb2' hr1 hr2
    · exact h.entry
    · intro k r' rk t hp ht
      rcases getElem?_set_cases hp with ⟨rfl, hx, -⟩ | ⟨hki, hp⟩
      · cases hx
      · rcases getElem?_set_cases ht with ⟨rfl, -, -⟩ | ⟨-, ht⟩
        · exact absurd rfl hki
        · exact h.disc k r' rk t hp ht
  | added r =>
    obtain ⟨hprog, hF, hir, hWr, hBr⟩ := hT
    unfold countP at hprog
    cases hprog
    have hcI := countP_set' (f := Phase.isIdle) (b := Phase.running r (s.idx.nbPoint + 1)) hpi
    have hcR := countP_set' (f := Phase.isRunning) (b := Phase.running r (s.idx.nbPoint + 1)) hpi
    simp [Phase.isIdle] at hcI
    simp [Phase.isRunning] at hcR
    have hrel : ∀ p, Rel W p s { s with idx := { s.idx with nbPoint := s.idx.nbPoint + 1 } } :=
      fun p => ⟨fun _ h => h, List.suffix_refl _, fun _ _ => rfl, fun h => ⟨h, fun _ => rfl⟩, rfl,
        fun e he => ⟨e, he, Nat.le_refl _⟩, fun _ _ => rfl, fun _ _ _ h _ => Or.inl h⟩
    refine ⟨ph.set i (.running r (s.idx.nbPoint + 1)), ⟨by simp [h.len], by simp [h.tlen],
      ⟨⟨⟨⟨h.env.inv.okB.tab.len, h.env.inv.okB.tab.ids⟩, h.env.inv.okB.owner, h.env.inv.okB.lay,
        h.env.inv.okB.stored, h.env.inv.okB.noSelf, h.env.inv.okB.dist, h.env.inv.okB.num, h.env.inv.okB.legal,
        h.env.inv.okB.sorted, h.env.inv.okB.nodup, h.env.inv.okB.bound, h.env.inv.okB.entry⟩,
        h.env.inv.pubLink, h.env.inv.pubEntry, h.env.inv.pubStored, h.env.inv.pubNe, h.env.inv.ordB⟩, h.env.size, h.env.data⟩,
      ?_, ?_, ?_, ?_, ?_, ?_, h.entry, fun o ho => (h.old o ho).trans (hrel _), ?_⟩,
      fun n hn => List.getElem?_set_ne (Ne.symm hn), fun q hq _ => hq,
      fun a ha => ⟨_, List.getElem?_set_self hplt, fun hne => (by rw [hpi] at ha; cases ha; cases hne),
        fun _ => by rw [hpi] at ha; cases ha; rfl⟩⟩
    · apply hother _ _ _ (fun r _ => hrel r.pid)
      refine ⟨linkP_safe L hfu hBr hWr ?_, ?_, hir⟩
      · exact hF.rel (hrel r.pid)
      · have := h.count; omega
    · rw [filterMap_set_same (f := Phase.ref) (b := .running r (s.idx.nbPoint + 1)) hpi rfl]
      exact h.perm
    · show s.idx.nbPoint + 1 = _
      have := h.count
      omega
    · have := h.size
      simp only at this ⊢
      show s.idx.points.length + _ ≤ N
      omega
    · intro q hq
      obtain ⟨k, r', rk, hk, hr'⟩ := h.held q hq
      refine ⟨k, r', rk, ?_, hr'⟩
      rw [List.getElem?_set_ne]
      · exact hk
      · rintro rfl; rw [hpi] at hk; cases hk
    · intro k k' b b' r1 r2 hne hb hb' hr1 hr2
      rcases getElem?_set_cases hb with ⟨rfl, rfl, -⟩ | ⟨hki, hb2⟩
      · rcases getElem?_set_cases hb' with ⟨rfl, -, -⟩ | ⟨-, hb'⟩
        · exact absurd rfl hne
        · exact h.dist k k' _ b' r1 r2 hne hpi hb' hr1 hr2
      · rcases getElem?_set_cases hb' with ⟨rfl, rfl, -⟩ | ⟨-, hb2'⟩
        · exact h.dist k k' b _ r1 r2 hne hb2 hpi hr1 hr2
        · exact h.dist k k' b b' r1 r2 hne hb2 hb2' hr1 hr2
    · intro k r' rk t hp ht
      rcases getElem?_set_cases hp with ⟨rfl, hx, -⟩ | ⟨hki, hp⟩
      · cases hx
        rcases getElem?_set_cases ht with ⟨-, rfl, -⟩ | ⟨hne, -⟩
        · exact ⟨false, linkP_disc _ _ _, hF.held⟩
        · exact absurd rfl hne
      · rcases getElem?_set_cases ht with ⟨rfl, -, -⟩ | ⟨-, ht⟩
        · exact absurd rfl hki
        · exact h.disc k r' rk t hp ht
  | running r rk =>
    obtain ⟨hsafe, hrk, hir⟩ := hT
    obtain ⟨hG, hS⟩ := (hsafe s h.env (Rel.refl _ _ _)).2 hg
    have hpts : (u s).idx.points = s.idx.points := by unfold Idx.points; rw [hG.layers]
    have hph : ph.set i (.running r rk) = ph := by
      rw [← hpa]; exact List.set_getElem_self hplt
    refine ⟨ph, ⟨h.len, by simp [h.tlen], h.env.step hG, ?_, ?_, ?_, ?_, ?_, h.dist, ?_,
      fun o ho => (h.old o ho).trans (hG.others _ (h.distOld hpi rfl o ho)), ?_⟩, fun _ _ => rfl, ?_,
      fun a ha => ⟨a, ha, fun hne => (by rw [hpi] at ha; cases ha; cases hne), fun _ => rfl⟩⟩
    rotate_right
    · intro q hq hne
      have hh := (hG.others q (Ne.symm (hne r rk hpi))).held
      exact List.count_pos_iff.1 (by rw [hh]; exact List.count_pos_iff.2 hq)
    · have := hother (u s) (.running r rk) (k s) (by
        rintro r' ⟨k', b, hki, hb, hr'⟩
        exact hG.others _ (h.dist k' i b _ r' r hki hb hpi hr' rfl)) ⟨hS, hrk, hir⟩
      rw [hph] at this
      exact this
    · rw [hpts]; exact h.perm
    · rw [hG.count]; exact h.count
    · rw [hpts]; exact h.size
    · intro q hq
      by_cases hqr : q = r.pid
      · exact ⟨i, r, rk, hpi, hqr.symm⟩
      · have := (hG.others q hqr).held
        have h1 : 0 < (u s).held.count q := List.count_pos_iff.2 hq
        rw [this] at h1
        exact h.held q (List.count_pos_iff.1 h1)
    · intro e he
      obtain ⟨e1, he1, hle⟩ := h.entry e he
      have hx : ∃ p', p' ≠ r.pid := ⟨⟨r.pid.layer + 1, r.pid.rank⟩, by
        intro hh
        have := congrArg PointId.layer hh
        simp at this⟩
      obtain ⟨p', hp'⟩ := hx
      obtain ⟨e2, he2, hle2⟩ := (hG.others p' hp').entry e1 he1
      exact ⟨e2, he2, by omega⟩
    · intro k' r' rk' t hp ht
      rcases getElem?_set_cases ht with ⟨rfl, rfl, -⟩ | ⟨hki, ht⟩
      · rw [hpi] at hp
        cases hp
        obtain ⟨b, ⟨-, b', hb, hd⟩, hc⟩ := h.disc _ _ _ _ hpi hti
        exact ⟨b', hd s, hb s hc⟩
      · obtain ⟨b, hd, hc⟩ := h.disc k' r' rk' t hp ht
        exact ⟨b, hd, (hG.others _ (h.dist k' i _ _ r' r hki hp hpi rfl rfl)).held.trans hc⟩

theorem sysInv_step (L : P.Lawful) (hfu : N + 1 ≤ fuel) {s0 : CSt T}
    (hB : ∀ p l e, B.link p l e → ∃ o, Stored s0.idx o ∧ o.pid = p) {jobs : List (Job T)}
    {c c' : CSt T × List (Prog (CSt T) Unit)} (hs : Step c c') {ph : List (Phase T)}
    (h : SysInvB B P cfg fuel N D W s0 jobs c.1 c.2 ph) :
    ∃ ph', SysInvB B P cfg fuel N D W s0 jobs c'.1 c'.2 ph' := by
  cases hs with
  | mk i hi g u k hact hg =>
    obtain ⟨ph', h', -⟩ := sysInv_stepAt L hfu hB hi hact hg h
    exact ⟨ph', h'⟩

theorem sysInv_steps (L : P.Lawful) (hfu : N + 1 ≤ fuel) {s0 : CSt T}
    (hB : ∀ p l e, B.link p l e → ∃ o, Stored s0.idx o ∧ o.pid = p) {jobs : List (Job T)}
    {c c' : CSt T × List (Prog (CSt T) Unit)} (hs : Steps c c') {ph : List (Phase T)}
    (h : SysInvB B P cfg fuel N D W s0 jobs c.1 c.2 ph) :
    ∃ ph', SysInvB B P cfg fuel N D W s0 jobs c'.1 c'.2 ph' := by
  induction hs with
  | refl => exact ⟨ph, h⟩
  | step _ hstep ih =>
    obtain ⟨ph1, h1⟩ := ih
    exact sysInv_step L hfu hB hstep h1

end Verif
