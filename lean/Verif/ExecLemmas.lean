import Verif.Reach

set_option autoImplicit false

/-!
# Consequences of the invariants for executions
-/

namespace Verif
variable {T : Type} {P : Policy T} {cfg : Cfg T}

/-! ## The table -/

theorem points_nodup {m : Nat} {s : Idx T} (h : TableOK m s) : s.points.Nodup :=
  List.Pairwise.of_map _ (fun a b hab heq => hab (by rw [heq])) (pids_points_nodup h)

theorem mem_layer_iff {m : Nat} {s : Idx T} (h : TableOK m s) {l : Nat} {p : Ref T} :
    p ∈ s.layer l ↔ Stored s p ∧ p.pid.layer = l := by
  constructor
  · intro hp
    refine ⟨stored_iff.2 ⟨l, hp⟩, ?_⟩
    obtain ⟨r, hr⟩ := List.getElem?_of_mem hp
    rw [h.ids l r p hr]
  · rintro ⟨hp, rfl⟩
    rw [h.stored_iff] at hp
    exact List.mem_of_getElem? hp

theorem layer_nodup {m : Nat} {s : Idx T} (h : TableOK m s) (l : Nat) : (s.layer l).Nodup := by
  unfold Idx.layer
  cases hl : s.layers[l]? with
  | none => simp
  | some x =>
    have := points_nodup h
    unfold Idx.points List.Nodup at this
    rw [List.pairwise_flatten] at this
    exact this.1 x (List.mem_of_getElem? hl)

/-- the points of level `l` are those of the layer -/
theorem filter_points_perm {m : Nat} {s : Idx T} (h : TableOK m s) (l : Nat) :
    (s.points.filter (fun p => p.pid.layer = l)).Perm (s.layer l) := by
  rw [List.perm_ext_iff_of_nodup ((points_nodup h).sublist List.filter_sublist) (layer_nodup h l)]
  intro p
  rw [mem_layer_iff h, List.mem_filter]
  simp [Stored]

/-- a layer only grows at its end -/
theorem layer_prefix {m : Nat} {s s' : Idx T} (h : TableOK m s) (h' : TableOK m s')
    (hs : ∀ p, Stored s p → Stored s' p) (l : Nat) : s.layer l <+: s'.layer l := by
  rw [List.prefix_iff_getElem?]
  intro i hi
  have h1 : (s.layer l)[i]? = some (s.layer l)[i] := List.getElem?_eq_getElem hi
  have h2 := h.ids l i _ h1
  have h3 : Stored s (s.layer l)[i] := stored_iff.2 ⟨l, List.getElem_mem hi⟩
  have h4 := h'.stored_iff.1 (hs _ h3)
  rw [h2] at h4
  exact h4

/-! ## The points created by an execution -/

theorem filterMap_ref_running {ph : List (Phase T)} (h : ∀ a ∈ ph, a.isRunning = true) :
    ∀ (i : Nat) (r : Ref T), (ph.filterMap Phase.ref)[i]? = some r →
      ∃ rk, ph[i]? = some (.running r rk) := by
  induction ph with
  | nil => intro i r hi; simp at hi
  | cons a ph ih =>
    intro i r hi
    have ha := h a (by simp)
    cases a with
    | idle => cases ha
    | added r => cases ha
    | running r0 rk =>
      simp only [List.filterMap_cons, Phase.ref] at hi
      cases i with
      | zero => simp at hi; subst hi; exact ⟨rk, rfl⟩
      | succ i => simp at hi; simpa using ih (fun b hb => h b (List.mem_cons_of_mem _ hb)) i r hi

/-- Everything there is to know about a finished batch. -/
theorem Exec.finishedB (L : P.Lawful) {c0 : CSt T} {B : Base T} (h : GoodCB B cfg c0) (hB : B.Owned c0.idx) {jobs : List (Job T)}
    (hl : ∀ j ∈ jobs, j.level < cfg.maxLayer) {c : CSt T} {ts : List (Prog (CSt T) Unit)}
    (he : Exec P cfg c0 jobs c ts) (hf : ∀ t ∈ ts, t.Finished) :
    ts.length = jobs.length ∧
    ∃ refs : List (Ref T), refs.length = jobs.length ∧
      (∀ (i : Nat) j r, jobs[i]? = some j → refs[i]? = some r → IsRef j r) ∧
      c.idx.points.Perm (c0.idx.points ++ refs) ∧
      (∀ (i : Nat) r, refs[i]? = some r → ts[i]? = some (.ret ()) →
        ((c0.idx.nbPoint = 0 ∧ r.pid ∉ c.pub) ∨ EntryAbove r c)) ∧
      (∀ e, c0.idx.entry = some e → ∃ e', c.idx.entry = some e' ∧ e.pid.layer ≤ e'.pid.layer) ∧
      (c.pub ≠ [] ∨ jobs = []) := by
  obtain ⟨ph, hS⟩ := Exec.invB L h hB hl he (fun _ => True) (by simp) (by simp)
  have hall := hS.all_running hf
  refine ⟨hS.tlen, ph.filterMap Phase.ref, ?_, ?_, hS.perm, ?_, hS.entry, ?_⟩
  · rw [filterMap_length_of_running hall, hS.len]
  · intro i j r hj hr
    obtain ⟨rk, hp⟩ := filterMap_ref_running hall i r hr
    have ht : i < ts.length := by
      rw [hS.tlen]; exact (List.getElem?_eq_some_iff.1 hj).1
    exact (hS.thr i j _ _ hj hp (List.getElem?_eq_getElem ht)).2.2
  · intro i r hr ht
    obtain ⟨rk, hp⟩ := filterMap_ref_running hall i r hr
    have hj : i < jobs.length := by
      rw [← hS.len]; exact (List.getElem?_eq_some_iff.1 hp).1
    obtain ⟨h1, h2, h3⟩ := hS.thr i _ _ _ (List.getElem?_eq_getElem hj) hp ht
    rcases (h1 c hS.env (Rel.refl _ _ _)).1 with ⟨h4, h5, -⟩ | h4
    · left; exact ⟨by omega, h5⟩
    · exact Or.inr h4
  · cases jobs with
    | nil => right; rfl
    | cons j jobs =>
      left
      have h0 : 0 < ph.length := by rw [hS.len]; simp
      have ht0 : 0 < ts.length := by rw [hS.tlen]; simp
      have hr := hall _ (List.getElem_mem h0)
      have hT := hS.thr 0 j _ _ rfl (List.getElem?_eq_getElem h0) (List.getElem?_eq_getElem ht0)
      have hfin := hf _ (List.getElem_mem ht0)
      cases hph : ph[0] with
      | idle => rw [hph] at hr; cases hr
      | added r => rw [hph] at hr; cases hr
      | running r rk =>
        rw [hph] at hT
        cases hti : ts[0] with
        | ret a => rw [hti] at hT; exact (hT.1 c hS.env (Rel.refl _ _ _)).2.2
        | fail e => rw [hti] at hT; exact hT.1.2.2.2.1
        | act g u k => rw [hti] at hfin; exact absurd hfin (by simp [Prog.Finished])

theorem Exec.finished (L : P.Lawful) {c0 : CSt T} (h : GoodC cfg c0) {jobs : List (Job T)}
    (hl : ∀ j ∈ jobs, j.level < cfg.maxLayer) {c : CSt T} {ts : List (Prog (CSt T) Unit)}
    (he : Exec P cfg c0 jobs c ts) (hf : ∀ t ∈ ts, t.Finished) :
    ts.length = jobs.length ∧
    ∃ refs : List (Ref T), refs.length = jobs.length ∧
      (∀ (i : Nat) j r, jobs[i]? = some j → refs[i]? = some r → IsRef j r) ∧
      c.idx.points.Perm (c0.idx.points ++ refs) ∧
      (∀ (i : Nat) r, refs[i]? = some r → ts[i]? = some (.ret ()) →
        ((c0.idx.nbPoint = 0 ∧ r.pid ∉ c.pub) ∨ EntryAbove r c)) ∧
      (∀ e, c0.idx.entry = some e → ∃ e', c.idx.entry = some e' ∧ e.pid.layer ≤ e'.pid.layer) ∧
      (c.pub ≠ [] ∨ jobs = []) :=
  Exec.finishedB L h (Base.owned_none _) hl he hf

theorem Exec.stored_monoB (L : P.Lawful) {c0 : CSt T} {B : Base T} (h : GoodCB B cfg c0) (hB : B.Owned c0.idx) {jobs : List (Job T)}
    (hl : ∀ j ∈ jobs, j.level < cfg.maxLayer) {c : CSt T} {ts : List (Prog (CSt T) Unit)}
    (he : Exec P cfg c0 jobs c ts) : ∀ p, Stored c0.idx p → Stored c.idx p := by
  obtain ⟨ph, hS⟩ := Exec.invB L h hB hl he (fun _ => True) (by simp) (by simp)
  intro p hp
  unfold Stored
  rw [hS.perm.mem_iff]
  exact List.mem_append_left _ hp

theorem Exec.stored_mono (L : P.Lawful) {c0 : CSt T} (h : GoodC cfg c0) {jobs : List (Job T)}
    (hl : ∀ j ∈ jobs, j.level < cfg.maxLayer) {c : CSt T} {ts : List (Prog (CSt T) Unit)}
    (he : Exec P cfg c0 jobs c ts) : ∀ p, Stored c0.idx p → Stored c.idx p :=
  Exec.stored_monoB L h (Base.owned_none _) hl he

/-- no thread panics when the distance is legal on all vectors involved and no inherited list has a NaN -/
theorem Exec.no_panicB (L : P.Lawful) {c0 : CSt T} {B : Base T} (h : GoodCB B cfg c0) (hB : B.Owned c0.idx)
    (hBw : ¬ B.Wild) {jobs : List (Job T)}
    (hl : ∀ j ∈ jobs, j.level < cfg.maxLayer) {c : CSt T} {ts : List (Prog (CSt T) Unit)}
    (he : Exec P cfg c0 jobs c ts) (D : List T → Prop) (hD : ∀ v, Stored c0.idx v → D v.data)
    (hDj : ∀ j ∈ jobs, D j.data) (hL : ∀ a b, D a → D b → (cfg.eval a b).Legal) :
    ∀ t ∈ ts, ∀ e, t ≠ .fail e := by
  obtain ⟨ph, hS⟩ := Exec.invB L h hB hl he D hD hDj
  intro t ht e hte
  obtain ⟨i, hi, rfl⟩ := List.getElem_of_mem ht
  have hj : i < jobs.length := by rw [← hS.tlen]; exact hi
  have hp : i < ph.length := by rw [hS.len]; exact hj
  have hT := hS.thr i _ _ _ (List.getElem?_eq_getElem hj) (List.getElem?_eq_getElem hp)
    (List.getElem?_eq_getElem hi)
  rw [hte] at hT
  cases hph : ph[i] with
  | idle => rw [hph] at hT; have := hT.1; unfold Job.prog insertP at this; cases this
  | added r => rw [hph] at hT; have := hT.1; unfold countP at this; cases this
  | running r rk => rw [hph] at hT; exact hT.1.2.1.elim (fun h => h hL) hBw

theorem Exec.no_panic (L : P.Lawful) {c0 : CSt T} (h : GoodC cfg c0) {jobs : List (Job T)}
    (hl : ∀ j ∈ jobs, j.level < cfg.maxLayer) {c : CSt T} {ts : List (Prog (CSt T) Unit)}
    (he : Exec P cfg c0 jobs c ts) (D : List T → Prop) (hD : ∀ v, Stored c0.idx v → D v.data)
    (hDj : ∀ j ∈ jobs, D j.data) (hL : ∀ a b, D a → D b → (cfg.eval a b).Legal) :
    ∀ t ∈ ts, ∀ e, t ≠ .fail e :=
  Exec.no_panicB L h (Base.owned_none _) (fun ⟨_, _, h⟩ => h) hl he D hD hDj hL

/-- the step budget of the model never is what stops a thread -/
theorem Exec.no_fuelB (L : P.Lawful) {c0 : CSt T} {B : Base T} (h : GoodCB B cfg c0) (hB : B.Owned c0.idx) {jobs : List (Job T)}
    (hl : ∀ j ∈ jobs, j.level < cfg.maxLayer) {c : CSt T} {ts : List (Prog (CSt T) Unit)}
    (he : Exec P cfg c0 jobs c ts) : ∀ t ∈ ts, t ≠ .fail .fuel := by
  obtain ⟨ph, hS⟩ := Exec.invB L h hB hl he (fun _ => True) (by simp) (by simp)
  intro t ht hte
  obtain ⟨i, hi, rfl⟩ := List.getElem_of_mem ht
  have hj : i < jobs.length := by rw [← hS.tlen]; exact hi
  have hp : i < ph.length := by rw [hS.len]; exact hj
  have hT := hS.thr i _ _ _ (List.getElem?_eq_getElem hj) (List.getElem?_eq_getElem hp)
    (List.getElem?_eq_getElem hi)
  rw [hte] at hT
  cases hph : ph[i] with
  | idle => rw [hph] at hT; have := hT.1; unfold Job.prog insertP at this; cases this
  | added r => rw [hph] at hT; have := hT.1; unfold countP at this; cases this
  | running r rk => rw [hph] at hT; exact hT.1.1 rfl

theorem Exec.no_fuel (L : P.Lawful) {c0 : CSt T} (h : GoodC cfg c0) {jobs : List (Job T)}
    (hl : ∀ j ∈ jobs, j.level < cfg.maxLayer) {c : CSt T} {ts : List (Prog (CSt T) Unit)}
    (he : Exec P cfg c0 jobs c ts) : ∀ t ∈ ts, t ≠ .fail .fuel :=
  Exec.no_fuelB L h (Base.owned_none _) hl he

/-- what an execution may have done to the points that existed before -/
theorem Exec.oldB (L : P.Lawful) {c0 : CSt T} {B : Base T} (h : GoodCB B cfg c0) (hB : B.Owned c0.idx) {jobs : List (Job T)}
    (hl : ∀ j ∈ jobs, j.level < cfg.maxLayer) {c : CSt T} {ts : List (Prog (CSt T) Unit)}
    (he : Exec P cfg c0 jobs c ts) :
    ∀ o, Stored c0.idx o → Rel (fun l => ∃ j ∈ jobs, j.level = l) o.pid c0 c := by
  obtain ⟨ph, hS⟩ := Exec.invB L h hB hl he (fun _ => True) (by simp) (by simp)
  exact hS.old

theorem Exec.old (L : P.Lawful) {c0 : CSt T} (h : GoodC cfg c0) {jobs : List (Job T)}
    (hl : ∀ j ∈ jobs, j.level < cfg.maxLayer) {c : CSt T} {ts : List (Prog (CSt T) Unit)}
    (he : Exec P cfg c0 jobs c ts) :
    ∀ o, Stored c0.idx o → Rel (fun l => ∃ j ∈ jobs, j.level = l) o.pid c0 c :=
  Exec.oldB L h (Base.owned_none _) hl he

/-! ## Histories of single insertions -/

/-- States obtained by successive calls of `insert`, each of which returned or panicked (the panic
being caught by the caller), with dumps and reloads in between. -/
inductive Hist (P : Policy T) (cfg : Cfg T) : List (Job T) → CSt T → Prop
  | new : Hist P cfg [] (CSt.new cfg.maxLayer)
  | insert {jobs : List (Job T)} {c0 : CSt T} (ext kp : Bool) (j : Job T) :
      Hist P cfg jobs c0 → j.level < cfg.maxLayer →
      Hist P cfg (jobs ++ [j]) (insert P (cfg.withFlags ext kp) c0 (j.data, j.id) j.level).state
  | reload {jobs : List (Job T)} {c0 : CSt T} :
      Hist P cfg jobs c0 → Hist P cfg jobs { c0 with idx := c0.idx.resort P }

theorem SeqReach.hist {jobs : List (Job T)} {c : CSt T} (h : SeqReach P cfg jobs c) :
    Hist P cfg jobs c := by
  induction h with
  | new => exact .new
  | insert ext kp j _ hl hi ih =>
    have := ih.insert ext kp j hl
    rw [hi] at this
    exact this
  | reload _ ih => exact ih.reload

theorem Hist.reachC (L : P.Lawful) {jobs : List (Job T)} {c : CSt T} (h : Hist P cfg jobs c) :
    ReachC P cfg c := by
  induction h with
  | new => exact .new
  | insert ext kp j _ hl ih => exact ih.insert L ext kp hl
  | reload _ ih => exact ih.reload

/-- effect of one call -/
theorem insert_spec (L : P.Lawful) {c0 : CSt T} (h : GoodC cfg c0) {j : Job T}
    (hl : j.level < cfg.maxLayer) (ext kp : Bool) {c : CSt T}
    (hc : (insert P (cfg.withFlags ext kp) c0 (j.data, j.id) j.level).state = c) :
    ∃ r : Ref T, IsRef j r ∧ GoodC cfg c ∧ (∀ o, Stored c0.idx o → o.pid ≠ r.pid) ∧
      (∀ l, c.idx.layer l = c0.idx.layer l ++ if l = j.level then [r] else []) ∧
      c.idx.points.Perm (r :: c0.idx.points) ∧
      (∀ o, Stored c0.idx o → Rel (fun l => l = j.level) o.pid c0 c) ∧
      (insert P (cfg.withFlags ext kp) c0 (j.data, j.id) j.level = .ok () c → EntryAbove r c) := by
  have h' : GoodC (cfg.withFlags ext kp) c0 := goodC_flags.2 h
  obtain ⟨c1, t, he, hf, ho⟩ := insert_exec (cfg := cfg.withFlags ext kp) L h' (j := j) hl
  have hlj : ∀ j' ∈ [j], j'.level < (cfg.withFlags ext kp).maxLayer := by
    intro j' hj'
    rw [List.mem_singleton.1 hj']
    exact hl
  have hft : ∀ t' ∈ [t], t'.Finished := by simpa using hf
  have h1 : c1 = c := by
    rw [← hc]
    rcases ho with ⟨h1, -⟩ | ⟨e, h1, -⟩ <;> rw [h1] <;> rfl
  subst h1
  have hG := Exec.goodC (cfg := cfg.withFlags ext kp) L h' hlj he hft
  obtain ⟨-, refs, hlen, href, hperm, hent, -, hpub⟩ :=
    Exec.finished (cfg := cfg.withFlags ext kp) L h' hlj he hft
  have hold := Exec.old (cfg := cfg.withFlags ext kp) L h' hlj he
  match refs, hlen with
  | [r], _ =>
  have hir : IsRef j r := href 0 j r rfl rfl
  have hnd := pids_points_nodup hG.inv.ok.tab
  rw [(hperm.map (·.pid)).nodup_iff, List.map_append, List.nodup_append] at hnd
  have hne : ∀ o, Stored c0.idx o → o.pid ≠ r.pid := fun o ho =>
    hnd.2.2 _ (List.mem_map.2 ⟨o, ho, rfl⟩) _ (by simp)
  refine ⟨r, hir, goodC_flags.1 hG, hne, ?_, hperm.trans (List.perm_append_singleton _ _), ?_, ?_⟩
  · intro l
    obtain ⟨v, hv⟩ := layer_prefix h.inv.ok.tab (goodC_flags.1 hG).inv.ok.tab
      (Exec.stored_mono (cfg := cfg.withFlags ext kp) L h' hlj he) l
    have h2 := (filter_points_perm (goodC_flags.1 hG).inv.ok.tab l).symm.trans
      (hperm.filter (fun p => decide (p.pid.layer = l)))
    rw [List.filter_append] at h2
    have h3 := h2.trans ((filter_points_perm h.inv.ok.tab l).append_right _)
    rw [← hv, List.perm_append_left_iff] at h3
    rw [← hv]
    congr 1
    by_cases hlj : l = j.level
    · rw [if_pos hlj]
      have : [r].filter (fun p => decide (p.pid.layer = l)) = [r] := by
        simp [hir.2.2, hlj]
      rw [this] at h3
      exact List.perm_singleton.1 h3
    · rw [if_neg hlj]
      have : [r].filter (fun p => decide (p.pid.layer = l)) = [] := by
        simp [hir.2.2]; omega
      rw [this] at h3
      exact h3.eq_nil
  · intro o ho'
    have := hold o ho'
    refine ⟨this.stored, this.pub, fun l hl' => this.wr l ?_, this.priv, this.held, this.entry,
      this.frozen, this.mine⟩
    rintro ⟨j', hj', rfl⟩
    simp at hj'
    exact hl' (by rw [hj'])
  · intro hok
    rcases ho with ⟨-, rfl⟩ | ⟨e, h2, -⟩
    · rcases hent 0 r rfl rfl with ⟨h0, hnp⟩ | h4
      · exfalso
        rw [h.count] at h0
        have h0' : c0.idx.points = [] := List.length_eq_zero_iff.1 h0
        rcases hpub with hpub | hpub
        · obtain ⟨x, hx⟩ := List.exists_mem_of_ne_nil _ hpub
          obtain ⟨o, ho, hox⟩ := hG.inv.pubStored x hx
          unfold Stored at ho
          rw [hperm.mem_iff, h0'] at ho
          simp at ho
          subst ho
          exact hnp (hox ▸ hx)
        · cases hpub
      · exact h4
    · rw [h2] at hok; cases hok

/-- The points in order of insertion, and what is known of the links between them. -/
theorem Hist.refs (L : P.Lawful) {jobs : List (Job T)} {c : CSt T} (h : Hist P cfg jobs c) :
    ∃ refs : List (Ref T), refs.length = jobs.length ∧
      (∀ (i : Nat) j r, jobs[i]? = some j → refs[i]? = some r → IsRef j r) ∧
      c.idx.points.Perm refs ∧
      (∀ l, c.idx.layer l = refs.filter (fun r => r.pid.layer = l)) ∧
      (∀ (i k : Nat) a b, i < k → refs[i]? = some a → refs[k]? = some b →
        (∀ l, ∀ e ∈ c.idx.nb a.pid l, e.pt = b → e.dist = cfg.eval b.data a.data) ∧
        (∀ l, ∀ e ∈ c.idx.nb b.pid l, e.pt = a → e.dist = cfg.eval b.data a.data)) := by
  suffices hs : ∃ refs : List (Ref T), refs.length = jobs.length ∧
      (∀ (i : Nat) j r, jobs[i]? = some j → refs[i]? = some r → IsRef j r) ∧
      c.idx.points.Perm refs ∧
      (∀ l, c.idx.layer l = refs.filter (fun r => r.pid.layer = l)) ∧
      (∀ (i k : Nat) a b, i < k → refs[i]? = some a → refs[k]? = some b →
        (∀ l, ∀ e ∈ c.idx.nb a.pid l, e.pt = b → e.dist = cfg.eval b.data a.data) ∧
        (∀ l, ∀ e ∈ c.idx.nb b.pid l, e.pt = a → e.dist = cfg.eval b.data a.data)) ∧
      (∀ (i k : Nat) a b, i < k → refs[i]? = some a → refs[k]? = some b → a.pid ∈ c.pub →
        b.pid ∈ c.pub → Older c.pub a.pid b.pid) by
    obtain ⟨refs, h1, h2, h3, h4, h5, -⟩ := hs
    exact ⟨refs, h1, h2, h3, h4, h5⟩
  induction h with
  | new =>
    refine ⟨[], rfl, by simp, ?_, ?_, by simp, by simp⟩
    · simp [CSt.new, Idx.new, Idx.points]
    · intro l; simp [CSt.new, Idx.new, Idx.layer, List.getElem?_replicate]
      split <;> rfl
  | reload _ ih =>
    obtain ⟨refs, h1, h2, h3, h4, h5, h6⟩ := ih
    exact ⟨refs, h1, h2, h3, h4, fun i k a b hik ha hb =>
      ⟨fun l e he => (h5 i k a b hik ha hb).1 l e ((Idx.mem_resort L).1 he),
        fun l e he => (h5 i k a b hik ha hb).2 l e ((Idx.mem_resort L).1 he)⟩, h6⟩
  | @insert jobs c0 ext kp j hh hl ih =>
    obtain ⟨refs, h1, h2, h3, h4, h5, h6⟩ := ih
    have hG0 := (hh.reachC L).goodC L
    obtain ⟨r, hir, hG, hne, hlay, hperm, hrel, -⟩ := insert_spec L hG0 hl ext kp rfl
    generalize (Verif.insert P (cfg.withFlags ext kp) c0 (j.data, j.id) j.level).state = c at *
    have hst : ∀ {i : Nat} {a : Ref T}, refs[i]? = some a → Stored c0.idx a := by
      intro i a hi
      unfold Stored
      rw [h3.mem_iff]
      exact List.mem_of_getElem? hi
    have hrst : Stored c.idx r := by unfold Stored; rw [hperm.mem_iff]; simp
    have hrp : r.pid ∉ c0.pub := by
      intro hp
      obtain ⟨o, ho, hop⟩ := hG0.inv.pubStored _ hp
      exact hne o ho hop
    have hsuf : ∀ o, Stored c0.idx o → c0.pub <:+ c.pub := fun o ho => (hrel o ho).pub
    have hpub : ∀ o, Stored c0.idx o → o.pid ∈ c.pub → o.pid ∈ c0.pub := by
      intro o ho hp
      apply Classical.byContradiction
      intro hn
      exact ((hrel o ho).priv hn).1 hp
    have hanti : ∀ {a b : PointId}, Older c.pub a b → ¬ Older c.pub b a := by
      intro a b ha hb
      have := ha.2; have := hb.2; omega
    refine ⟨refs ++ [r], by simp [h1], ?_, ?_, ?_, ?_, ?_⟩
    · intro i j' r' hj hr
      rw [List.getElem?_append] at hj hr
      rw [← h1] at hj
      split at hj
      · rename_i hlt
        rw [if_pos hlt] at hr
        exact h2 i j' r' hj hr
      · rename_i hlt
        rw [if_neg hlt] at hr
        have h0 : i - refs.length = 0 := by
          cases hk : i - refs.length with
          | zero => rfl
          | succ n => rw [hk] at hj; simp at hj
        rw [h0] at hj hr
        simp at hj hr
        subst hj; subst hr
        exact hir
    · exact hperm.trans ((h3.cons r).trans (List.perm_append_singleton r refs).symm)
    · intro l
      rw [hlay, h4, List.filter_append]
      congr 1
      by_cases hlj : l = j.level
      · rw [if_pos hlj]; simp [hir.2.2, hlj]
      · rw [if_neg hlj]; simp [hir.2.2]; omega
    · intro i k a b hik ha hb
      have hkl : k < (refs ++ [r]).length := (List.getElem?_eq_some_iff.1 hb).1
      simp at hkl
      have hi' : refs[i]? = some a := by
        rw [List.getElem?_append_left (by omega)] at ha; exact ha
      have hsa := hst hi'
      have hsa' := (hrel a hsa).stored a hsa
      by_cases hk : k < refs.length
      · have hb' : refs[k]? = some b := by
          rw [List.getElem?_append_left hk] at hb; exact hb
        have hsb := hst hb'
        have hsb' := (hrel b hsb).stored b hsb
        constructor
        · intro l e he hpt
          by_cases hap : a.pid ∈ c0.pub
          · have hbp : b.pid ∈ c0.pub := hpub b hsb (by rw [← hpt]; exact hG.inv.pubLink _ _ e he)
            have ho := (h6 i k a b hik hi' hb' hap hbp).mono (hsuf a hsa)
            rcases hG.inv.ord a hsa' l e he with ⟨h7, -⟩ | ⟨-, h8⟩
            · rw [hpt] at h7; exact absurd h7 (hanti ho)
            · rw [h8, hpt]
          · have := ((hrel a hsa).priv hap).2 l
            rw [this] at he
            exact (h5 i k a b hik hi' hb').1 l e he hpt
        · intro l e he hpt
          by_cases hbp : b.pid ∈ c0.pub
          · have hap : a.pid ∈ c0.pub := hpub a hsa (by rw [← hpt]; exact hG.inv.pubLink _ _ e he)
            have ho := (h6 i k a b hik hi' hb' hap hbp).mono (hsuf a hsa)
            rcases hG.inv.ord b hsb' l e he with ⟨-, h8⟩ | ⟨h7, -⟩
            · rw [h8, hpt]
            · rw [hpt] at h7; exact absurd h7 (hanti ho)
          · have := ((hrel b hsb).priv hbp).2 l
            rw [this] at he
            exact (h5 i k a b hik hi' hb').2 l e he hpt
      · have hkr : k - refs.length = 0 := by omega
        rw [List.getElem?_append_right (by omega), hkr] at hb
        simp at hb
        subst hb
        constructor
        · intro l e he hpt
          by_cases hap : a.pid ∈ c0.pub
          · have ho := (Older.of_new hap hrp).mono (hsuf a hsa)
            rcases hG.inv.ord a hsa' l e he with ⟨h7, -⟩ | ⟨-, h8⟩
            · rw [hpt] at h7; exact absurd h7 (hanti ho)
            · rw [h8, hpt]
          · have := ((hrel a hsa).priv hap).2 l
            rw [this] at he
            have := hG0.inv.ok.stored _ _ e he
            rw [hpt] at this
            exact absurd rfl (hne _ this)
        · intro l e he hpt
          have hap : a.pid ∈ c0.pub := hpub a hsa (by rw [← hpt]; exact hG.inv.pubLink _ _ e he)
          have ho := (Older.of_new hap hrp).mono (hsuf a hsa)
          rcases hG.inv.ord r hrst l e he with ⟨-, h8⟩ | ⟨h7, -⟩
          · rw [h8, hpt]
          · rw [hpt] at h7; exact absurd h7 (hanti ho)
    · intro i k a b hik ha hb hap hbp
      have hkl : k < (refs ++ [r]).length := (List.getElem?_eq_some_iff.1 hb).1
      simp at hkl
      have hi' : refs[i]? = some a := by
        rw [List.getElem?_append_left (by omega)] at ha; exact ha
      have hsa := hst hi'
      have hap0 := hpub a hsa hap
      by_cases hk : k < refs.length
      · have hb' : refs[k]? = some b := by
          rw [List.getElem?_append_left hk] at hb; exact hb
        exact (h6 i k a b hik hi' hb' hap0 (hpub b (hst hb') hbp)).mono (hsuf a hsa)
      · have hkr : k - refs.length = 0 := by omega
        rw [List.getElem?_append_right (by omega), hkr] at hb
        simp at hb
        subst hb
        exact (Older.of_new hap0 hrp).mono (hsuf a hsa)

/-! ## Termination -/

/-- Any schedule of any system of threads is finite. -/
theorem step_list_wf {σ α : Type} :
    WellFounded (fun (b a : List (Prog σ α)) => ∃ s s', Step (s, a) (s', b)) := by
  let R : List (Prog σ α) → List (Prog σ α) → Prop := fun ts' ts => ∃ s s', Step (s, ts) (s', ts')
  have hcons : ∀ (t : Prog σ α) (ts : List (Prog σ α)), Acc R ts → Acc R (t :: ts) := by
    intro t
    induction t with
    | ret a =>
      intro ts h
      induction h with
      | intro ts _ ih =>
        constructor
        rintro ts' ⟨s, s', hs⟩
        cases hs with
        | mk i hi g u k hact hg =>
        cases i with
        | zero => cases hact
        | succ i =>
          simp only [List.set_cons_succ]
          exact ih _ ⟨s, _, .mk (ts := ts) i (by simpa using hi) g u k (by simpa using hact) hg⟩
    | fail e =>
      intro ts h
      induction h with
      | intro ts _ ih =>
        constructor
        rintro ts' ⟨s, s', hs⟩
        cases hs with
        | mk i hi g u k hact hg =>
        cases i with
        | zero => cases hact
        | succ i =>
          simp only [List.set_cons_succ]
          exact ih _ ⟨s, _, .mk (ts := ts) i (by simpa using hi) g u k (by simpa using hact) hg⟩
    | act g0 u0 k0 ihk =>
      intro ts h
      induction h with
      | intro ts hacc ih =>
        constructor
        rintro ts' ⟨s, s', hs⟩
        cases hs with
        | mk i hi g u k hact hg =>
        cases i with
        | zero =>
          simp only [List.getElem_cons_zero] at hact
          cases hact
          simp only [List.set_cons_zero]
          exact ihk s ts ⟨ts, hacc⟩
        | succ i =>
          simp only [List.set_cons_succ]
          exact ih _ ⟨s, _, .mk (ts := ts) i (by simpa using hi) g u k (by simpa using hact) hg⟩
  have hall : ∀ ts : List (Prog σ α), Acc R ts := by
    intro ts
    induction ts with
    | nil =>
      constructor
      rintro ts' ⟨s, s', hs⟩
      cases hs with
      | mk i hi => simp at hi
    | cons t ts ih => exact hcons t ts ih
  exact ⟨hall⟩

/-- every step shortens a program: no schedule goes on for ever -/
theorem step_wf {σ α : Type} : WellFounded (fun (b a : σ × List (Prog σ α)) => Step a b) := by
  constructor
  rintro ⟨s, ts⟩
  have h := (step_list_wf (σ := σ) (α := α)).apply ts
  induction h generalizing s with
  | intro ts _ ih =>
    constructor
    rintro ⟨s', ts'⟩ hs
    exact ih ts' ⟨s, s', hs⟩ s'

/-- Levels of insertions that cannot block each other for ever: all the same, or two insertions one
of which is at level 0. -/
def NoCycle (jobs : List (Job T)) : Prop :=
  (∀ j ∈ jobs, ∀ j' ∈ jobs, j.level = j'.level) ∨ (jobs.length ≤ 2 ∧ ∃ j ∈ jobs, j.level = 0)

/-- some thread can go on when one is blocked, even if the actions that need a read lock are refused
as long as some thread waits -/
theorem Exec.progress_fairB (L : P.Lawful) {c0 : CSt T} {B : Base T} (h : GoodCB B cfg c0) (hB : B.Owned c0.idx) {jobs : List (Job T)}
    (hl : ∀ j ∈ jobs, j.level < cfg.maxLayer) (hlv : NoCycle jobs)
    {c : CSt T} {ts : List (Prog (CSt T) Unit)} (he : Exec P cfg c0 jobs c ts)
    {i0 : Nat} {g0 u0 k0} (hi0 : ts[i0]? = some (.act g0 u0 k0)) (hg0 : g0 c = false) :
    ∃ (i : Nat) (g : CSt T → Bool) (u : CSt T → CSt T) (k : CSt T → Prog (CSt T) Unit),
      ts[i]? = some (.act g u k) ∧ g c = true ∧ ¬ Delayable g u := by
  obtain ⟨ph, hS⟩ := Exec.invB L h hB hl he (fun _ => True) (by simp) (by simp)
  apply Classical.byContradiction
  intro hno
  -- the thread that holds what a blocked thread waits for is blocked as well
  have wait : ∀ (i : Nat) g u k r rk, ts[i]? = some (.act g u k) → g c = false →
      ph[i]? = some (.running r rk) →
      ∃ (i' : Nat) (g' : CSt T → Bool) (u' : CSt T → CSt T) (k' : CSt T → Prog (CSt T) Unit)
        (r' : Ref T) (rk' : Nat), ts[i']? = some (.act g' u' k') ∧ g' c = false ∧
        ph[i']? = some (.running r' rk') ∧ r'.pid ≠ r.pid ∧
        ((∀ j ∈ jobs, r.pid.layer ≤ j.level) → Older c.pub r'.pid r.pid) ∧
        (∃ l, ∃ e ∈ c.idx.nb r.pid l, e.pt.pid = r'.pid) ∧
        (r.pid.layer = 0 → ∀ l, ∀ e ∈ c.idx.nb r'.pid l, e.pt.pid = r.pid →
          Older c.pub r.pid r'.pid) := by
    intro i g u k r rk hi hb hr
    have hj : i < jobs.length := by rw [← hS.tlen]; exact (List.getElem?_eq_some_iff.1 hi).1
    have hT := hS.thr i _ _ _ (List.getElem?_eq_getElem hj) hr hi
    rcases (hT.1 c hS.env (Rel.refl _ _ _)).1 with h1 | ⟨q, hq, hne, ho, hin, hlow⟩
    · rw [hb] at h1; cases h1
    · obtain ⟨i', r', rk', hi', hr'⟩ := hS.held q hq
      have hj' : i' < jobs.length := by
        rw [← hS.len]; exact (List.getElem?_eq_some_iff.1 hi').1
      have ht' : i' < ts.length := by rw [hS.tlen]; exact hj'
      obtain ⟨b, hd, hc⟩ := hS.disc i' r' rk' _ hi' (List.getElem?_eq_getElem ht')
      have hcnt : c.held.count r'.pid ≠ 0 := by
        rw [hr']
        exact fun h0 => (List.count_eq_zero.1 h0) hq
      have hbt : b = true := by
        cases b with
        | true => rfl
        | false => exact absurd hc hcnt
      subst hbt
      cases hti : ts[i'] with
      | ret a => rw [hti] at hd; cases hd
      | fail e => rw [hti] at hd; cases hd
      | act g' u' k' =>
        rw [hti] at hd
        have hti' : ts[i']? = some (.act g' u' k') := by rw [List.getElem?_eq_getElem ht', hti]
        cases hg' : g' c with
        | true => exact absurd ⟨i', g', u', k', hti', hg', hd.1 rfl⟩ hno
        | false =>
          subst hr'
          refine ⟨i', g', u', k', r', rk', hti', hg', hi', hne, fun hle => ho ?_, hin, hlow⟩
          rintro l ⟨j', hj', rfl⟩
          exact hle j' hj'
  have hrun : ∃ r rk, ph[i0]? = some (.running r rk) := by
    have hj : i0 < jobs.length := by rw [← hS.tlen]; exact (List.getElem?_eq_some_iff.1 hi0).1
    have hp : i0 < ph.length := by rw [hS.len]; exact hj
    have hT := hS.thr i0 _ _ _ (List.getElem?_eq_getElem hj) (List.getElem?_eq_getElem hp) hi0
    cases hph : ph[i0] with
    | idle =>
      rw [hph] at hT
      have := hT.1
      unfold Job.prog insertP at this
      cases this
      simp at hg0
    | added r =>
      rw [hph] at hT
      have := hT.1
      unfold countP at this
      cases this
      simp at hg0
    | running r rk => exact ⟨r, rk, by rw [List.getElem?_eq_getElem hp, hph]⟩
  have lev : ∀ (i : Nat) g u k r rk, ts[i]? = some (.act g u k) → ph[i]? = some (.running r rk) →
      ∃ j, jobs[i]? = some j ∧ r.pid.layer = j.level := by
    intro i g u k r rk hi hr
    have hj : i < jobs.length := by rw [← hS.tlen]; exact (List.getElem?_eq_some_iff.1 hi).1
    have hT := hS.thr i _ _ _ (List.getElem?_eq_getElem hj) hr hi
    exact ⟨_, List.getElem?_eq_getElem hj, hT.2.2.2.2⟩
  obtain ⟨r0, rk0, hr0⟩ := hrun
  rcases hlv with hlv | ⟨hlen, jz, hjz, hz⟩
  · -- all of the same level: each waits for an older one
    have key : ∀ (n : Nat) (i : Nat) g u k r rk, ts[i]? = some (.act g u k) → g c = false →
        ph[i]? = some (.running r rk) → c.pub.reverse.idxOf r.pid ≤ n → False := by
      intro n
      induction n with
      | zero =>
        intro i g u k r rk hi hb hr hn
        obtain ⟨j, hj, hjl⟩ := lev i g u k r rk hi hr
        obtain ⟨i', g', u', k', r', rk', h1, h2, h3, h4, h5, -⟩ := wait i g u k r rk hi hb hr
        have := (h5 fun j' hj' => by
          rw [hjl]; exact Nat.le_of_eq (hlv _ (List.mem_of_getElem? hj) _ hj')).2
        omega
      | succ n ih =>
        intro i g u k r rk hi hb hr hn
        obtain ⟨j, hj, hjl⟩ := lev i g u k r rk hi hr
        obtain ⟨i', g', u', k', r', rk', h1, h2, h3, h4, h5, -⟩ := wait i g u k r rk hi hb hr
        have := (h5 fun j' hj' => by
          rw [hjl]; exact Nat.le_of_eq (hlv _ (List.mem_of_getElem? hj) _ hj')).2
        exact ih i' g' u' k' r' rk' h1 h2 h3 (by omega)
    exact key _ i0 g0 u0 k0 r0 rk0 hi0 hg0 hr0 (Nat.le_refl _)
  · -- two of them: each waits for the other one
    obtain ⟨i1, g1, u1, k1, r1, rk1, hi1, hg1, hr1, hne1, hold1, hin1, hlow1⟩ :=
      wait i0 g0 u0 k0 r0 rk0 hi0 hg0 hr0
    obtain ⟨i2, g2, u2, k2, r2, rk2, hi2, hg2, hr2, hne2, hold2, hin2, hlow2⟩ :=
      wait i1 g1 u1 k1 r1 rk1 hi1 hg1 hr1
    have hn1 : i1 ≠ i0 := by
      rintro rfl
      rw [hr0] at hr1
      cases hr1
      exact hne1 rfl
    have hn2 : i2 ≠ i1 := by
      rintro rfl
      rw [hr1] at hr2
      cases hr2
      exact hne2 rfl
    have hlt : ∀ i t, ts[i]? = some t → i < 2 := by
      intro i t hi
      have := (List.getElem?_eq_some_iff.1 hi).1
      have := hS.tlen
      omega
    have h20 : i2 = i0 := by
      have := hlt _ _ hi0
      have := hlt _ _ hi1
      have := hlt _ _ hi2
      omega
    subst h20
    rw [hr0] at hr2
    cases hr2
    obtain ⟨j0, hj0, hl0⟩ := lev i2 g0 u0 k0 r0 rk0 hi0 hr0
    obtain ⟨j1, hj1, hl1⟩ := lev i1 g1 u1 k1 r1 rk1 hi1 hr1
    obtain ⟨iz, hiz⟩ := List.getElem?_of_mem hjz
    have hizlt := (List.getElem?_eq_some_iff.1 hiz).1
    have hizz : iz = i2 ∨ iz = i1 := by
      have := hlt _ _ hi0
      have := hlt _ _ hi1
      omega
    rcases hizz with rfl | rfl
    · rw [hj0] at hiz
      cases hiz
      have h0 : r0.pid.layer = 0 := by omega
      have h1 := (hold1 fun j' _ => by omega).2
      obtain ⟨l, e, he, hep⟩ := hin2
      have h2 := (hlow1 h0 l e he hep).2
      omega
    · rw [hj1] at hiz
      cases hiz
      have h0 : r1.pid.layer = 0 := by omega
      have h1 := (hold2 fun j' _ => by omega).2
      obtain ⟨l, e, he, hep⟩ := hin1
      have h2 := (hlow2 h0 l e he hep).2
      omega

theorem Exec.progress_fair (L : P.Lawful) {c0 : CSt T} (h : GoodC cfg c0) {jobs : List (Job T)}
    (hl : ∀ j ∈ jobs, j.level < cfg.maxLayer) (hlv : NoCycle jobs)
    {c : CSt T} {ts : List (Prog (CSt T) Unit)} (he : Exec P cfg c0 jobs c ts)
    {i0 : Nat} {g0 u0 k0} (hi0 : ts[i0]? = some (.act g0 u0 k0)) (hg0 : g0 c = false) :
    ∃ (i : Nat) (g : CSt T → Bool) (u : CSt T → CSt T) (k : CSt T → Prog (CSt T) Unit),
      ts[i]? = some (.act g u k) ∧ g c = true ∧ ¬ Delayable g u :=
  Exec.progress_fairB L h (Base.owned_none _) hl hlv he hi0 hg0

/-- such insertions do not block each other for ever -/
theorem Exec.progressB (L : P.Lawful) {c0 : CSt T} {B : Base T} (h : GoodCB B cfg c0) (hB : B.Owned c0.idx) {jobs : List (Job T)}
    (hl : ∀ j ∈ jobs, j.level < cfg.maxLayer) (hlv : NoCycle jobs)
    {c : CSt T} {ts : List (Prog (CSt T) Unit)} (he : Exec P cfg c0 jobs c ts)
    (hu : ∃ t ∈ ts, ¬ t.Finished) : ∃ x, Step (c, ts) x := by
  obtain ⟨t, ht, hf⟩ := hu
  obtain ⟨i, hi⟩ := List.getElem?_of_mem ht
  have step : ∀ (i : Nat) g u k, ts[i]? = some (.act g u k) → g c = true → ∃ x, Step (c, ts) x := by
    intro i g u k hi hg
    obtain ⟨hlt, hact⟩ := List.getElem?_eq_some_iff.1 hi
    exact ⟨_, Step.mk i hlt g u k hact hg⟩
  cases t with
  | ret a => exact absurd trivial hf
  | fail e => exact absurd trivial hf
  | act g u k =>
    cases hg : g c with
    | true => exact step i g u k hi hg
    | false =>
      obtain ⟨i', g', u', k', hi', hg', -⟩ := Exec.progress_fairB L h hB hl hlv he hi hg
      exact step i' g' u' k' hi' hg'

theorem Exec.progress (L : P.Lawful) {c0 : CSt T} (h : GoodC cfg c0) {jobs : List (Job T)}
    (hl : ∀ j ∈ jobs, j.level < cfg.maxLayer) (hlv : NoCycle jobs)
    {c : CSt T} {ts : List (Prog (CSt T) Unit)} (he : Exec P cfg c0 jobs c ts)
    (hu : ∃ t ∈ ts, ¬ t.Finished) : ∃ x, Step (c, ts) x :=
  Exec.progressB L h (Base.owned_none _) hl hlv he hu

/-- so that any execution can be completed -/
theorem Exec.completesB (L : P.Lawful) {c0 : CSt T} {B : Base T} (h : GoodCB B cfg c0) (hB : B.Owned c0.idx) {jobs : List (Job T)}
    (hl : ∀ j ∈ jobs, j.level < cfg.maxLayer) (hlv : NoCycle jobs)
    {c : CSt T} {ts : List (Prog (CSt T) Unit)} (he : Exec P cfg c0 jobs c ts) :
    ∃ c' ts', Exec P cfg c0 jobs c' ts' ∧ Steps (c, ts) (c', ts') ∧ ∀ t ∈ ts', t.Finished := by
  have key : ∀ x : CSt T × List (Prog (CSt T) Unit), Exec P cfg c0 jobs x.1 x.2 →
      ∃ c' ts', Exec P cfg c0 jobs c' ts' ∧ Steps x (c', ts') ∧ ∀ t ∈ ts', t.Finished := by
    intro x
    induction x using step_wf.induction with
    | h x ih =>
      intro hx
      by_cases hf : ∀ t ∈ x.2, t.Finished
      · exact ⟨x.1, x.2, hx, .refl _, hf⟩
      · have : ∃ t ∈ x.2, ¬ t.Finished := by
          apply Classical.byContradiction
          intro hn
          exact hf (fun t ht => Classical.byContradiction fun h' => hn ⟨t, ht, h'⟩)
        obtain ⟨y, hy⟩ := Exec.progressB L h hB hl hlv hx this
        obtain ⟨c', ts', h1, h2, h3⟩ := ih y hy (Steps.step hx hy)
        exact ⟨c', ts', h1, (Steps.step (.refl _) hy).trans h2, h3⟩
  exact key (c, ts) he

theorem Exec.completes (L : P.Lawful) {c0 : CSt T} (h : GoodC cfg c0) {jobs : List (Job T)}
    (hl : ∀ j ∈ jobs, j.level < cfg.maxLayer) (hlv : NoCycle jobs)
    {c : CSt T} {ts : List (Prog (CSt T) Unit)} (he : Exec P cfg c0 jobs c ts) :
    ∃ c' ts', Exec P cfg c0 jobs c' ts' ∧ Steps (c, ts) (c', ts') ∧ ∀ t ∈ ts', t.Finished :=
  Exec.completesB L h (Base.owned_none _) hl hlv he

/-! ## Concrete schedules -/

/-- run the threads in the order given by a list of thread numbers; `none` if one of them cannot
move -/
def runSched {σ α : Type} : List Nat → σ × List (Prog σ α) → Option (σ × List (Prog σ α))
  | [], c => some c
  | i :: is, (s, ts) =>
    match ts[i]? with
    | some (.act g u k) => if g s = true then runSched is (u s, ts.set i (k s)) else none
    | _ => none

theorem runSched_steps {σ α : Type} : ∀ (is : List Nat) (c c' : σ × List (Prog σ α)),
    runSched is c = some c' → Steps c c' := by
  intro is
  induction is with
  | nil => intro c c' h; cases h; exact .refl _
  | cons i is ih =>
    rintro ⟨s, ts⟩ c' h
    simp only [runSched] at h
    split at h
    · rename_i g u k hi
      split at h
      · rename_i hg
        obtain ⟨hlt, hact⟩ := List.getElem?_eq_some_iff.1 hi
        exact Steps.trans (.step (.refl _) (.mk i hlt g u k hact hg)) (ih _ _ h)
      · cases h
    · cases h

/-- the thread returned -/
def isRet {σ : Type} : Prog σ Unit → Bool
  | .ret _ => true
  | _ => false

/-- the thread has not finished and cannot move -/
def isBlocked {σ : Type} (s : σ) : Prog σ Unit → Bool
  | .act g _ _ => !g s
  | _ => false

end Verif
