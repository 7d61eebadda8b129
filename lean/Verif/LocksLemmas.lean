import Verif.Locks

/-! # Ordered threads do not deadlock -/

set_option autoImplicit false

namespace Verif

variable {lt : Lock → Lock → Prop} {W : Lock → Prop}

theorem Ordered.perm {h h' : List Lock} {ops : List LockOp} (hp : h.Perm h')
    (ho : Ordered lt W h ops) : Ordered lt W h' ops := by
  induction ops generalizing h h' with
  | nil =>
    simp only [Ordered] at ho ⊢
    subst ho
    exact hp.nil_eq.symm
  | cons o r ih =>
    cases o with
    | rd k =>
      exact ⟨fun hk a ha hw => ho.1 hk a (hp.mem_iff.2 ha) hw, ih (hp.cons k) ho.2⟩
    | wr k =>
      exact ⟨ho.1, fun a ha hw => ho.2.1 a (hp.mem_iff.2 ha) hw, ih (hp.cons k) ho.2.2⟩
    | rel k => exact ⟨hp.mem_iff.1 ho.1, ih (hp.erase k) ho.2⟩

/-- operations that are ordered on their own can be followed by others -/
theorem Ordered.append {h : List Lock} {a b : List LockOp}
    (ha : ∀ g, Ordered lt W [] g → Ordered lt W h (a ++ g)) (hb : Ordered lt W [] b) :
    Ordered lt W h (a ++ b) := ha b hb

/-- the state of an ordered thread -/
structure LThread.Ok (lt : Lock → Lock → Prop) (W : Lock → Prop) (t : LThread) : Prop where
  ord : Ordered lt W (t.excl ++ t.shared) t.todo
  excl : ∀ k ∈ t.excl, W k

theorem LThread.Ok.next {t t' : LThread} {ts : List LThread} (h : t.Ok lt W) (hn : t.next ts = some t') :
    t'.Ok lt W := by
  obtain ⟨ho, he⟩ := h
  unfold LThread.next at hn
  split at hn
  · cases hn
  · rename_i k r heq
    rw [heq] at ho
    split at hn
    · simp only [Option.some.injEq] at hn
      subst hn
      exact ⟨ho.2.perm List.perm_middle.symm, he⟩
    · cases hn
  · rename_i k r heq
    rw [heq] at ho
    split at hn
    · split at hn
      · simp only [Option.some.injEq] at hn
        subst hn
        refine ⟨ho.2.2, fun a ha => ?_⟩
        rcases List.mem_cons.1 ha with rfl | ha
        · exact ho.1
        · exact he a ha
      · cases hn
    · simp only [Option.some.injEq] at hn
      subst hn
      exact ⟨heq ▸ ho, he⟩
  · rename_i k r heq
    rw [heq] at ho
    simp only [Option.some.injEq] at hn
    subst hn
    have h2 := ho.2
    rw [List.erase_append] at h2
    by_cases hk : k ∈ t.excl
    · rw [if_pos hk] at h2
      rw [if_pos (by simpa using hk)]
      exact ⟨h2, fun a ha => he a (List.mem_of_mem_erase ha)⟩
    · rw [if_neg hk] at h2
      rw [if_neg (by simpa using hk)]
      exact ⟨h2, he⟩

theorem LStep.ok {ts us : List LThread} (h : ∀ t ∈ ts, t.Ok lt W) (hs : LStep ts us) :
    ∀ t ∈ us, t.Ok lt W := by
  cases hs with
  | mk i ht hn =>
    intro u hu
    rcases List.mem_or_eq_of_mem_set hu with hu | rfl
    · exact h u hu
    · exact (h _ (List.mem_of_getElem? ht)).next hn

theorem LSteps.ok {ts us : List LThread} (h : ∀ t ∈ ts, t.Ok lt W) (hs : LSteps ts us) :
    ∀ t ∈ us, t.Ok lt W := by
  induction hs with
  | refl => exact h
  | step _ hs ih => exact hs.ok ih

/-- what a thread holds after a step: what it held, or a lock that it got -/
theorem LThread.next_holds {t t' : LThread} {ts : List LThread} (hn : t.next ts = some t') :
    (∀ k ∈ t'.excl, k ∈ t.excl ∨ ∀ u ∈ ts, k ∉ u.excl ∧ k ∉ u.shared) ∧
    ∀ k ∈ t'.shared, k ∈ t.shared ∨ ∀ u ∈ ts, k ∉ u.excl := by
  unfold LThread.next at hn
  split at hn
  · cases hn
  · split at hn
    · rename_i hall
      simp only [Option.some.injEq] at hn
      subst hn
      refine ⟨fun k hk => .inl hk, fun k hk => ?_⟩
      rcases List.mem_cons.1 hk with rfl | hk
      · right
        intro u hu
        have := List.all_eq_true.1 hall u hu
        simp at this
        exact this.1
      · exact .inl hk
    · cases hn
  · split at hn
    · split at hn
      · rename_i hall
        simp only [Option.some.injEq] at hn
        subst hn
        refine ⟨fun k hk => ?_, fun k hk => .inl hk⟩
        rcases List.mem_cons.1 hk with rfl | hk
        · right
          intro u hu
          have := List.all_eq_true.1 hall u hu
          simpa using this
        · exact .inl hk
      · cases hn
    · simp only [Option.some.injEq] at hn
      subst hn
      exact ⟨fun k hk => .inl hk, fun k hk => .inl hk⟩
  · simp only [Option.some.injEq] at hn
    subst hn
    split
    · exact ⟨fun k hk => .inl (List.mem_of_mem_erase hk), fun k hk => .inl hk⟩
    · exact ⟨fun k hk => .inl hk, fun k hk => .inl (List.mem_of_mem_erase hk)⟩

/-- a lock that a thread holds exclusively is held by no other -/
def Exclusive (ts : List LThread) : Prop :=
  ∀ (i j : Nat) (t u : LThread), ts[i]? = some t → ts[j]? = some u → i ≠ j → ∀ k ∈ t.excl, k ∉ u.excl ∧ k ∉ u.shared

theorem LStep.exclusive {ts us : List LThread} (h : Exclusive ts) (hs : LStep ts us) : Exclusive us := by
  cases hs with
  | mk n ht hn =>
    obtain ⟨he, hsh⟩ := LThread.next_holds hn
    intro i j t u hi hj hij k hk
    rw [List.getElem?_set] at hi hj
    split at hi
    · rename_i hni
      subst hni
      split at hi
      · simp only [Option.some.injEq] at hi
        subst hi
        rw [if_neg hij] at hj
        rcases he k hk with h1 | h1
        · exact h _ _ _ _ ht hj hij k h1
        · exact h1 u (List.mem_of_getElem? hj)
      · cases hi
    · split at hj
      · rename_i hnj
        subst hnj
        split at hj
        · simp only [Option.some.injEq] at hj
          subst hj
          have h0 := h _ _ _ _ hi ht hij k hk
          refine ⟨fun hx => ?_, fun hx => ?_⟩
          · rcases he k hx with h1 | h1
            · exact h0.1 h1
            · exact (h1 t (List.mem_of_getElem? hi)).1 hk
          · rcases hsh k hx with h1 | h1
            · exact h0.2 h1
            · exact h1 t (List.mem_of_getElem? hi) hk
        · cases hj
      · exact h _ _ _ _ hi hj hij k hk

theorem LSteps.exclusive {ts us : List LThread} (h : Exclusive ts) (hs : LSteps ts us) : Exclusive us := by
  induction hs with
  | refl => exact h
  | step _ hs ih => exact hs.exclusive ih

/-- a finite list that is not empty has a maximal element -/
theorem exists_maximal (irr : ∀ a, ¬ lt a a) (tr : ∀ a b c, lt a b → lt b c → lt a c) :
    ∀ l : List Lock, l ≠ [] → ∃ m ∈ l, ∀ x ∈ l, ¬ lt m x
  | [], h => absurd rfl h
  | [a], _ => ⟨a, by simp, by simpa using irr a⟩
  | a :: b :: l, _ => by
    obtain ⟨m, hm, hx⟩ := exists_maximal irr tr (b :: l) (by simp)
    by_cases h : lt m a
    · refine ⟨a, by simp, fun x hxm => ?_⟩
      rcases List.mem_cons.1 hxm with rfl | hxm
      · exact irr _
      · exact fun hax => hx x hxm (tr _ _ _ h hax)
    · refine ⟨m, List.mem_cons_of_mem _ hm, fun x hxm => ?_⟩
      rcases List.mem_cons.1 hxm with rfl | hxm
      · exact h
      · exact hx x hxm

/-- the lock a thread asks for -/
def LThread.want (t : LThread) : Option Lock :=
  match t.todo.head? with
  | some (.rd k) => some k
  | some (.wr k) => some k
  | _ => none

/-- what it means not to be able to go on -/
theorem stuck_want {ts : List LThread} (hok : ∀ t ∈ ts, t.Ok lt W) {t : LThread} (ht : t ∈ ts)
    (hn : t.next ts = none) (hf : ¬ t.finished) :
    ∃ k, t.want = some k ∧ W k ∧ (∀ a ∈ t.excl ++ t.shared, W a → lt a k) ∧
      ∃ u ∈ ts, k ∈ u.excl ++ u.shared ∨ (u.waitsFor k = true ∧ t.todo.head? = some (.rd k)) := by
  have ho := (hok t ht).ord
  unfold LThread.next at hn
  split at hn
  · rename_i heq
    exact absurd heq hf
  · rename_i k r heq
    rw [heq] at ho
    split at hn
    · cases hn
    · rename_i hall
      have hex : ∃ u ∈ ts, k ∈ u.excl ∨ u.waitsFor k = true := by
        refine Classical.byContradiction fun hne => hall (List.all_eq_true.2 fun u hu => ?_)
        have h1 : k ∉ u.excl := fun hk => hne ⟨u, hu, .inl hk⟩
        have h2 : u.waitsFor k = false := by
          cases hw : u.waitsFor k with
          | false => rfl
          | true => exact absurd ⟨u, hu, .inr hw⟩ hne
        simp [h1, h2]
      obtain ⟨u, hu, hk⟩ := hex
      have hw : W k := by
        rcases hk with hk | hk
        · exact (hok u hu).excl k hk
        · simp only [LThread.waitsFor, Bool.and_eq_true, decide_eq_true_eq] at hk
          have hou := (hok u hu).ord
          cases htd : u.todo with
          | nil => rw [htd] at hk; simp at hk
          | cons o r' =>
            rw [htd] at hk hou
            simp only [List.head?_cons, Option.some.injEq] at hk
            rw [hk.2] at hou
            exact hou.1
      refine ⟨k, by simp [LThread.want, heq], hw, ho.1 hw, u, hu, ?_⟩
      rcases hk with hk | hk
      · exact .inl (List.mem_append_left _ hk)
      · exact .inr ⟨hk, by simp [heq]⟩
  · rename_i k r heq
    rw [heq] at ho
    split at hn
    · split at hn
      · cases hn
      · rename_i hall
        refine ⟨k, by simp [LThread.want, heq], ho.1, ho.2.1, ?_⟩
        refine Classical.byContradiction fun hne => hall (List.all_eq_true.2 fun u hu => ?_)
        have h1 : k ∉ u.excl ++ u.shared := fun hk => hne ⟨u, hu, .inl hk⟩
        simp only [List.mem_append, not_or] at h1
        simp [h1.1, h1.2]
    · cases hn
  · cases hn

/-- Ordered threads cannot be in a deadlock. -/
theorem no_deadlock (irr : ∀ a, ¬ lt a a) (tr : ∀ a b c, lt a b → lt b c → lt a c) {ts : List LThread}
    (hok : ∀ t ∈ ts, t.Ok lt W) : ¬ Deadlock ts := by
  rintro ⟨⟨t0, ht0, hf0⟩, hn⟩
  -- whoever has a guard of a written lock waits for a greater lock
  have hold : ∀ u ∈ ts, ∀ k ∈ u.excl ++ u.shared, W k →
      ∃ k', u.want = some k' ∧ lt k k' := by
    intro u hu k hk hw
    have hfu : ¬ u.finished := by
      intro hfu
      have ho := (hok u hu).ord
      rw [show u.todo = [] from hfu] at ho
      simp only [Ordered] at ho
      rw [ho] at hk
      simp at hk
    obtain ⟨k', h1, -, h3, -⟩ := stuck_want hok hu (hn u hu) hfu
    exact ⟨k', h1, h3 k hk hw⟩
  -- every lock that is waited for is held by somebody
  have hwait : ∀ t ∈ ts, ∀ k, t.want = some k → ¬ t.finished → W k ∧ ∃ u ∈ ts, k ∈ u.excl ++ u.shared := by
    intro t ht k hk hf
    obtain ⟨k1, h1, hw, -, u, hu, hh⟩ := stuck_want hok ht (hn t ht) hf
    rw [hk, Option.some.injEq] at h1
    subst h1
    refine ⟨hw, ?_⟩
    rcases hh with hh | ⟨hh, -⟩
    · exact ⟨u, hu, hh⟩
    · simp only [LThread.waitsFor, Bool.and_eq_true, decide_eq_true_eq] at hh
      have hfu : ¬ u.finished := by
        intro hfu
        rw [show u.todo = [] from hfu] at hh
        simp at hh
      obtain ⟨k2, h1, -, -, v, hv, h4⟩ := stuck_want hok hu (hn u hu) hfu
      have : k2 = k := by
        unfold LThread.want at h1
        rw [hh.2] at h1
        simpa using h1.symm
      subst this
      rcases h4 with h4 | ⟨-, h4⟩
      · exact ⟨v, hv, h4⟩
      · rw [hh.2] at h4
        simp at h4
  obtain ⟨k0, hk0, -⟩ := stuck_want hok ht0 (hn t0 ht0) hf0
  obtain ⟨m, hm, hmax⟩ := exists_maximal irr tr (ts.filterMap LThread.want)
    (List.ne_nil_of_mem (List.mem_filterMap.2 ⟨t0, ht0, hk0⟩))
  obtain ⟨t, ht, htm⟩ := List.mem_filterMap.1 hm
  have hft : ¬ t.finished := by
    intro hft
    unfold LThread.want at htm
    rw [show t.todo = [] from hft] at htm
    simp at htm
  obtain ⟨hw, u, hu, hmu⟩ := hwait t ht m htm hft
  obtain ⟨k', h1, h2⟩ := hold u hu m hmu hw
  exact hmax k' (List.mem_filterMap.2 ⟨u, hu, h1⟩) h2

theorem not_deadlock {ts : List LThread} (h : ¬ Deadlock ts) (hu : ∃ t ∈ ts, ¬ t.finished) :
    ∃ us, LStep ts us := by
  refine Classical.byContradiction fun hne => h ⟨hu, fun t ht => ?_⟩
  cases hn : t.next ts with
  | none => rfl
  | some t' =>
    obtain ⟨i, hi⟩ := List.getElem?_of_mem ht
    exact absurd ⟨_, .mk i hi hn⟩ hne

/-! ## Every execution ends -/

def LThread.size (t : LThread) : Nat := 2 * t.todo.length + if t.waiting then 0 else 1

theorem next_size {t t' : LThread} {ts : List LThread} (hn : t.next ts = some t') : t'.size < t.size := by
  unfold LThread.next at hn
  split at hn
  · cases hn
  · rename_i k r heq
    split at hn
    · simp only [Option.some.injEq] at hn
      subst hn
      simp only [LThread.size, heq, List.length_cons]
      omega
    · cases hn
  · rename_i k r heq
    split at hn
    · rename_i hw
      split at hn
      · simp only [Option.some.injEq] at hn
        subst hn
        simp only [LThread.size, heq, List.length_cons, hw, if_true]
        simp
        omega
      · cases hn
    · rename_i hw
      simp only [Option.some.injEq] at hn
      subst hn
      simp [LThread.size, hw]
  · rename_i k r heq
    simp only [Option.some.injEq] at hn
    subst hn
    split <;> simp only [LThread.size, heq, List.length_cons] <;> omega

theorem sum_set_lt {l : List LThread} {i : Nat} {t t' : LThread} (ht : l[i]? = some t)
    (h : t'.size < t.size) : ((l.set i t').map LThread.size).sum < (l.map LThread.size).sum := by
  induction l generalizing i with
  | nil => simp at ht
  | cons a l ih =>
    cases i with
    | zero =>
      simp only [List.getElem?_cons_zero, Option.some.injEq] at ht
      subst ht
      simp
      omega
    | succ i =>
      simp only [List.getElem?_cons_succ] at ht
      have := ih ht
      simp only [List.set_cons_succ, List.map_cons, List.sum_cons]
      omega

theorem lstep_size {ts us : List LThread} (h : LStep ts us) :
    (us.map LThread.size).sum < (ts.map LThread.size).sum := by
  cases h with
  | mk i ht hn => exact sum_set_lt ht (next_size hn)

theorem lstep_wf : WellFounded fun us ts : List LThread => LStep ts us :=
  Subrelation.wf (fun h => lstep_size h) (InvImage.wf (fun ts : List LThread => (ts.map LThread.size).sum)
    Nat.lt_wfRel.wf)

/-! ## The functions of the index are ordered -/

theorem lockLt_irr (a : Lock) : ¬ lockLt a a := by cases a <;> simp [lockLt]

theorem lockLt_tr (a b c : Lock) (h1 : lockLt a b) (h2 : lockLt b c) : lockLt a c := by
  cases a <;> cases b <;> cases c <;> simp_all [lockLt]
  omega

section
variable {h : List Lock} {b : List LockOp}

theorem ordered_rdOnly {k : Lock} (hk : ∀ a ∈ h, W a → lt a k) (hb : Ordered lt W h b) :
    Ordered lt W h (rdOnly k ++ b) :=
  ⟨fun _ => hk, by simp, by simpa using hb⟩

theorem ordered_wrOnly {k : Lock} (hw : W k) (hk : ∀ a ∈ h, W a → lt a k) (hb : Ordered lt W h b) :
    Ordered lt W h (wrOnly k ++ b) :=
  ⟨hw, hk, by simp, by simpa using hb⟩

theorem ordered_flatMap {α : Type} {f : α → List LockOp} {l : List α}
    (hf : ∀ x ∈ l, ∀ b, Ordered lt W h b → Ordered lt W h (f x ++ b)) (hb : Ordered lt W h b) :
    Ordered lt W h (l.flatMap f ++ b) := by
  induction l with
  | nil => exact hb
  | cons x l ih =>
    rw [List.flatMap_cons, List.append_assoc]
    exact hf x (by simp) _ (ih fun y hy => hf y (List.mem_cons_of_mem _ hy))

theorem ordered_layerNbPointOps (found : Bool) (ht : ∀ a ∈ h, W a → lt a .table) (hb : Ordered lt W h b) :
    Ordered lt W h (layerNbPointOps found ++ b) := by
  unfold layerNbPointOps
  rw [List.append_assoc]
  refine ordered_rdOnly ht ?_
  split
  · exact ordered_rdOnly ht hb
  · exact hb

theorem ordered_visits {l : List Nat} (hv : ∀ v ∈ l, ∀ a ∈ h, W a → lt a (.nb v)) (hb : Ordered lt W h b) :
    Ordered lt W h ((l.flatMap fun v => rdOnly (.nb v)) ++ b) :=
  ordered_flatMap (fun v hvl _ => ordered_rdOnly (hv v hvl)) hb

theorem ordered_searchLayerOps {vs : List Nat} (hb : Ordered lt W [] b) :
    Ordered lt W [] (searchLayerOps vs ++ b) := by
  unfold searchLayerOps
  rw [List.append_assoc]
  exact ordered_rdOnly (by simp) (ordered_visits (by simp) hb)

theorem ordered_searchOps {ps : List Nat} {ls : List Bool} {vs : List Nat} (hb : Ordered lt W [] b) :
    Ordered lt W [] (searchOps ps ls vs ++ b) := by
  unfold searchOps entryOps
  simp only [List.append_assoc]
  refine ordered_rdOnly (by simp) (ordered_visits (by simp) (ordered_flatMap ?_ (ordered_searchLayerOps hb)))
  exact fun x _ b hb => ordered_layerNbPointOps x (by simp) hb

theorem ordered_getPointOps {found : Bool} (hb : Ordered lt W [] b) :
    Ordered lt W [] (getPointOps found ++ b) := by
  unfold getPointOps entryOps
  simp only [List.append_assoc]
  refine ordered_rdOnly (by simp) (ordered_layerNbPointOps _ (by simp) ?_)
  split
  · exact ordered_rdOnly (by simp) hb
  · exact hb

theorem ordered_upperOps (hw : ∀ k, W k) {p : Nat} {x : List Nat × Bool} (hb : Ordered lt W [] b) :
    Ordered lt W [] (upperOps p x ++ b) := by
  unfold upperOps
  simp only [List.append_assoc]
  refine ordered_searchLayerOps (ordered_rdOnly (by simp) ?_)
  split
  · exact ordered_wrOnly (hw _) (by simp) hb
  · exact hb

theorem ordered_lowerOps (hw : ∀ k, W k) {p : Nat} {x : List Nat × List Nat} (hb : Ordered lt W [] b) :
    Ordered lt W [] (lowerOps p x ++ b) := by
  unfold lowerOps
  simp only [List.append_assoc]
  exact ordered_searchLayerOps (ordered_visits (by simp) (ordered_wrOnly (hw _) (by simp) hb))

theorem ordered_reverseOps (hw : ∀ k, W k) {p : Nat} {qs : List Nat}
    (hq : ∀ q ∈ qs, lt (.nb p) (.nb q)) (hb : Ordered lt W [] b) :
    Ordered lt W [] (reverseOps p qs ++ b) := by
  unfold reverseOps
  simp only [List.append_assoc]
  refine ⟨by simp, ordered_flatMap (fun q hql _ => ordered_wrOnly (hw _) ?_) ⟨by simp, by simpa using hb⟩⟩
  intro a ha _
  rw [List.mem_singleton.1 ha]
  exact hq q hql

theorem ordered_insertOps (hw : ∀ k, W k) {p : Nat} {x : InsertTrace}
    (hq : ∀ l ∈ x.links, ∀ q ∈ l, lt (.nb p) (.nb q)) (hb : Ordered lt W [] b) :
    Ordered lt W [] (insertOps p x ++ b) := by
  unfold insertOps
  simp only [List.append_assoc]
  refine ordered_wrOnly (hw _) (by simp) (ordered_wrOnly (hw _) (by simp) (ordered_wrOnly (hw _) (by simp)
    (ordered_rdOnly (by simp) (ordered_flatMap (fun _ _ _ => ordered_upperOps hw)
    (ordered_flatMap (fun _ _ _ => ordered_lowerOps hw)
    (ordered_flatMap (fun l hl _ => ordered_reverseOps hw (hq l hl)) (ordered_wrOnly (hw _) (by simp) hb)))))))

theorem ordered_firstInsertOps (hw : ∀ k, W k) (hb : Ordered lt W [] b) :
    Ordered lt W [] (firstInsertOps ++ b) := by
  unfold firstInsertOps
  simp only [List.append_assoc]
  exact ordered_wrOnly (hw _) (by simp) (ordered_wrOnly (hw _) (by simp) (ordered_wrOnly (hw _) (by simp)
    (ordered_rdOnly (by simp) (ordered_wrOnly (hw _) (by simp) hb))))

theorem ordered_layerIterOps {ps : List Nat} (ht : ∀ p, lt .table (.nb p)) (hb : Ordered lt W [] b) :
    Ordered lt W [] (layerIterOps (ps.flatMap neighborhoodOps) ++ b) := by
  unfold layerIterOps
  simp only [List.append_assoc]
  refine ⟨by simp, ordered_visits (fun v _ a ha _ => ?_) ⟨by simp, by simpa using hb⟩⟩
  rw [List.mem_singleton.1 ha]
  exact ht v

theorem ordered_dumpOps {ps : List Nat} (ht : ∀ p, lt .table (.nb p)) (he : lt .table .entry)
    (hb : Ordered lt W [] b) : Ordered lt W [] (dumpOps ps ++ b) := by
  unfold dumpOps entryOps getNbPointOps
  simp only [List.append_assoc]
  refine ordered_rdOnly (by simp) (ordered_rdOnly (by simp) ⟨by simp, ordered_visits (fun v _ a ha _ => ?_)
    (ordered_rdOnly (fun a ha _ => ?_) ⟨by simp, by simpa using hb⟩)⟩)
  · rw [List.mem_singleton.1 ha]
    exact ht v
  · rw [List.mem_singleton.1 ha]
    exact he

/-- without writers, the order does not matter -/
theorem ordered_noWriter {h : List Lock} {a b : List LockOp}
    (ha : Ordered lt (fun _ => False) h a) (hb : Ordered lt (fun _ => False) [] b) :
    Ordered lt (fun _ => False) h (a ++ b) := by
  induction a generalizing h with
  | nil =>
    simp only [Ordered] at ha
    subst ha
    exact hb
  | cons o r ih =>
    cases o with
    | rd k => exact ⟨fun hk => hk.elim, ih ha.2⟩
    | wr k => exact ha.1.elim
    | rel k => exact ⟨ha.1, ih ha.2⟩

theorem ordered_iterNextOps (hW : ∀ k, ¬ W k) {h : List Lock} {b : List LockOp}
    (hb : Ordered lt W h b) : Ordered lt W h (iterNextOps ++ b) := by
  refine ⟨fun hk => absurd hk (hW _), fun hk => absurd hk (hW _), by simp, ?_⟩
  refine ⟨by simp, ?_⟩
  simpa using hb

theorem ordered_iterOps (hW : ∀ k, ¬ W k) {n : Nat} {b : List LockOp} (hb : Ordered lt W [] b) :
    Ordered lt W [] (iterOps n [] ++ b) := by
  unfold iterOps
  simp only [List.append_assoc]
  refine ⟨fun hk => absurd hk (hW _), ordered_flatMap (fun _ _ _ hb => ?_) ⟨by simp, by simpa using hb⟩⟩
  exact ordered_iterNextOps hW hb

theorem ordered_flattenOps (hW : ∀ k, ¬ W k) {ls : List (List Nat)} {b : List LockOp}
    (hb : Ordered lt W [] b) : Ordered lt W [] (flattenOps ls ++ b) := by
  unfold flattenOps
  simp only [List.append_assoc]
  refine ⟨fun hk => absurd hk (hW _), ordered_flatMap (fun ps _ b hb => ?_) ⟨by simp, by simpa using hb⟩⟩
  simp only [List.append_assoc]
  exact ordered_visits (fun v _ a _ hw => absurd hw (hW _)) (ordered_iterNextOps hW hb)

end

end Verif
