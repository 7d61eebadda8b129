import Verif.ExecLemmas
import Verif.SelectSpec

set_option autoImplicit false

/-!
# The entry point left by one insertion
-/

namespace Verif
variable {T : Type} {P : Policy T} {cfg : Cfg T}

/-- every run of `m` that returns changes the entry point by `f` -/
def RunE {α : Type} (f : Option (Ref T) → Option (Ref T)) (m : Prog (CSt T) α) : Prop :=
  ∀ c a c', m.run c = .ok a c' → c'.idx.entry = f c.idx.entry

theorem RunE.ret {α : Type} (a : α) : RunE id (.ret a : Prog (CSt T) α) := by
  intro c b c' h
  simp only [Prog.run] at h
  injection h with _ h
  rw [← h]; rfl

theorem RunE.fail {α : Type} (f : Option (Ref T) → Option (Ref T)) (e : Panic) :
    RunE f (.fail e : Prog (CSt T) α) := by
  intro c b c' h
  cases h

theorem RunE.act {α : Type} {f : Option (Ref T) → Option (Ref T)} {g : CSt T → Bool}
    {u : CSt T → CSt T} {k : CSt T → Prog (CSt T) α} (hu : ∀ s, (u s).idx.entry = s.idx.entry)
    (hk : ∀ s, RunE f (k s)) : RunE f (.act g u k) := by
  intro c b c' h
  simp only [Prog.run] at h
  split at h
  · rw [hk c _ _ _ h, hu]
  · cases h

theorem RunE.read {α : Type} {f : Option (Ref T) → Option (Ref T)}
    {k : CSt T → Prog (CSt T) α} (hk : ∀ s, RunE f (k s)) : RunE f (.read k) :=
  RunE.act (fun _ => rfl) hk

theorem RunE.ofExcept {α β : Type} {f : Option (Ref T) → Option (Ref T)} {x : Except Panic β}
    {k : β → Prog (CSt T) α} (hk : ∀ b, RunE f (k b)) : RunE f (.ofExcept x k) := by
  cases x with
  | error e => exact RunE.fail _ e
  | ok b => exact hk b

theorem RunE.bind {α β : Type} {f : Option (Ref T) → Option (Ref T)} {m : Prog (CSt T) α}
    {k : α → Prog (CSt T) β} (hm : RunE id m) (hk : ∀ a, RunE f (k a)) : RunE f (m.bind k) := by
  induction m with
  | ret a => exact hk a
  | fail e => exact RunE.fail _ e
  | act g u n ih =>
    intro c b c' h
    simp only [Prog.bind, Prog.run] at h
    split at h
    · rename_i hg
      rw [run_bind] at h
      cases ho : (n c).run (u c) with
      | ok a s =>
        rw [ho] at h
        have := hm c a s (by simp only [Prog.run, if_pos hg, ho])
        rw [hk a _ _ _ h, this]; rfl
      | panic e s => rw [ho] at h; cases h
      | blocked s => rw [ho] at h; cases h
    · cases h

theorem runE_loopP (q : List T) (ef l : Nat) : ∀ (n : Nat) (st : SL P),
    RunE id (loopP P cfg q ef l n st) := by
  intro n
  induction n with
  | zero => intro st; exact RunE.fail _ _
  | succ n ih =>
    intro st
    simp only [loopP]
    cases head P ef none st with
    | done r => exact RunE.ret r
    | panic e => exact RunE.fail _ e
    | expand c st' =>
      refine RunE.read fun s => ?_
      split
      · exact RunE.fail _ _
      · exact RunE.ret _
      · exact ih _

theorem runE_searchLayerP (fuel : Nat) (q : List T) (ep : Ref T) (ef l : Nat) :
    RunE id (searchLayerP P cfg fuel q ep ef l) := by
  refine RunE.read fun s => ?_
  split
  · exact RunE.fail _ _
  · exact RunE.ret _
  · exact runE_loopP _ _ _ _ _

theorem runE_extendP (l : Nat) (cands : List (Ref T)) : ∀ (todo acc : List (Ref T)),
    RunE id (extendP l cands todo acc) := by
  intro todo
  induction todo with
  | nil => intro acc; exact RunE.ret _
  | cons t ts ih => intro acc; exact RunE.read fun s => ih _

theorem runE_selectP (p : Ref T) (cands : P.H) (asked : Nat) (ext : Bool) (l : Nat) (kp : Bool) :
    RunE id (selectP P cfg p cands asked ext l kp) := by
  unfold selectP
  split
  · exact RunE.ofExcept fun _ => RunE.ret _
  · split
    · refine RunE.bind (runE_extendP _ _ _ _) fun a => ?_
      exact RunE.ofExcept fun _ => RunE.ofExcept fun _ => RunE.ret _
    · exact RunE.ofExcept fun _ => RunE.ret _

theorem runE_upperP (fuel : Nat) (p : Ref T) : ∀ (ls : List Nat) (ep : Ref T) (d : F32),
    RunE id (upperP P cfg fuel p ls ep d) := by
  intro ls
  induction ls with
  | nil => intro ep d; exact RunE.ret _
  | cons l ls ih =>
    intro ep d
    simp only [upperP]
    refine RunE.bind (runE_searchLayerP _ _ _ _ _) fun h => ?_
    split
    · exact RunE.fail _ _
    · split
      · exact ih _ _
      · refine RunE.read fun s => ?_
        split
        · refine RunE.act (fun s => rfl) fun s => ?_
          split
          · exact ih _ _
          · exact ih _ _
        · split
          · exact ih _ _
          · exact ih _ _

theorem runE_lowerP (fuel : Nat) (p : Ref T) : ∀ (ls : List Nat) (ep : Ref T),
    RunE id (lowerP P cfg fuel p ls ep) := by
  intro ls
  induction ls with
  | nil => intro ep; exact RunE.ret _
  | cons l ls ih =>
    intro ep
    simp only [lowerP]
    refine RunE.bind (runE_searchLayerP _ _ _ _ _) fun h => ?_
    refine RunE.ofExcept fun nh => ?_
    split
    · exact ih _
    · refine RunE.bind (runE_selectP _ _ _ _ _ _) fun v => ?_
      refine RunE.ofExcept fun nbrs => RunE.act (fun s => rfl) fun s => ?_
      cases nbrs with
      | nil => exact ih _
      | cons n ns => exact ih _

theorem runE_revInner (p : Ref T) {f : Option (Ref T) → Option (Ref T)} {k : Prog (CSt T) Unit}
    (hk : RunE f k) : ∀ qs : List (PWO T), RunE f (revInner P cfg p k qs) := by
  intro qs
  induction qs with
  | nil => exact RunE.act (fun _ => rfl) fun _ => hk
  | cons q qs ih =>
    simp only [revInner]
    split
    · exact ih
    · refine RunE.act (fun _ => rfl) fun s => ?_
      split
      · exact RunE.act (fun _ => rfl) fun _ => RunE.fail _ _
      · exact ih

theorem runE_reverseP (p : Ref T) {f : Option (Ref T) → Option (Ref T)} {k : Prog (CSt T) Unit}
    (hk : RunE f k) : ∀ ls : List Nat, RunE f (reverseP P cfg p k ls) := by
  intro ls
  induction ls with
  | nil => exact hk
  | cons l ls ih => exact RunE.act (fun _ => rfl) fun s => runE_revInner p ih _

/-- the entry point an insertion of `p` leaves -/
def entryAfter (p : Ref T) : Option (Ref T) → Option (Ref T)
  | none => some p
  | some e => if e.pid.layer < p.pid.layer then some p else some e

theorem runE_checkEntryP (p : Ref T) : RunE (entryAfter p) (checkEntryP p) := by
  intro c a c' h
  simp only [checkEntryP, Prog.run, if_true] at h
  injection h with _ h
  rw [← h]
  simp only [checkEntry]
  cases c.idx.entry <;> rfl

theorem insert_entry {c0 c : CSt T} (h : GoodC cfg c0) {item : List T × DataId} {level : Nat}
    (hl : level < cfg.maxLayer) (hins : insert P cfg c0 item level = .ok () c) :
    c.idx.entry = entryAfter (newRef item level c0.idx) c0.idx.entry := by
  have h0 := h.inv.ok
  have hlen : level < c0.idx.layers.length := by rw [h0.tab.len]; exact hl
  unfold insert at hins
  simp only [insertP, Prog.run, if_true, if_pos hlen, countP] at hins
  simp only [linkP, Prog.read, Prog.run, if_true, id] at hins
  cases hent : c0.idx.entry with
  | none =>
    rw [show (addPoint item level c0.idx).entry = none from hent] at hins
    have := runE_checkEntryP _ _ _ _ hins
    rw [this]
  | some ep =>
    rw [show (addPoint item level c0.idx).entry = some ep from hent] at hins
    simp only at hins
    have hepS := h0.entry ep hent
    have hpos : 0 < c0.idx.points.length := List.length_pos_iff.2 (List.ne_nil_of_mem hepS)
    rw [show (addPoint item level c0.idx).nbPoint = c0.idx.points.length from h.count,
      if_neg (by omega)] at hins
    have := RunE.bind (runE_upperP _ _ _ _ _) (fun a => RunE.bind (runE_lowerP _ _ _ _) fun _ =>
      runE_reverseP _ (runE_checkEntryP _) _) _ _ _ hins
    rw [this]

end Verif
