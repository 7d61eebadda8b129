import Verif.Insert

set_option autoImplicit false

/-!
# Which actions of an insertion need only a read lock

`parking_lot` does not grant a read lock while another thread waits for the write lock (its policy is
"task-fair").  An action that takes a read lock may therefore be delayed even though nobody holds the
write lock.  `Delayable` describes these actions; `Disc` says that a thread performs none of them while it
holds the read guard of its own point (/repo/src/hnsw.rs 1224-1261).
-/

namespace Verif
variable {T : Type} {α β : Type}

/-- An action that takes at most read locks: it is not guarded by the guards that others hold, leaves the
index as it is and gives no guard back. -/
def Delayable (g : CSt T → Bool) (u : CSt T → CSt T) : Prop :=
  (∀ s, g s = true) ∧ ∀ s, (u s).idx = s.idx ∧ s.held <:+ (u s).held

/-- `b` tells if the thread holds the read guard of `p`. -/
def Disc (p : PointId) : Prog (CSt T) α → Bool → Prop
  | .ret _, b => b = false
  | .fail _, b => b = false
  | .act g u k, b => (b = true → ¬ Delayable g u) ∧
      ∃ b', (∀ s : CSt T, s.held.count p = b.toNat → (u s).held.count p = b'.toNat) ∧
        ∀ s, Disc p (k s) b'

variable {p : PointId}

theorem Disc.bind {t : Prog (CSt T) α} {f : α → Prog (CSt T) β} {b : Bool}
    (ht : Disc p t b) (hf : ∀ a, Disc p (f a) false) : Disc p (t.bind f) b := by
  induction t generalizing b with
  | ret a => cases ht; exact hf a
  | fail e => exact ht
  | act g u k ih =>
    obtain ⟨h1, b', h2, h3⟩ := ht
    exact ⟨h1, b', h2, fun s => ih s (h3 s)⟩

theorem Disc.read {k : CSt T → Prog (CSt T) α} (h : ∀ s, Disc p (k s) false) :
    Disc p (.read k) false :=
  ⟨(fun h => absurd h (by decide)), false, fun _ h => h, h⟩

/-- an action that does not touch the guards -/
theorem Disc.keep {g : CSt T → Bool} {u : CSt T → CSt T} {k : CSt T → Prog (CSt T) α}
    (hu : ∀ s, (u s).held = s.held) (h : ∀ s, Disc p (k s) false) : Disc p (.act g u k) false :=
  ⟨(fun h => absurd h (by decide)), false, fun s hs => by rw [hu]; exact hs, h⟩

theorem Disc.ofExcept {x : Except Panic β} {f : β → Prog (CSt T) α} (h : ∀ b, Disc p (f b) false) :
    Disc p (.ofExcept x f) false := by
  cases x with
  | error e => exact rfl
  | ok b => exact h b

variable {P : Policy T} {cfg : Cfg T}

theorem loopP_disc (q : List T) (ef layer n : Nat) (st : SL P) :
    Disc p (loopP P cfg q ef layer n st) false := by
  induction n generalizing st with
  | zero => exact rfl
  | succ n ih =>
    unfold loopP
    split
    · exact rfl
    · exact rfl
    · refine .read fun s => ?_
      split
      · exact rfl
      · exact rfl
      · exact ih _

theorem searchLayerP_disc (fuel : Nat) (q : List T) (ep : Ref T) (ef layer : Nat) :
    Disc p (searchLayerP P cfg fuel q ep ef layer) false := by
  unfold searchLayerP
  refine .read fun s => ?_
  split
  · exact rfl
  · exact rfl
  · exact loopP_disc _ _ _ _ _

theorem extendP_disc (layer : Nat) (cands todo acc : List (Ref T)) :
    Disc p (extendP layer cands todo acc) false := by
  induction todo generalizing acc with
  | nil => exact rfl
  | cons x xs ih =>
    unfold extendP
    exact .read fun s => ih _

theorem selectP_disc (r : Ref T) (cands : P.H) (asked : Nat) (ext : Bool) (layer : Nat) (kp : Bool) :
    Disc p (selectP P cfg r cands asked ext layer kp) false := by
  unfold selectP
  split
  · exact .ofExcept fun _ => rfl
  · split
    · exact (extendP_disc _ _ _ _).bind fun _ => .ofExcept fun _ => .ofExcept fun _ => rfl
    · exact .ofExcept fun _ => rfl

theorem upperP_disc (fuel : Nat) (r : Ref T) (ls : List Nat) (ep : Ref T) (d : F32) :
    Disc p (upperP P cfg fuel r ls ep d) false := by
  induction ls generalizing ep d with
  | nil => exact rfl
  | cons l ls ih =>
    unfold upperP
    refine (searchLayerP_disc _ _ _ _ _).bind fun h => ?_
    split
    · exact rfl
    · split
      · exact ih _ _
      · have hn : ∀ e : PWO T, Disc p (if (cfg.eval r.data e.pt.data).lt d = true then
              upperP P cfg fuel r ls e.pt (cfg.eval r.data e.pt.data)
            else upperP P cfg fuel r ls ep d) false := by
          intro e
          split
          · exact ih _ _
          · exact ih _ _
        refine .read fun s => ?_
        split
        · exact .keep (fun _ => rfl) fun _ => hn _
        · exact hn _

theorem lowerP_disc (fuel : Nat) (r : Ref T) (ls : List Nat) (ep : Ref T) :
    Disc p (lowerP P cfg fuel r ls ep) false := by
  induction ls generalizing ep with
  | nil => exact rfl
  | cons l ls ih =>
    unfold lowerP
    refine (searchLayerP_disc _ _ _ _ _).bind fun h => .ofExcept fun nh => ?_
    split
    · exact ih _
    · refine (selectP_disc _ _ _ _ _ _).bind fun v => .ofExcept fun nbrs => ?_
      refine .keep (fun _ => rfl) fun _ => ?_
      split
      · exact ih _
      · exact ih _

theorem release_disc {r : PointId} {k : CSt T → Prog (CSt T) α} (s0 : CSt T)
    (h : ∀ s, Disc r (k s) false) : Disc r (.act (fun _ => true) (release r) k) true := by
  refine ⟨fun _ hd => ?_, false, fun s hs => ?_, h⟩
  · have := (hd.2 { s0 with held := [r] }).2
    simp [release] at this
  · simp only [Bool.toNat_true, Bool.toNat_false] at hs ⊢
    simp only [release, List.count_erase_self, hs]

theorem revInner_disc (s0 : CSt T) (r : Ref T) {k : Prog (CSt T) Unit} (hk : Disc r.pid k false)
    (qs : List (PWO T)) : Disc r.pid (revInner P cfg r k qs) true := by
  induction qs with
  | nil =>
    unfold revInner
    exact release_disc s0 fun _ => hk
  | cons q qs ih =>
    unfold revInner
    split
    · exact ih
    · refine ⟨fun _ hd => ?_, true, fun s hs => hs, fun s => ?_⟩
      · have := hd.1 { s0 with held := [q.pt.pid] }
        simp at this
      · show Disc r.pid (match (revList P cfg r q (s.idx.nb q.pt.pid r.pid.layer)).2 with
          | some e => .act (fun _ => true) (release r.pid) (fun _ => .fail e)
          | none => revInner P cfg r k qs) true
        split
        · exact release_disc s0 fun _ => rfl
        · exact ih

theorem reverseP_disc (r : Ref T) {k : Prog (CSt T) Unit} (hk : Disc r.pid k false)
    (ls : List Nat) : Disc r.pid (reverseP P cfg r k ls) false := by
  induction ls with
  | nil => exact hk
  | cons l ls ih =>
    unfold reverseP
    refine ⟨(fun h => absurd h (by decide)), true, fun s hs => ?_, fun s => revInner_disc s r ih _⟩
    simp only [Bool.toNat_true, Bool.toNat_false] at hs ⊢
    simp [hs]

theorem linkP_disc (fuel : Nat) (r : Ref T) (rank : Nat) :
    Disc r.pid (linkP P cfg fuel r rank) false := by
  unfold linkP
  refine .read fun s => ?_
  have he : Disc r.pid (checkEntryP r) false := .keep (fun _ => rfl) fun _ => rfl
  split
  · exact he
  · split
    · exact rfl
    · exact (upperP_disc _ _ _ _ _).bind fun _ => (lowerP_disc _ _ _ _).bind fun _ =>
        reverseP_disc r he _

end Verif
