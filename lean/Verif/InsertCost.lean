import Verif.Insert
import Verif.Cost
import Verif.CostLemmas
import Verif.Reach

set_option autoImplicit false

/-!
# The work of an insertion

`insert_slice` (/repo/src/hnsw.rs 1055-1193) written once more with a counter of the calls of the distance.
`insertN_forget` shows that it is the program of `Verif/Insert.lean`, action by action, if the counter is left out.
-/

namespace Verif
variable {T : Type}

/-- leave out the counter -/
def Prog.forget {σ α : Type} (t : Prog σ (α × Nat)) : Prog σ α := t.bind fun x => .ret x.1

/-- `any`, with the number of elements looked at -/
def anyN {α : Type} (f : α → Bool) : List α → Bool × Nat
  | [] => (false, 0)
  | a :: l => if f a then (true, 1) else ((anyN f l).1, (anyN f l).2 + 1)

section
variable (P : Policy T) (cfg : Cfg T)

/-- the loop of `search_layer` (/repo/src/hnsw.rs 960-1041); the distances of a scan are those noted by
`scanListW` (1004) -/
def loopN (q : List T) (ef layer : Nat) : Nat → SL P → Nat → Prog (CSt T) (P.H × Nat)
  | 0, _, _ => .fail .fuel
  | n + 1, st, k =>
    match head P ef none st with
    | .done r => .ret (r, k)
    | .panic e => .fail e
    | .expand c st' =>
      .read fun s =>
        match (scanListW P cfg.eval q ef none (s.idx.nb c.pid layer) st').res with
        | .error x => .fail x
        | .ok (.stop r) =>
          .ret (r, k + (dists (scanListW P cfg.eval q ef none (s.idx.nb c.pid layer) st').log).length)
        | .ok (.go st'') =>
          loopN q ef layer n st''
            (k + (dists (scanListW P cfg.eval q ef none (s.idx.nb c.pid layer) st').log).length)

/-- `search_layer` (/repo/src/hnsw.rs 911-1042); one distance to the entry point (943) -/
def searchLayerN (fuel : Nat) (q : List T) (ep : Ref T) (ef layer : Nat) (k : Nat) : Prog (CSt T) (P.H × Nat) :=
  .read fun s =>
    match s.idx.layers[layer]? with
    | none => .fail .index
    | some [] => .ret (P.empty, k)
    | some (_ :: _) => loopN P cfg q ef layer fuel (slInit P cfg.eval q ep) (k + 1)

/-- the selection loop (/repo/src/hnsw.rs 1339-1370); the distances are those of the `any` of lines 1347-1350 -/
def selLoopN (asked : Nat) (keepPruned : Bool) : Nat → P.H → List (PWO T) → P.H → Nat →
    Except Panic ((List (PWO T) × P.H) × Nat)
  | 0, _, acc, disc, k => .ok ((acc, disc), k)
  | n + 1, h, acc, disc, k =>
    if asked ≤ acc.length then .ok ((acc, disc), k)
    else
      match P.pop h with
      | none => .ok ((acc, disc), k)
      | some (e, h') =>
        if e.dist.le F32.zero = false then .error .assertion
        else
          let r := anyN (fun d : PWO T => (cfg.eval e.pt.data d.pt.data).le e.dist.neg) acc
          if r.1 = false then selLoopN asked keepPruned n h' (acc ++ [⟨e.pt, e.dist.neg⟩]) disc (k + r.2)
          else if keepPruned then
            match P.pushC disc ⟨e.pt, e.dist⟩ with
            | .error x => .error x
            | .ok disc' => selLoopN asked keepPruned n h' acc disc' (k + r.2)
          else selLoopN asked keepPruned n h' acc disc (k + r.2)

/-- second part of `select_neighbours` (/repo/src/hnsw.rs 1339-1396) -/
def selectFromN (asked : Nat) (keepPruned : Bool) (cands : P.H) (k : Nat) : Except Panic (List (PWO T) × Nat) :=
  match selLoopN P cfg asked keepPruned (P.len cands) cands [] P.empty k with
  | .error e => .error e
  | .ok ((acc, disc), k') =>
    if keepPruned then
      match refill P asked (P.len disc) disc acc with
      | .error e => .error e
      | .ok v => .ok (v, k')
    else .ok (acc, k')

/-- `select_neighbours` (/repo/src/hnsw.rs 1274-1396); one distance for each point added to the candidates
(1334) -/
def selectN (p : Ref T) (cands : P.H) (asked : Nat) (extendAsked : Bool) (layer : Nat)
    (keepPruned : Bool) (k : Nat) : Prog (CSt T) (List (PWO T) × Nat) :=
  if P.len cands ≤ asked ∧ extendAsked = false then
    .ofExcept (transferAll P (P.len cands) cands []) fun v => .ret (v, k)
  else if P.len cands ≤ asked then
    let cset := (P.items cands).map (·.pt)
    (extendP layer cset (P.hashOrder p.pid layer 0 cset) []).bind fun news =>
      .ofExcept (P.pushAll cands ((P.hashOrder p.pid layer 1 news).map fun r =>
          ⟨r, (cfg.eval p.data r.data).neg⟩)) fun cands' =>
        .ofExcept (selectFromN P cfg asked keepPruned cands' (k + (P.hashOrder p.pid layer 1 news).length)) .ret
  else .ofExcept (selectFromN P cfg asked keepPruned cands k) .ret

/-- descent through the layers above the new point (/repo/src/hnsw.rs 1088-1133); one distance to the point
that was found (1124) -/
def upperN (fuel : Nat) (p : Ref T) : List Nat → Ref T → F32 → Nat → Prog (CSt T) (Ref T × Nat)
  | [], ep, _, k => .ret (ep, k)
  | l :: ls, ep, d, k =>
    (searchLayerN P cfg fuel p.data ep 1 l k).bind fun hk =>
      if 1 < P.len hk.1 then .fail .tooMany
      else
        match P.pop hk.1 with
        | none => upperN fuel p ls ep d hk.2
        | some (e, _) =>
          let next : Prog (CSt T) (Ref T × Nat) :=
            if (cfg.eval p.data e.pt.data).lt d = true then
              upperN fuel p ls e.pt (cfg.eval p.data e.pt.data) (hk.2 + 1)
            else upperN fuel p ls ep d (hk.2 + 1)
          .read fun s =>
            if (s.idx.nb p.pid l).length < cfg.maxNbU8 then
              .act (fun s => decide (p.pid ∉ s.held))
                (fun s => { s with idx := s.idx.setNb p.pid l (s.idx.nb p.pid l ++ [e]) })
                (fun _ => next)
            else next

/-- linking of the new point in its own layers (/repo/src/hnsw.rs 1134-1183) -/
def lowerN (fuel : Nat) (p : Ref T) : List Nat → Ref T → Nat → Prog (CSt T) (Unit × Nat)
  | [], _, k => .ret ((), k)
  | l :: ls, ep, k =>
    (searchLayerN P cfg fuel p.data ep cfg.efC l k).bind fun hk =>
      .ofExcept (fromPositive P (P.items hk.1) P.empty) fun nh =>
        if P.items nh = [] then lowerN fuel p ls ep hk.2
        else
          (selectN P cfg p nh (if l = 0 then 2 * cfg.maxNb else cfg.maxNb)
              (if l = 0 then cfg.extend else false) l cfg.keepPruned hk.2).bind fun vk =>
            .ofExcept (P.sortC vk.1) fun nbrs =>
              .act (fun s => decide (p.pid ∉ s.held))
                (fun s => { s with idx := s.idx.setNb p.pid l nbrs })
                (fun _ => match nbrs with
                  | [] => lowerN fuel p ls ep vk.2
                  | n :: _ => lowerN fuel p ls n.pt vk.2)

/-- `insert_slice` after the creation of the point (/repo/src/hnsw.rs 1066-1192); one distance to the entry
point (1088-1090) -/
def linkN (fuel : Nat) (p : Ref T) (rank : Nat) : Prog (CSt T) (Unit × Nat) :=
  .read fun s =>
    match s.idx.entry with
    | none => (checkEntryP p).bind fun _ => .ret ((), 0)
    | some ep =>
      if rank = 1 then .ret ((), 0)
      else
        (upperN P cfg fuel p (layersDown ep.pid.layer (p.pid.layer + 1)) ep
            (cfg.eval p.data ep.data) 1).bind fun x =>
          (lowerN P cfg fuel p (layersDown p.pid.layer 0) x.1 x.2).bind fun y =>
            (reverseP P cfg p (checkEntryP p) (layersDown p.pid.layer 0)).bind fun _ => .ret ((), y.2)

/-- the counter of points and the rest (/repo/src/hnsw.rs 515-523) -/
def countN (fuel : Nat) (p : Ref T) : Prog (CSt T) (Unit × Nat) :=
  .act (fun _ => true) (fun s => { s with idx := { s.idx with nbPoint := s.idx.nbPoint + 1 } })
    (fun s => linkN P cfg fuel p (s.idx.nbPoint + 1))

/-- `insert_slice` (/repo/src/hnsw.rs 1055-1193) -/
def insertN (fuel : Nat) (item : List T × DataId) (level : Nat) : Prog (CSt T) (Unit × Nat) :=
  .act (fun _ => true) (fun s => { s with idx := addPoint item level s.idx })
    (fun s => if level < s.idx.layers.length then countN P cfg fuel (newRef item level s.idx)
      else .fail .index)

end

/-! ## The counter does not change anything -/

section
variable {P : Policy T} {cfg : Cfg T} {σ α β γ : Type}

theorem Prog.bind_bind (t : Prog σ α) (f : α → Prog σ β) (g : β → Prog σ γ) :
    (t.bind f).bind g = t.bind fun a => (f a).bind g := by
  induction t with
  | ret a => rfl
  | fail e => rfl
  | act g' u k ih => simp only [Prog.bind]; exact congrArg _ (funext fun s => ih s)

theorem Prog.bind_ret (t : Prog σ α) : t.bind .ret = t := by
  induction t with
  | ret a => rfl
  | fail e => rfl
  | act g' u k ih => simp only [Prog.bind]; exact congrArg _ (funext fun s => ih s)

theorem Prog.forget_bind (t : Prog σ α) (f : α → Prog σ (β × Nat)) :
    (t.bind f).forget = t.bind fun a => (f a).forget := Prog.bind_bind _ _ _

/-- a program that uses the counter of the first one only for its own counter -/
theorem Prog.forget_bind2 (t : Prog σ (α × Nat)) (f : α × Nat → Prog σ (β × Nat)) (g : α → Prog σ β)
    (h : ∀ x, (f x).forget = g x.1) : (t.bind f).forget = t.forget.bind g := by
  rw [Prog.forget_bind, Prog.forget, Prog.bind_bind]
  exact congrArg _ (funext fun x => h x)

theorem Prog.forget_ofExcept (x : Except Panic α) (f : α → Prog σ (β × Nat)) :
    (Prog.ofExcept x f).forget = Prog.ofExcept x fun a => (f a).forget := by
  cases x <;> rfl

theorem Prog.forget_act {g : σ → Bool} {u : σ → σ} {k : σ → Prog σ (α × Nat)} {k' : σ → Prog σ α}
    (h : ∀ s, (k s).forget = k' s) : (Prog.act g u k).forget = .act g u k' :=
  congrArg (Prog.act g u) (funext h)

theorem Prog.forget_read {k : σ → Prog σ (α × Nat)} {k' : σ → Prog σ α}
    (h : ∀ s, (k s).forget = k' s) : (Prog.read k).forget = .read k' :=
  Prog.forget_act h

theorem anyN_fst (f : α → Bool) (l : List α) : (anyN f l).1 = l.any f := by
  induction l with
  | nil => rfl
  | cons a l ih =>
    unfold anyN
    by_cases h : f a = true
    · simp [h]
    · simp only [h, Bool.false_eq_true, if_false, ih]
      simp [h]

theorem anyN_snd (f : α → Bool) (l : List α) : (anyN f l).2 ≤ l.length := by
  induction l with
  | nil => exact Nat.le_refl _
  | cons a l ih =>
    unfold anyN
    split
    · simp
    · simpa using ih

theorem loopN_forget (q : List T) (ef l : Nat) : ∀ (n : Nat) (st : SL P) (k : Nat),
    (loopN P cfg q ef l n st k).forget = loopP P cfg q ef l n st := by
  intro n
  induction n with
  | zero => intro st k; rfl
  | succ n ih =>
    intro st k
    simp only [loopN, loopP]
    cases head P ef none st with
    | done r => rfl
    | panic e => rfl
    | expand c st' =>
      refine congrArg (Prog.act _ _) (funext fun s => ?_)
      simp only [scanListW_res]
      cases scanList P cfg.eval q ef none (s.idx.nb c.pid l) st' with
      | error x => rfl
      | ok o =>
        cases o with
        | stop r => rfl
        | go st'' => exact ih _ _

theorem searchLayerN_forget (fuel : Nat) (q : List T) (ep : Ref T) (ef l k : Nat) :
    (searchLayerN P cfg fuel q ep ef l k).forget = searchLayerP P cfg fuel q ep ef l := by
  unfold searchLayerN searchLayerP
  refine congrArg (Prog.act _ _) (funext fun s => ?_)
  split
  · rename_i h; simp only [h]; rfl
  · rename_i h; simp only [h]; rfl
  · rename_i h; simp only [h]; exact loopN_forget _ _ _ _ _ _

theorem selLoopN_fst (asked : Nat) (kp : Bool) : ∀ (n : Nat) (h : P.H) (acc : List (PWO T)) (disc : P.H) (k : Nat),
    (selLoopN P cfg asked kp n h acc disc k).map (·.1) = selLoop P cfg asked kp n h acc disc := by
  intro n
  induction n with
  | zero => intros; rfl
  | succ n ih =>
    intro h acc disc k
    simp only [selLoopN, selLoop]
    split
    · rfl
    split
    · rename_i hp; simp only [hp]; rfl
    · rename_i e h' hp
      simp only [hp, anyN_fst]
      split
      · rfl
      split
      · exact ih _ _ _ _
      split
      · cases P.pushC disc ⟨e.pt, e.dist⟩ with
        | error x => rfl
        | ok d => exact ih _ _ _ _
      · exact ih _ _ _ _

theorem selectFromN_fst (asked : Nat) (kp : Bool) (cands : P.H) (k : Nat) :
    (selectFromN P cfg asked kp cands k).map (·.1) = selectFrom P cfg asked kp cands := by
  unfold selectFromN selectFrom
  rw [← selLoopN_fst (k := k)]
  cases selLoopN P cfg asked kp (P.len cands) cands [] P.empty k with
  | error e => rfl
  | ok x =>
    obtain ⟨⟨acc, disc⟩, k'⟩ := x
    cases kp with
    | false => rfl
    | true =>
      simp only [Except.map, if_true]
      cases refill P asked (P.len disc) disc acc <;> rfl

theorem selectN_forget (p : Ref T) (cands : P.H) (asked : Nat) (ext : Bool) (l : Nat) (kp : Bool) (k : Nat) :
    (selectN P cfg p cands asked ext l kp k).forget = selectP P cfg p cands asked ext l kp := by
  have key : ∀ (c : P.H) (k : Nat), (Prog.ofExcept (σ := CSt T) (selectFromN P cfg asked kp c k) .ret).forget =
      Prog.ofExcept (selectFrom P cfg asked kp c) .ret := by
    intro c k
    rw [← selectFromN_fst (k := k)]
    cases selectFromN P cfg asked kp c k <;> rfl
  unfold selectN selectP
  split
  · rw [Prog.forget_ofExcept]; rfl
  split
  · rw [Prog.forget_bind]
    refine congrArg _ (funext fun news => ?_)
    rw [Prog.forget_ofExcept]
    exact congrArg _ (funext fun c => key _ _)
  · exact key _ _

theorem upperN_forget (fuel : Nat) (p : Ref T) : ∀ (ls : List Nat) (ep : Ref T) (d : F32) (k : Nat),
    (upperN P cfg fuel p ls ep d k).forget = upperP P cfg fuel p ls ep d := by
  intro ls
  induction ls with
  | nil => intros; rfl
  | cons l ls ih =>
    intro ep d k
    simp only [upperN, upperP]
    rw [← searchLayerN_forget (k := k)]
    refine Prog.forget_bind2 _ _ _ fun x => ?_
    split
    · rfl
    split
    · rename_i hp; simp only [hp]; exact ih _ _ _
    · rename_i e h' hp
      simp only [hp]
      refine Prog.forget_read fun s => ?_
      have hnext : ∀ k, (if (cfg.eval p.data e.pt.data).lt d = true then
              upperN P cfg fuel p ls e.pt (cfg.eval p.data e.pt.data) k
            else upperN P cfg fuel p ls ep d k).forget = if (cfg.eval p.data e.pt.data).lt d = true then
              upperP P cfg fuel p ls e.pt (cfg.eval p.data e.pt.data)
            else upperP P cfg fuel p ls ep d := by
        intro k
        split <;> exact ih _ _ _
      by_cases hlen : (s.idx.nb p.pid l).length < cfg.maxNbU8
      · rw [if_pos hlen, if_pos hlen]
        exact Prog.forget_act fun s => hnext _
      · rw [if_neg hlen, if_neg hlen]
        exact hnext _

theorem lowerN_forget (fuel : Nat) (p : Ref T) : ∀ (ls : List Nat) (ep : Ref T) (k : Nat),
    (lowerN P cfg fuel p ls ep k).forget = lowerP P cfg fuel p ls ep := by
  intro ls
  induction ls with
  | nil => intros; rfl
  | cons l ls ih =>
    intro ep k
    simp only [lowerN, lowerP]
    rw [← searchLayerN_forget (k := k)]
    refine Prog.forget_bind2 _ _ _ fun x => ?_
    rw [Prog.forget_ofExcept]
    refine congrArg _ (funext fun nh => ?_)
    split
    · exact ih _ _
    · rw [← selectN_forget (k := x.2)]
      refine Prog.forget_bind2 _ _ _ fun y => ?_
      rw [Prog.forget_ofExcept]
      refine congrArg _ (funext fun nbrs => ?_)
      refine Prog.forget_act fun s => ?_
      split <;> exact ih _ _

/-- the insertion with the counter is the insertion -/
theorem insertN_forget (fuel : Nat) (item : List T × DataId) (level : Nat) :
    (insertN P cfg fuel item level).forget = insertP P cfg fuel item level := by
  unfold insertN insertP
  refine Prog.forget_act fun s => ?_
  split
  · refine Prog.forget_act fun s' => ?_
    refine Prog.forget_read fun s'' => ?_
    have hu : ∀ (t : Prog (CSt T) Unit) (k : Nat), (t.bind fun _ => Prog.ret ((), k)).forget = t := by
      intro t k
      rw [Prog.forget_bind]
      exact Prog.bind_ret t
    cases s''.idx.entry with
    | none => exact hu _ _
    | some ep =>
      simp only []
      split
      · rfl
      · rw [← upperN_forget (k := 1)]
        refine Prog.forget_bind2 _ _ _ fun x => ?_
        rw [← lowerN_forget (k := x.2)]
        exact Prog.forget_bind2 _ _ _ fun y => hu _ _
  · rfl

end

end Verif
