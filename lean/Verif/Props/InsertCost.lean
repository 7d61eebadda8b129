import Verif.InsertCost
import Verif.SearchConc
import Verif.Props.Concurrent

set_option autoImplicit false

/-!
# C123: the number of distances computed by an insertion
-/

namespace Verif
variable {T : Type} {σ α β : Type}

/-- the result satisfies `A`, if every state that is met satisfies `I` -/
def PostI (I : σ → Prop) (A : α → Prop) : Prog σ α → Prop
  | .ret a => A a
  | .fail _ => True
  | .act _ _ k => ∀ s, I s → PostI I A (k s)

namespace PostI
variable {I : σ → Prop} {A : α → Prop} {B : β → Prop}

theorem mono {A' : α → Prop} (h : ∀ a, A a → A' a) {t : Prog σ α} (ht : PostI I A t) : PostI I A' t := by
  induction t with
  | ret a => exact h a ht
  | fail e => trivial
  | act g u k ih => exact fun s hs => ih s (ht s hs)

theorem bind {f : α → Prog σ β} {t : Prog σ α} (ht : PostI I A t) (hf : ∀ a, A a → PostI I B (f a)) :
    PostI I B (t.bind f) := by
  induction t with
  | ret a => exact hf a ht
  | fail e => trivial
  | act g u k ih => exact fun s hs => ih s (ht s hs)

theorem triv (t : Prog σ α) : PostI I (fun _ => True) t := by
  induction t with
  | ret a => trivial
  | fail e => trivial
  | act g u k ih => exact fun s _ => ih s

theorem ofExcept {x : Except Panic β} {f : β → Prog σ α} (h : ∀ b, x = .ok b → PostI I A (f b)) :
    PostI I A (.ofExcept x f) := by
  cases x with
  | error e => trivial
  | ok b => exact h b rfl

end PostI

/-- every link leads to a point of `S`, and the entry point is in one of the layers -/
structure WInv (S : List PointId) (cfg : Cfg T) (c : CSt T) : Prop where
  link : ∀ p l, ∀ e ∈ c.idx.nb p l, e.pt.pid ∈ S
  entry : ∀ e, c.idx.entry = some e → e.pid.layer < cfg.maxLayer

section
variable {P : Policy T} {cfg : Cfg T} (L : P.Lawful) {S : List PointId}

include L in
theorem loopN_post (q : List T) (ef l : Nat) {S' : List PointId} (hS : ∀ x ∈ S, x ∈ S') (k0 : Nat) :
    ∀ (n : Nat) (st : SL P) (k : Nat), InvA P cfg.eval q ef (fun v => v.pid ∈ S') st → k ≤ k0 + st.vis.length →
    PostI (WInv S cfg) (fun x => x.2 ≤ k0 + S'.length ∧ P.len x.1 ≤ max ef 1) (loopN P cfg q ef l n st k) := by
  intro n
  induction n with
  | zero => intros; trivial
  | succ n ih =>
    intro st k hI hk
    have hvis : ∀ w : List (Ref T), (w.map (·.pid)).Nodup → (∀ v ∈ w, v.pid ∈ S') → w.length ≤ S'.length := by
      intro w hn hw
      have := length_le_of_nodup_subset hn (l₂ := S') (by
        intro x hx
        obtain ⟨v, hv, rfl⟩ := List.mem_map.1 hx
        exact hw v hv)
      simpa using this
    have hh := head_invA (filt := none) L hI
    simp only [loopN]
    split
    · rename_i r he
      rw [he] at hh
      exact ⟨Nat.le_trans hk (Nat.add_le_add_left (hvis _ hI.visNd hI.visK) _), hh.len⟩
    · trivial
    · rename_i c st' he
      rw [he] at hh
      simp only at hh
      obtain ⟨hI', -, hv, -, -⟩ := hh
      intro s hs
      have hK : ∀ e ∈ s.idx.nb c.pid l, e.pt.pid ∈ S' := fun e hm => hS _ (hs.link _ _ e hm)
      obtain ⟨-, -, h3, h4, h5⟩ := scanListW_log (P := P) (eval := cfg.eval) (q := q) (ef := ef) (filt := none)
        (s.idx.nb c.pid l) st' hI'.visNd
      generalize hD : dists (scanListW P cfg.eval q ef none (s.idx.nb c.pid l) st').log = ds at h3 h4 h5
      simp only [scanListW_res, hD]
      have hlen : ds.length + st.vis.length ≤ S'.length := by
        have := hvis _ h4 (by
          intro v hv'
          rcases List.mem_append.1 hv' with hv' | hv'
          · obtain ⟨e, hm, rfl⟩ := h3 v (List.mem_reverse.1 hv')
            exact hK e hm
          · exact hI'.visK v hv')
        rw [List.length_append, List.length_reverse, hv] at this
        exact this
      split
      · trivial
      · rename_i r hsc
        refine ⟨by simp only; omega, ?_⟩
        have := scanList_invA L hI' hK hsc
        simp only at this
        simp [Policy.len, this]
      · rename_i st'' hsc
        have := scanList_invA L hI' hK hsc
        simp only at this
        refine ih _ _ this.1 ?_
        rw [h5 st'' hsc, List.length_append, List.length_reverse, hv]
        omega

include L in
theorem searchLayerN_post (fuel : Nat) (q : List T) (ep : Ref T) (ef l k : Nat) :
    PostI (WInv S cfg) (fun x => x.2 ≤ k + (S.length + 1) ∧ P.len x.1 ≤ max ef 1)
      (searchLayerN P cfg fuel q ep ef l k) := by
  intro s _
  dsimp only
  split
  · trivial
  · exact ⟨by simp only; omega, by simp [Policy.len, L.items_empty]⟩
  · exact loopN_post L q ef l (S' := ep.pid :: S) (fun x hx => List.mem_cons_of_mem _ hx) k fuel _ _
      (invA_init L (by simp)) (by simp [slInit])

theorem selLoopN_le (asked : Nat) (kp : Bool) : ∀ (n : Nat) (h : P.H) (acc : List (PWO T)) (disc : P.H) (k : Nat) x,
    selLoopN P cfg asked kp n h acc disc k = .ok x → x.2 ≤ k + n * asked := by
  intro n
  induction n with
  | zero => intro h acc disc k x hx; simp only [selLoopN] at hx; cases hx; simp
  | succ n ih =>
    intro h acc disc k x hx
    rw [Nat.succ_mul]
    simp only [selLoopN] at hx
    split at hx
    · cases hx; simp only; omega
    rename_i hlt
    split at hx
    · cases hx; simp only; omega
    · rename_i e h' hp
      have ha := anyN_snd (fun d : PWO T => (cfg.eval e.pt.data d.pt.data).le e.dist.neg) acc
      split at hx
      · cases hx
      split at hx
      · have := ih _ _ _ _ _ hx; omega
      split at hx
      · split at hx
        · cases hx
        · have := ih _ _ _ _ _ hx; omega
      · have := ih _ _ _ _ _ hx; omega

theorem selectFromN_le (asked : Nat) (kp : Bool) (cands : P.H) (k : Nat) {x : List (PWO T) × Nat}
    (hx : selectFromN P cfg asked kp cands k = .ok x) : x.2 ≤ k + P.len cands * asked := by
  unfold selectFromN at hx
  cases hs : selLoopN P cfg asked kp (P.len cands) cands [] P.empty k with
  | error e => rw [hs] at hx; cases hx
  | ok y =>
    rw [hs] at hx
    have := selLoopN_le asked kp _ _ _ _ _ _ hs
    obtain ⟨⟨acc, disc⟩, k'⟩ := y
    simp only at hx
    split at hx
    · cases hr : refill P asked (P.len disc) disc acc with
      | error e => rw [hr] at hx; cases hx
      | ok v => rw [hr] at hx; cases hx; exact this
    · cases hx; exact this

theorem extendP_post (l : Nat) (cands : List (Ref T)) : ∀ (w acc : List (Ref T)), (acc.map (·.pid)).Nodup →
    (∀ v ∈ acc, v.pid ∈ S) →
    PostI (WInv S cfg) (fun news => (news.map (·.pid)).Nodup ∧ ∀ v ∈ news, v.pid ∈ S) (extendP l cands w acc) := by
  intro w
  induction w with
  | nil => intro acc h1 h2; exact ⟨h1, h2⟩
  | cons p w ih =>
    intro acc h1 h2 s hs
    have key : ∀ (es : List (PWO T)) (acc : List (Ref T)), (∀ e ∈ es, e.pt.pid ∈ S) → (acc.map (·.pid)).Nodup →
        (∀ v ∈ acc, v.pid ∈ S) →
        ((es.foldl (fun acc q => if q.pt.pid ∉ cands.map (·.pid) ∧ q.pt.pid ∉ acc.map (·.pid) then acc ++ [q.pt]
          else acc) acc).map (·.pid)).Nodup ∧
        ∀ v ∈ es.foldl (fun acc q => if q.pt.pid ∉ cands.map (·.pid) ∧ q.pt.pid ∉ acc.map (·.pid) then acc ++ [q.pt]
          else acc) acc, v.pid ∈ S := by
      intro es
      induction es with
      | nil => intro acc _ h1 h2; exact ⟨h1, h2⟩
      | cons e es ihe =>
        intro acc he h1 h2
        rw [List.foldl_cons]
        refine ihe _ (fun x hx => he x (List.mem_cons_of_mem _ hx)) ?_ ?_
        · split
          · rename_i hc
            rw [List.map_append]
            refine List.nodup_append.2 ⟨h1, by simp, ?_⟩
            intro a ha b hb hab
            simp only [List.map_cons, List.map_nil, List.mem_singleton] at hb
            exact hc.2 (by rw [← hb, ← hab]; exact ha)
          · exact h1
        · split
          · intro v hv
            rcases List.mem_append.1 hv with hv | hv
            · exact h2 v hv
            · rw [List.mem_singleton.1 hv]; exact he e (by simp)
          · exact h2
    obtain ⟨h3, h4⟩ := key _ acc (fun e he => hs.link p.pid l e he) h1 h2
    exact ih _ h3 h4

/-- the distances of an extension of the candidates -/
def extWork (m n : Nat) (ext : Bool) : Nat := if ext then n + 2 * m * (2 * m + n) else 0

include L in
theorem selectN_post (p : Ref T) (cands : P.H) {asked : Nat} (ext : Bool) (l : Nat) (kp : Bool) (k : Nat) {E : Nat}
    (hE : P.len cands ≤ E) (ha : asked ≤ 2 * cfg.maxNb) :
    PostI (WInv S cfg) (fun x => x.2 ≤ k + 2 * cfg.maxNb * E + extWork cfg.maxNb S.length ext)
      (selectN P cfg p cands asked ext l kp k) := by
  unfold selectN
  split
  · refine .ofExcept fun v _ => ?_
    show k ≤ _
    omega
  split
  · rename_i h1 h2
    have hext : ext = true := by
      cases ext with
      | true => rfl
      | false => exact absurd ⟨h2, rfl⟩ h1
    refine (extendP_post l _ _ [] (by simp) (by simp)).bind fun news hn => ?_
    refine .ofExcept fun c hc => .ofExcept fun x hx => ?_
    have h3 := selectFromN_le asked kp c _ hx
    have h4 := (pushAll_ok L _ _ _ hc).length_eq
    have h5 : (P.hashOrder p.pid l 1 news).length = news.length := (L.hash_perm _ _ _ _).length_eq
    have h6 : news.length ≤ S.length := by
      have := length_le_of_nodup_subset hn.1 (l₂ := S) (by
        intro x hx
        obtain ⟨v, hv, rfl⟩ := List.mem_map.1 hx
        exact hn.2 v hv)
      simpa using this
    rw [List.length_append, List.length_map, h5] at h4
    rw [h5] at h3
    show x.2 ≤ _
    have h7 : P.len c ≤ 2 * cfg.maxNb + S.length := by unfold Policy.len at h2 ⊢; omega
    have h8 : P.len c * asked ≤ (2 * cfg.maxNb + S.length) * (2 * cfg.maxNb) := Nat.mul_le_mul h7 ha
    rw [Nat.mul_comm _ (2 * cfg.maxNb)] at h8
    unfold extWork
    rw [hext, if_pos rfl]
    omega
  · refine .ofExcept fun x hx => ?_
    have h3 := selectFromN_le asked kp cands _ hx
    have h8 : P.len cands * asked ≤ E * (2 * cfg.maxNb) := Nat.mul_le_mul hE ha
    rw [Nat.mul_comm E] at h8
    show x.2 ≤ _
    omega

include L in
theorem upperN_post (fuel : Nat) (p : Ref T) : ∀ (ls : List Nat) (ep : Ref T) (d : F32) (k : Nat),
    PostI (WInv S cfg) (fun x => x.2 ≤ k + ls.length * (S.length + 2)) (upperN P cfg fuel p ls ep d k) := by
  intro ls
  induction ls with
  | nil => intro ep d k; show k ≤ _; omega
  | cons l ls ih =>
    intro ep d k
    rw [List.length_cons, Nat.succ_mul]
    refine (searchLayerN_post L fuel p.data ep 1 l k).bind fun x hx => ?_
    have h1 := hx.1
    split
    · trivial
    split
    · exact (ih _ _ _).mono fun y hy => by omega
    · rename_i e _ _
      have hn : PostI (WInv S cfg) (fun y => y.2 ≤ k + (ls.length * (S.length + 2) + (S.length + 2)))
          (if (cfg.eval p.data e.pt.data).lt d = true then
            upperN P cfg fuel p ls e.pt (cfg.eval p.data e.pt.data) (x.2 + 1)
          else upperN P cfg fuel p ls ep d (x.2 + 1)) := by
        split
        · exact (ih _ _ _).mono fun y hy => by omega
        · exact (ih _ _ _).mono fun y hy => by omega
      intro s _
      dsimp only
      split
      · exact fun s' _ => hn
      · exact hn

theorem fromPositive_len (L : P.Lawful) : ∀ (xs : List (PWO T)) (h nh : P.H), fromPositive P xs h = .ok nh →
    P.len nh = xs.length + P.len h := by
  intro xs
  induction xs with
  | nil => intro h nh he; simp only [fromPositive] at he; cases he; simp
  | cons x xs ih =>
    intro h nh he
    simp only [fromPositive] at he
    split at he
    · cases he
    split at he
    · cases he
    · rename_i h' hp
      have h1 := ih _ _ he
      unfold Policy.pushC at hp
      split at hp
      · cases hp
      · cases hp
        have h2 := (L.items_push h ⟨x.pt, x.dist.neg⟩).length_eq
        rw [List.length_cons] at h2 ⊢
        unfold Policy.len at h1 ⊢
        omega

include L in
theorem lowerN_post (fuel : Nat) (p : Ref T) : ∀ (ls : List Nat) (ep : Ref T) (k : Nat),
    PostI (WInv S cfg) (fun x => x.2 ≤ k + ls.length * (S.length + 1 + 2 * cfg.maxNb * max cfg.efC 1) +
      ls.count 0 * extWork cfg.maxNb S.length cfg.extend) (lowerN P cfg fuel p ls ep k) := by
  intro ls
  induction ls with
  | nil => intro ep k; show k ≤ _; omega
  | cons l ls ih =>
    intro ep k
    rw [List.length_cons, Nat.succ_mul]
    have hc : ls.count 0 * extWork cfg.maxNb S.length cfg.extend +
        extWork cfg.maxNb S.length (if l = 0 then cfg.extend else false) =
        (l :: ls).count 0 * extWork cfg.maxNb S.length cfg.extend := by
      by_cases hl : l = 0
      · subst hl
        rw [if_pos rfl, List.count_cons_self, Nat.succ_mul]
      · rw [if_neg hl, List.count_cons_of_ne hl]
        simp [extWork]
    refine (searchLayerN_post L fuel p.data ep cfg.efC l k).bind fun x hx => ?_
    obtain ⟨h1, h2⟩ := hx
    refine .ofExcept fun nh hnh => ?_
    have h3 := fromPositive_len L _ _ _ hnh
    have h4 : P.len (P.empty : P.H) = 0 := by simp [Policy.len, L.items_empty]
    split
    · exact (ih _ _).mono fun y hy => by omega
    · refine (selectN_post L p nh _ l _ _ (E := max cfg.efC 1) (by unfold Policy.len at h2 h3 h4 ⊢; omega)
        (by split <;> omega)).bind fun y hy => ?_
      refine .ofExcept fun nbrs _ => ?_
      intro s _
      simp only
      split
      · exact (ih _ _).mono fun z hz => by omega
      · exact (ih _ _).mono fun z hz => by omega

end

theorem count_le_one_of_nodup {l : List Nat} (h : l.Nodup) {a : Nat} : l.count a ≤ 1 := by
  induction l with
  | nil => simp
  | cons b l ih =>
    rw [List.nodup_cons] at h
    by_cases hb : b = a
    · subst hb
      rw [List.count_cons_self, List.count_eq_zero.2 h.1]
      omega
    · rw [List.count_cons_of_ne hb]
      exact ih h.2

/-- bound for the distances of an insertion: `n` points, `m` links, `e` for `ef_construction`, `ml` layers -/
def insertWork (n m e ml : Nat) (ext : Bool) : Nat :=
  1 + ml * (n + 2 + 2 * m * max e 1) + extWork m n ext

theorem insertWork_mono {n n' m e ml : Nat} {ext : Bool} (h : n ≤ n') :
    insertWork n m e ml ext ≤ insertWork n' m e ml ext := by
  unfold insertWork extWork
  have h1 : ml * (n + 2 + 2 * m * max e 1) ≤ ml * (n' + 2 + 2 * m * max e 1) := Nat.mul_le_mul_left _ (by omega)
  have h2 : 2 * m * (2 * m + n) ≤ 2 * m * (2 * m + n') := Nat.mul_le_mul_left _ (by omega)
  split <;> omega

variable {P : Policy T} {cfg : Cfg T}

theorem insertN_post (L : P.Lawful) {S : List PointId} (fuel : Nat) (item : List T × DataId) {level : Nat}
    (hl : level < cfg.maxLayer) :
    PostI (WInv S cfg) (fun x => x.2 ≤ insertWork S.length cfg.maxNb cfg.efC cfg.maxLayer cfg.extend)
      (insertN P cfg fuel item level) := by
  unfold insertWork
  intro s _
  dsimp only
  split
  · intro s1 _ s2 hs2
    dsimp only
    split
    · refine (PostI.triv _).bind fun _ _ => ?_
      show 0 ≤ _
      omega
    · rename_i ep hep
      split
      · show 0 ≤ _
        omega
      · have he := hs2.entry ep hep
        have hu : (layersDown ep.pid.layer ((newRef item level s.idx).pid.layer + 1)).length =
            ep.pid.layer - level := by
          simp [layersDown, newRef]
        have hw : (layersDown (newRef item level s.idx).pid.layer 0).length = level + 1 := by
          simp [layersDown, newRef]
        have hc : (layersDown (newRef item level s.idx).pid.layer 0).count 0 ≤ 1 :=
          count_le_one_of_nodup (nodup_layersDown _ _)
        refine (upperN_post L _ _ _ _ _ _).bind fun x hx => (lowerN_post L _ _ _ _ _).bind fun y hy =>
          (PostI.triv _).bind fun _ _ => ?_
        show y.2 ≤ _
        rw [hu] at hx
        rw [hw] at hy
        generalize hA : ep.pid.layer - level = a at hx
        have h1 : a + (level + 1) ≤ cfg.maxLayer := by omega
        have h2 : a * (S.length + 2) ≤ a * (S.length + 2 + 2 * cfg.maxNb * max cfg.efC 1) :=
          Nat.mul_le_mul_left _ (by omega)
        have h3 : (level + 1) * (S.length + 1 + 2 * cfg.maxNb * max cfg.efC 1) ≤
            (level + 1) * (S.length + 2 + 2 * cfg.maxNb * max cfg.efC 1) := Nat.mul_le_mul_left _ (by omega)
        have h4 : a * (S.length + 2 + 2 * cfg.maxNb * max cfg.efC 1) +
            (level + 1) * (S.length + 2 + 2 * cfg.maxNb * max cfg.efC 1) ≤
            cfg.maxLayer * (S.length + 2 + 2 * cfg.maxNb * max cfg.efC 1) := by
          rw [← Nat.add_mul]
          exact Nat.mul_le_mul_right _ h1
        have h5 := Nat.mul_le_mul_right (extWork cfg.maxNb S.length cfg.extend) hc
        rw [Nat.one_mul] at h5
        omega
  · trivial

/-! ## Executions -/

/-- the program of one call of `insert`, with the number of distances as its result -/
def Job.progN (P : Policy T) (cfg : Cfg T) (fuel : Nat) (j : Job T) : Prog (CSt T) (Unit × Nat) :=
  insertN P cfg fuel (j.data, j.id) j.level

theorem Step.forget {a b : σ × List (Prog σ (α × Nat))} (h : Step a b) :
    Step (a.1, a.2.map Prog.forget) (b.1, b.2.map Prog.forget) := by
  cases h with
  | @mk s ts i hi g u k hact hg =>
    simp only [List.map_set]
    refine .mk i (by simpa using hi) g u (fun s => (k s).forget) ?_ hg
    rw [List.getElem_map, hact]
    rfl

theorem Steps.forget {a b : σ × List (Prog σ (α × Nat))} (h : Steps a b) :
    Steps (a.1, a.2.map Prog.forget) (b.1, b.2.map Prog.forget) := by
  induction h with
  | refl => exact .refl _
  | step _ h2 ih => exact .step ih h2.forget

theorem Steps.lift {a : σ × List (Prog σ (α × Nat))} {b : σ × List (Prog σ α)}
    (h : Steps (a.1, a.2.map Prog.forget) b) : ∃ ts, Steps a (b.1, ts) ∧ ts.map Prog.forget = b.2 := by
  induction h with
  | refl => exact ⟨a.2, .refl _, rfl⟩
  | step _ h2 ih =>
    obtain ⟨ts, hs, ht⟩ := ih
    cases h2 with
    | @mk s ts' i hi g u k hact hg =>
      simp only at hs ht
      subst ht
      rw [List.length_map] at hi
      rw [List.getElem_map] at hact
      cases ht : ts[i] with
      | ret x => rw [ht] at hact; cases hact
      | fail e => rw [ht] at hact; cases hact
      | act g0 u0 k0 =>
        rw [ht] at hact
        unfold Prog.forget Prog.bind at hact
        cases hact
        refine ⟨ts.set i (k0 s), .step hs (.mk i hi g u k0 ht hg), ?_⟩
        simp only [List.map_set]
        rfl

theorem Steps.post {I : σ → Prop} {A : α → Prop} {a b : σ × List (Prog σ α)} (h : Steps a b)
    (hI : ∀ c, Steps a c → Steps c b → I c.1) (ha : ∀ t ∈ a.2, PostI I A t) : ∀ t ∈ b.2, PostI I A t := by
  induction h with
  | refl => exact ha
  | step h1 h2 ih =>
    have hb := ih (fun c hc hc' => hI c hc (.step hc' h2))
    have hi := hI _ h1 (.step (.refl _) h2)
    cases h2 with
    | mk i hi' g u k hact hg =>
      intro t ht
      rcases List.mem_or_eq_of_mem_set ht with ht | rfl
      · exact hb t ht
      · have := hb _ (List.getElem_mem hi')
        rw [hact] at this
        exact this _ hi

/-- points are never removed -/
theorem Exec.mono_laterB {B : Base T} (L : P.Lawful) {c0 : CSt T} (h : GoodCB B cfg c0) (hB : B.Owned c0.idx)
    {jobs : List (Job T)} (hl : ∀ j ∈ jobs, j.level < cfg.maxLayer) {a b : CSt T × List (Prog (CSt T) Unit)}
    (he : Exec P cfg c0 jobs a.1 a.2) (hs : Steps a b) : ∀ p, Stored a.1.idx p → Stored b.1.idx p := by
  induction hs with
  | refl => exact fun p hp => hp
  | step h1 h2 ih =>
    obtain ⟨ph, hS⟩ := Exec.invB L h hB hl (Steps.trans he h1) (fun _ => True) (by simp) (by simp)
    exact fun p hp => (sysInv_mono h2 hS).stored p (ih p hp)

/-- **C123** (what is counted) The executions of a batch of insertions that count their distances are those of the
batch of insertions: the same states, and the same threads if the counters are left out. -/
theorem C123_same {c0 : CSt T} {jobs : List (Job T)} {c : CSt T} {ts : List (Prog (CSt T) Unit)} :
    Exec P cfg c0 jobs c ts ↔ ∃ ts', Steps (c0, jobs.map (Job.progN P cfg (c0.idx.points.length + jobs.length + 2)))
      (c, ts') ∧ ts'.map Prog.forget = ts := by
  have hm : (jobs.map (Job.progN P cfg (c0.idx.points.length + jobs.length + 2))).map Prog.forget =
      jobs.map (Job.prog P cfg (c0.idx.points.length + jobs.length + 2)) := by
    rw [List.map_map]
    exact List.map_congr_left fun j _ => insertN_forget _ _ _
  constructor
  · intro he
    unfold Exec at he
    rw [← hm] at he
    exact Steps.lift (a := (c0, _)) he
  · rintro ⟨ts', hs, rfl⟩
    unfold Exec
    rw [← hm]
    exact hs.forget

/-- the bound of `C123_work`, for an index with inherited lists too -/
theorem work_leB {B : Base T} (L : P.Lawful) {c0 : CSt T} (hG : GoodCB B cfg c0) (hB : B.Owned c0.idx)
    {jobs : List (Job T)} (hl : ∀ j ∈ jobs, j.level < cfg.maxLayer) {c : CSt T}
    {ts : List (Prog (CSt T) (Unit × Nat))}
    (he : Steps (c0, jobs.map (Job.progN P cfg (c0.idx.points.length + jobs.length + 2))) (c, ts))
    {k : Nat} (hk : .ret ((), k) ∈ ts) :
    k ≤ insertWork (c0.idx.points.length + jobs.length) cfg.maxNb cfg.efC cfg.maxLayer cfg.extend := by
  have hx : ∀ {c ts}, Steps (c0, jobs.map (Job.progN P cfg (c0.idx.points.length + jobs.length + 2)))
      (c, ts) → Exec P cfg c0 jobs c (ts.map Prog.forget) :=
    fun hs => C123_same.2 ⟨_, hs, rfl⟩
  have hP := Steps.post (I := WInv (c.idx.points.map (·.pid)) cfg)
    (A := fun x => x.2 ≤ insertWork (c.idx.points.map (·.pid)).length cfg.maxNb cfg.efC cfg.maxLayer cfg.extend) he
    (by
      intro b hb hbc
      have hbE : Exec P cfg c0 jobs b.1 (b.2.map Prog.forget) := hx hb
      have hm := Exec.mono_laterB L hG hB hl (a := (b.1, b.2.map Prog.forget)) hbE hbc.forget
      obtain ⟨ph, hS⟩ := Exec.invB L hG hB hl hbE (fun _ => True) (by simp) (by simp)
      have hok := hS.env.inv.okB
      refine ⟨fun p l e hem => List.mem_map_of_mem (hm _ (hok.stored p l e hem)), fun e hen => ?_⟩
      exact hok.tab.layer_lt (hok.entry e hen))
    (by
      intro t ht
      obtain ⟨j, hj, rfl⟩ := List.mem_map.1 ht
      exact insertN_post L _ _ (hl j hj))
  have hk' := hP _ hk
  obtain ⟨ph, hS⟩ := Exec.invB L hG hB hl (hx he) (fun _ => True) (by simp) (by simp)
  have hn : (c.idx.points.map (·.pid)).length ≤ c0.idx.points.length + jobs.length := by
    have := hS.size
    rw [List.length_map]
    omega
  exact Nat.le_trans hk' (insertWork_mono hn)

/-- **C123** A batch of insertions in an index, one thread each, under any schedule: an insertion that has returned, whatever
the distance is, has computed at most `1 + max_layer * (n + 2 + 2 * max_nb_connection * ef_construction)` distances, `n`
being the number of points stored before and in the batch; if the extension of the candidates is asked for, at most
`n + 2 * max_nb_connection * (2 * max_nb_connection + n)` more. -/
theorem C123_work (L : P.Lawful) {c0 : CSt T} (h : ReachC P cfg c0) (ext kp : Bool)
    {jobs : List (Job T)} (hl : ∀ j ∈ jobs, j.level < cfg.maxLayer) {c : CSt T}
    {ts : List (Prog (CSt T) (Unit × Nat))}
    (he : Steps (c0, jobs.map (Job.progN P (cfg.withFlags ext kp) (c0.idx.points.length + jobs.length + 2))) (c, ts))
    {k : Nat} (hk : .ret ((), k) ∈ ts) :
    k ≤ 1 + cfg.maxLayer * ((c0.idx.points.length + jobs.length) + 2 + 2 * cfg.maxNb * max cfg.efC 1) +
      if ext then (c0.idx.points.length + jobs.length) +
        2 * cfg.maxNb * (2 * cfg.maxNb + (c0.idx.points.length + jobs.length)) else 0 :=
  work_leB (cfg := cfg.withFlags ext kp) L (goodC_flags.2 (h.goodC L)) (Base.owned_none _) hl he hk

/-- the numbers of distances of the threads that have returned -/
def counts : List (Prog (CSt T) (Unit × Nat)) → List (Option Nat) :=
  List.map fun t => match t with
    | .ret x => some x.2
    | _ => none

/-- two points stored, two insertions side by side: 5 and 6 distances -/
example : ReachC (listPolicy Nat) (exCfg 3) exStart ∧ (∀ j ∈ exTwo, j.level < (exCfg 3).maxLayer) ∧
    (runSched ((List.replicate 22 [0, 1]).flatten ++ [0, 0]) (exStart, exTwo.map (Job.progN (listPolicy Nat)
      ((exCfg 3).withFlags false false) (exStart.idx.points.length + exTwo.length + 2)))).map (fun x => counts x.2) =
      some [some 5, some 6] := by
  refine ⟨exStart_reach, by decide, ?_⟩
  decide +kernel

end Verif
