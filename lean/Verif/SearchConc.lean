import Verif.ExecLemmas
import Verif.SearchTop

set_option autoImplicit false

/-!
# Searches running at the same time as insertions

`search_filter` takes `&self` (/repo/src/hnsw.rs 1462-1535): client threads may search while others
insert.  Here it is a program made of its lock sections, all of them reads of one lock at a time, and
a system made of insertion threads and search threads is run under any schedule.
-/

namespace Verif
variable {T : Type}

section
variable (P : Policy T) (cfg : Cfg T)

/-- the loop of `search_layer`, with a possible filter, reading the list of each candidate under its
lock (/repo/src/hnsw.rs 960-1041). -/
def searchLoopP (q : List T) (ef layer : Nat) (filt : Option (DataId → Bool)) :
    Nat → SL P → Prog (CSt T) P.H
  | 0, _ => .fail .fuel
  | n + 1, st =>
    match head P ef filt st with
    | .done r => .ret r
    | .panic e => .fail e
    | .expand c st' =>
      .read fun s =>
        match scanList P cfg.eval q ef filt (s.idx.nb c.pid layer) st' with
        | .error x => .fail x
        | .ok (.stop r) => .ret r
        | .ok (.go st'') => searchLoopP q ef layer filt n st''

/-- `search_layer` with a possible filter: one read of the table, then the loop
(/repo/src/hnsw.rs 911-1042). -/
def searchLayerFP (fuel : Nat) (q : List T) (ep : Ref T) (ef layer : Nat)
    (filt : Option (DataId → Bool)) : Prog (CSt T) P.H :=
  .read fun s =>
    match s.idx.layers[layer]? with
    | none => .fail .index
    | some [] => .ret P.empty
    | some (_ :: _) => searchLoopP P cfg q ef layer filt fuel (slInit P cfg.eval q ep)

/-- the descent: the list of the pivot in each layer, from the level of the entry point to 1, is read
under its lock (/repo/src/hnsw.rs 1486-1504). -/
def descendP (q : List T) : Nat → Ref T × F32 → Prog (CSt T) (Ref T × F32)
  | 0, x => .ret x
  | l + 1, x =>
    .read fun s => descendP q l (scanPivot cfg.eval q (s.idx.nb x.1.pid (l + 1)) x)

/-- the loop looking for the lowest non empty layer (/repo/src/hnsw.rs 1509-1515).  Each iteration
calls `get_layer_nb_point` (561-568), which reads the table twice.  The counter is a `u8`: after
layer 255 it overflows; the first argument is the number of values it can still take. -/
def lowestP : Nat → Nat → Prog (CSt T) Nat
  | 0, _ => .fail .overflow
  | n + 1, l =>
    .read fun s =>
      if l < s.idx.layers.length then
        .read fun s => if 0 < (s.idx.layer l).length then .ret l else lowestP n (l + 1)
      else lowestP n (l + 1)

/-- `search_filter` (/repo/src/hnsw.rs 1462-1535) as a program. -/
def searchP (fuel : Nat) (q : List T) (knbn efArg : Nat) (filt : Option (DataId → Bool)) :
    Prog (CSt T) (List Neighbour) :=
  .read fun s =>
    match s.idx.entry with
    | none => .ret []
    | some ep =>
      (descendP cfg q ep.pid.layer (ep, cfg.eval q ep.data)).bind fun x =>
        (lowestP 256 0).bind fun l =>
          (searchLayerFP P cfg fuel q x.1 (max efArg knbn) l filt).bind fun h =>
            .ofExcept (P.intoSortedC h) fun v =>
              .ret ((v.take (min knbn (min (max efArg knbn) v.length))).map PWO.toNeighbour)

/-- One search to perform (the arguments of `search_filter`). -/
structure Req (T : Type) where
  query : List T
  knbn : Nat
  ef : Nat
  filt : Option (DataId → Bool)

/-- The program of one call to `search_filter`. -/
def Req.prog (fuel : Nat) (r : Req T) : Prog (CSt T) (List Neighbour) :=
  searchP P cfg fuel r.query r.knbn r.ef r.filt

end

/-- State of a system of insertion threads and search threads. -/
structure Mixed (T : Type) where
  st : CSt T
  ins : List (Prog (CSt T) Unit)
  srch : List (Prog (CSt T) (List Neighbour))

/-- One step of such a system: an insertion thread or a search thread performs its next action. -/
inductive MStep : Mixed T → Mixed T → Prop
  | ins {s s' : CSt T} {ts ts' us} (h : Step (s, ts) (s', ts')) : MStep ⟨s, ts, us⟩ ⟨s', ts', us⟩
  | srch {s s' : CSt T} {ts us us'} (h : Step (s, us) (s', us')) : MStep ⟨s, ts, us⟩ ⟨s', ts, us'⟩

/-- any number of steps, any schedule -/
inductive MSteps : Mixed T → Mixed T → Prop
  | refl (c) : MSteps c c
  | step {a b c} : MSteps a b → MStep b c → MSteps a c

/-- `m` is reached from the quiescent state `c0` by running the insertions `jobs` and the searches
`reqs`, one thread each, under some schedule.  A search starts when its first action is scheduled. -/
def MExec (P : Policy T) (cfg : Cfg T) (c0 : CSt T) (jobs : List (Job T)) (reqs : List (Req T))
    (m : Mixed T) : Prop :=
  MSteps ⟨c0, jobs.map (Job.prog P cfg (c0.idx.points.length + jobs.length + 2)),
    reqs.map (Req.prog P cfg (c0.idx.points.length + jobs.length + 2))⟩ m

/-! ## Read-only programs -/

/-- The program never modifies the state and never waits for a guard. -/
def ReadOnly {σ α : Type} : Prog σ α → Prop
  | .act g u k => (∀ s, g s = true ∧ u s = s) ∧ ∀ s, ReadOnly (k s)
  | _ => True

theorem ReadOnly.bind {σ α β : Type} {t : Prog σ α} {f : α → Prog σ β} (ht : ReadOnly t)
    (hf : ∀ a, ReadOnly (f a)) : ReadOnly (t.bind f) := by
  induction t with
  | ret a => exact hf a
  | fail e => trivial
  | act g u k ih => exact ⟨ht.1, fun s => ih s (ht.2 s)⟩

theorem ReadOnly.read {σ α : Type} {k : σ → Prog σ α} (h : ∀ s, ReadOnly (k s)) :
    ReadOnly (Prog.read k) := ⟨fun _ => ⟨rfl, rfl⟩, h⟩

theorem ReadOnly.ofExcept {σ α β : Type} {x : Except Panic β} {k : β → Prog σ α}
    (h : ∀ b, ReadOnly (k b)) : ReadOnly (Prog.ofExcept x k) := by
  cases x with
  | error e => trivial
  | ok b => exact h b

theorem searchLoopP_ro (P : Policy T) (cfg : Cfg T) (q : List T) (ef layer : Nat)
    (filt : Option (DataId → Bool)) : ∀ (n : Nat) (st : SL P),
    ReadOnly (searchLoopP P cfg q ef layer filt n st) := by
  intro n
  induction n with
  | zero => intro st; trivial
  | succ n ih =>
    intro st
    simp only [searchLoopP]
    split
    · trivial
    · trivial
    · apply ReadOnly.read
      intro s
      split
      · trivial
      · trivial
      · exact ih _

theorem searchLayerFP_ro (P : Policy T) (cfg : Cfg T) (fuel : Nat) (q : List T) (ep : Ref T)
    (ef layer : Nat) (filt : Option (DataId → Bool)) :
    ReadOnly (searchLayerFP P cfg fuel q ep ef layer filt) := by
  apply ReadOnly.read
  intro s
  split
  · trivial
  · trivial
  · exact searchLoopP_ro _ _ _ _ _ _ _ _

theorem descendP_ro (cfg : Cfg T) (q : List T) : ∀ (l : Nat) (x : Ref T × F32),
    ReadOnly (descendP cfg q l x) := by
  intro l
  induction l with
  | zero => intro x; trivial
  | succ l ih => intro x; exact ReadOnly.read fun s => ih _

theorem lowestP_ro : ∀ (n l : Nat), ReadOnly (lowestP n l : Prog (CSt T) Nat) := by
  intro n
  induction n with
  | zero => intro l; trivial
  | succ n ih =>
    intro l
    apply ReadOnly.read
    intro s
    split
    · apply ReadOnly.read
      intro s'
      split
      · trivial
      · exact ih _
    · exact ih _

theorem searchP_ro (P : Policy T) (cfg : Cfg T) (fuel : Nat) (q : List T) (knbn efArg : Nat)
    (filt : Option (DataId → Bool)) : ReadOnly (searchP P cfg fuel q knbn efArg filt) := by
  apply ReadOnly.read
  intro s
  split
  · trivial
  · exact (descendP_ro _ _ _ _).bind fun x => (lowestP_ro _ _).bind fun l =>
      (searchLayerFP_ro _ _ _ _ _ _ _ _).bind fun h => .ofExcept fun v => trivial

theorem mem_of_set {α : Type} {l : List α} {i : Nat} {a b : α} (h : b ∈ l.set i a) :
    b = a ∨ b ∈ l := (List.mem_or_eq_of_mem_set h).symm

/-- the insertions of a mixed execution do not notice the searches -/
theorem MSteps.proj {m m' : Mixed T} (h : MSteps m m') (hro : ∀ u ∈ m.srch, ReadOnly u) :
    Steps (m.st, m.ins) (m'.st, m'.ins) ∧ ∀ u ∈ m'.srch, ReadOnly u := by
  induction h with
  | refl => exact ⟨.refl _, hro⟩
  | step _ hs ih =>
    obtain ⟨h1, h2⟩ := ih
    cases hs with
    | ins h => exact ⟨.step h1 h, h2⟩
    | srch h =>
      cases h with
      | mk i hi g u k hact hg =>
        rename_i us
        have := h2 _ (List.getElem_mem hi)
        rw [hact] at this
        refine ⟨?_, ?_⟩
        · rw [(this.1 _).2]; exact h1
        · intro u hu
          rcases mem_of_set hu with rfl | hu
          · exact this.2 _
          · exact h2 u hu

/-- What a searcher knows about the evolution of the index. -/
structure Mono (s s' : CSt T) : Prop where
  stored : ∀ v, Stored s.idx v → Stored s'.idx v
  entry : s.idx.entry ≠ none → s'.idx.entry ≠ none

theorem Mono.refl (s : CSt T) : Mono s s := ⟨fun _ h => h, fun h => h⟩

theorem Mono.trans {s s' s'' : CSt T} (h : Mono s s') (h' : Mono s' s'') : Mono s s'' :=
  ⟨fun v hv => h'.stored v (h.stored v hv), fun he => h'.entry (h.entry he)⟩

section
variable {α β : Type} (B : Base T) (cfg : Cfg T) (N : Nat) (D : List T → Prop)

/-- Whatever the others do in between, the program panics only with an error satisfying `F`, and ends
with `Q`. -/
def RSafe (F : Panic → Prop) (Q : α → CSt T → Prop) : Prog (CSt T) α → CSt T → Prop
  | .ret a, s => ∀ s', EInvB B cfg N D s' → Mono s s' → Q a s'
  | .fail e, _ => F e
  | .act _ _ k, s => ∀ s', EInvB B cfg N D s' → Mono s s' →
      RSafe F Q (k s') s'

end

variable {α β : Type} {B : Base T} {cfg : Cfg T} {N : Nat} {D : List T → Prop} {F : Panic → Prop}

theorem RSafe.mono_state {Q : α → CSt T → Prop} {t : Prog (CSt T) α} {s s' : CSt T}
    (h : RSafe B cfg N D F Q t s) (hm : Mono s s') : RSafe B cfg N D F Q t s' := by
  cases t with
  | ret a => exact fun s'' hi hr' => h s'' hi (hm.trans hr')
  | fail e => exact h
  | act g u k => exact fun s'' hi hr' => h s'' hi (hm.trans hr')

theorem RSafe.read {Q : α → CSt T → Prop} {k : CSt T → Prog (CSt T) α} {s : CSt T}
    (h : ∀ s', EInvB B cfg N D s' → Mono s s' → RSafe B cfg N D F Q (k s') s') :
    RSafe B cfg N D F Q (Prog.read k) s :=
  fun s' hi hr => h s' hi hr

theorem RSafe.bind {Q : α → CSt T → Prop} {R : β → CSt T → Prop} {t : Prog (CSt T) α}
    {f : α → Prog (CSt T) β} {s0 : CSt T}
    (hf : ∀ a s, EInvB B cfg N D s → Mono s0 s → Q a s → RSafe B cfg N D F R (f a) s) :
    ∀ {s : CSt T}, EInvB B cfg N D s → Mono s0 s → RSafe B cfg N D F Q t s →
      RSafe B cfg N D F R (t.bind f) s := by
  induction t with
  | ret a => intro s hi hm h; exact hf a s hi hm (h s hi (Mono.refl s))
  | fail e => intro s _ _ h; exact h
  | act g u k ih =>
    intro s hi hm h s' hi' hr
    exact ih s' hi' (hm.trans hr) (h s' hi' hr)

variable {P : Policy T} {q : List T} {ef layer : Nat} {filt : Option (DataId → Bool)}

/-- extra invariant of the loop when distances are legal -/
def LInv (P : Policy T) (cfg : Cfg T) (q : List T) (ef N : Nat) (ep : Ref T) (st : SL P) :
    Option (DataId → Bool) → Prop
  | none => ∃ exp, InvN P cfg.eval q ef exp st
  | some φ => 1 ≤ ef ∧ ∃ exp, InvF P cfg.eval q φ ef N ep exp st

theorem LInv.ne {ep : Ref T} {st : SL P} (h : LInv P cfg q ef N ep st filt) :
    P.items st.ret ≠ [] := by
  cases filt with
  | none => exact h.choose_spec.ne
  | some φ => exact h.2.choose_spec.ne

/-- filtered search: everything returned is accepted, or one rejected point is returned -/
theorem LInv.acc {ep : Ref T} {st : SL P} {φ : DataId → Bool}
    (h : LInv P cfg q ef N ep st (some φ)) :
    (∀ x ∈ P.items st.ret, φ x.pt.origin = true) ∨ P.len st.ret = 1 := by
  obtain ⟨-, exp, h⟩ := h
  rcases h.acc with h | ⟨x, hx, -⟩
  · exact Or.inl h
  · right; simp [Policy.len, hx]

theorem linv_init (L : P.Lawful) {ep : Ref T} (hef : filt = none ∨ 1 ≤ ef) :
    LInv P cfg q ef N ep (slInit P cfg.eval q ep) filt := by
  cases filt with
  | none => exact ⟨[], invN_init L⟩
  | some φ =>
    have hef : 1 ≤ ef := by simpa using hef
    refine ⟨hef, [], by simp [slInit, L.items_push_empty], ?_, ?_,
      by simp [slInit, L.items_push_empty], by simp [slInit, L.items_push_empty],
      by simp [slInit, L.items_push_empty]⟩
    · by_cases hφ : φ ep.origin = true
      · left; simp [slInit, L.items_push_empty, hφ]
      · right
        exact ⟨_, L.items_push_empty, rfl, by simpa using hφ, fun _ => by
          simp [slInit, L.items_push_empty]; simpa using hφ⟩
    · intro _; simp [slInit, L.items_push_empty]

theorem LInv.expand (L : P.Lawful) {K : Ref T → Prop} {ep c : Ref T} {st st' : SL P}
    (h : LInv P cfg q ef N ep st filt) (hI : InvA P cfg.eval q ef K st)
    (hL : ∀ v, K v → (cfg.eval q v.data).Legal) (hh : head P ef filt st = .expand c st') :
    LInv P cfg q ef N ep st' filt := by
  rcases head_legal (filt := filt) L hI hL h.ne with ⟨-, h2⟩ | ⟨c', cand', f, h1, h2, h3⟩
  · rw [hh] at h2; cases h2
  · rcases h3 with ⟨h3, -⟩ | h3
    · rw [hh] at h3; cases h3
    · rw [hh] at h3
      cases h3
      have hmv : ∀ exp : List (Ref T), ∀ v, ((∃ y ∈ P.items st.cand, y.pt = v) ∨ v ∈ exp) →
          ((∃ y ∈ P.items cand', y.pt = v) ∨ v ∈ c'.pt :: exp) := by
        intro exp v hv
        rcases hv with ⟨y, hy, hyx⟩ | h
        · rcases (L.mem_pop h1).1 hy with rfl | hy
          · right; rw [← hyx]; simp
          · exact Or.inl ⟨y, hy, hyx⟩
        · exact Or.inr (List.mem_cons_of_mem _ h)
      cases filt with
      | none =>
        obtain ⟨exp, hN⟩ := h
        exact ⟨c'.pt :: exp, hN.ne, fun x hx => hmv exp _ (hN.ce x hx), hN.far⟩
      | some φ =>
        obtain ⟨hef, exp, hF⟩ := h
        refine ⟨hef, c'.pt :: exp, hF.ne, ?_, ?_, fun h2e hlt v hv => hmv exp v (hF.full h2e hlt v hv),
            fun x hx => hmv exp _ (hF.ce x hx), hF.far⟩
        · rcases hF.acc with h | ⟨x, hx, hxe, hφe, h6⟩
          · exact Or.inl h
          · exact Or.inr ⟨x, hx, hxe, hφe, fun h7 v hv => ⟨(h6 h7 v hv).1, hmv exp v (h6 h7 v hv).2⟩⟩
        · intro hbig v hv
          exact ⟨hmv exp v (hF.big hbig v hv).1, (hF.big hbig v hv).2⟩

theorem LInv.scan (L : P.Lawful) {K : Ref T → Prop} {ep : Ref T} {st : SL P} {es : List (PWO T)}
    (h : LInv P cfg q ef N ep st filt) (hI : InvA P cfg.eval q ef K st)
    (hL : ∀ v, K v → (cfg.eval q v.data).Legal)
    (hN : ∀ l : List (Ref T), (∀ v ∈ l, K v) → (l.map (·.pid)).Nodup → l.length ≤ N)
    (hs : ∀ e ∈ es, K e.pt) :
    ∃ st', scanList P cfg.eval q ef filt es st = .ok (.go st') ∧ LInv P cfg q ef N ep st' filt := by
  cases filt with
  | none =>
    obtain ⟨exp, h⟩ := h
    obtain ⟨st', h1, h2⟩ := scanList_invN L (fun v hv => (hL v hv).1) hI h hs
    exact ⟨st', h1, exp, h2⟩
  | some φ =>
    obtain ⟨hef, exp, h⟩ := h
    obtain ⟨st', h1, h2⟩ := scanList_invF L hef (fun v hv => (hL v hv).1) hN hI h hs
    exact ⟨st', h1, hef, exp, h2⟩

/-- The distances from the query to the vectors of interest are legal, and `ef` is positive if there is
a filter. -/
def Fine (cfg : Cfg T) (D : List T → Prop) (q : List T) (ef : Nat) (filt : Option (DataId → Bool)) :
    Prop :=
  (∀ d, D d → (cfg.eval q d).Legal) ∧ (filt = none ∨ 1 ≤ ef)

/-- the panics a search may end with -/
def SErr (cfg : Cfg T) (D : List T → Prop) (q : List T) (ef : Nat) (filt : Option (DataId → Bool))
    (e : Panic) : Prop := e ≠ .fuel ∧ ¬ Fine cfg D q ef filt

/-- what the loop returns -/
structure SRes (P : Policy T) (cfg : Cfg T) (D : List T → Prop) (q : List T) (ef : Nat)
    (filt : Option (DataId → Bool)) (h : P.H) (s : CSt T) : Prop where
  res : ResA P cfg.eval q ef (Stored s.idx) h
  ne : Fine cfg D q ef filt → P.items h ≠ []
  acc : Fine cfg D q ef filt → ∀ φ, filt = some φ →
    (∀ x ∈ P.items h, φ x.pt.origin = true) ∨ P.len h = 1

theorem SRes.mono {h : P.H} {s s' : CSt T} (hr : SRes P cfg D q ef filt h s) (hm : Mono s s') :
    SRes P cfg D q ef filt h s' :=
  ⟨hr.res.mono hm.stored, hr.ne, hr.acc⟩

theorem EInvB.count {s : CSt T} (hi : EInvB B cfg N D s) (l : List (Ref T))
    (hl : ∀ v ∈ l, Stored s.idx v) (hn : (l.map (·.pid)).Nodup) : l.length ≤ N :=
  Nat.le_trans (hi.inv.okB.tab.count hl hn) hi.size

theorem searchLoopP_safe (L : P.Lawful) {ep : Ref T} : ∀ (n : Nat) (st : SL P) (s : CSt T),
    EInvB B cfg N D s → InvA P cfg.eval q ef (Stored s.idx) st →
    (Fine cfg D q ef filt → LInv P cfg q ef N ep st filt) →
    N + P.len st.cand + 1 ≤ n + st.vis.length →
    RSafe B cfg N D (SErr cfg D q ef filt) (SRes P cfg D q ef filt)
      (searchLoopP P cfg q ef layer filt n st) s := by
  intro n
  induction n with
  | zero =>
    intro st s hi hA _ hn
    have := hi.count st.vis hA.visK hA.visNd
    omega
  | succ n ih =>
    intro st s hi hA hN hn
    have hLeg : Fine cfg D q ef filt → ∀ s', EInvB B cfg N D s' → ∀ v, Stored s'.idx v →
        (cfg.eval q v.data).Legal := fun hl s' hi' v hv => hl.1 _ (hi'.data _ hv)
    have hh := head_invA (filt := filt) L hA
    simp only [searchLoopP]
    cases hhd : head P ef filt st with
    | done h =>
      rw [hhd] at hh
      have hret : Fine cfg D q ef filt → h = st.ret := by
        intro hl
        rcases head_legal (filt := filt) L hA (hLeg hl s hi) (hN hl).ne with
          ⟨-, h2⟩ | ⟨c', cand', f, h1, h2, h3⟩
        · rw [hhd] at h2; cases h2; rfl
        · rcases h3 with ⟨h3, -⟩ | h3
          · rw [hhd] at h3; cases h3; rfl
          · rw [hhd] at h3; cases h3
      intro s' hi' hr
      refine ⟨hh.mono hr.stored, ?_, ?_⟩
      · intro hl; rw [hret hl]; exact (hN hl).ne
      · intro hl φ hφ
        subst hφ
        rw [hret hl]
        exact (hN hl).acc
    | panic e =>
      refine ⟨head_err hhd, fun hl => ?_⟩
      rcases head_legal (filt := filt) L hA (hLeg hl s hi) (hN hl).ne with
        ⟨-, h2⟩ | ⟨c', cand', f, h1, h2, h3⟩
      · rw [hhd] at h2; cases h2
      · rcases h3 with ⟨h3, -⟩ | h3 <;> (rw [hhd] at h3; cases h3)
    | expand c st' =>
      rw [hhd] at hh
      simp only at hh ⊢
      apply RSafe.read
      intro s' hi' hr
      have hA' : InvA P cfg.eval q ef (Stored s'.idx) st' := hh.1.mono hr.stored
      have hs : ∀ e ∈ s'.idx.nb c.pid layer, Stored s'.idx e.pt :=
        fun e he => hi'.inv.okB.stored _ _ e he
      have hN' : Fine cfg D q ef filt → LInv P cfg q ef N ep st' filt :=
        fun hl => (hN hl).expand L hA (hLeg hl s hi) hhd
      have hscan : Fine cfg D q ef filt → ∃ st'', scanList P cfg.eval q ef filt
          (s'.idx.nb c.pid layer) st' = .ok (.go st'') ∧ LInv P cfg q ef N ep st'' filt :=
        fun hl => (hN' hl).scan L hA' (hLeg hl s' hi') hi'.count hs
      cases hsc : scanList P cfg.eval q ef filt (s'.idx.nb c.pid layer) st' with
      | error x =>
        refine ⟨by rw [scanList_err hsc]; simp, fun hl => ?_⟩
        obtain ⟨st'', h1, -⟩ := hscan hl
        rw [h1] at hsc; cases hsc
      | ok o =>
        cases o with
        | stop r' =>
          have := scanList_invA L hA' hs hsc
          have hno : ¬ Fine cfg D q ef filt := by
            intro hl
            obtain ⟨st'', h1, -⟩ := hscan hl
            rw [h1] at hsc; cases hsc
          intro s'' hi'' hr'
          exact ⟨resA_empty this, fun hl => absurd hl hno, fun hl => absurd hl hno⟩
        | go st'' =>
          have h3 := scanList_invA L hA' hs hsc
          simp only at h3 ⊢
          refine ih st'' s' hi' h3.1 ?_ ?_
          · intro hl
            obtain ⟨st3, h1, h2⟩ := hscan hl
            rw [h1] at hsc
            cases hsc
            exact h2
          · have h4 := hh.2.2.1
            rw [← h4] at hn
            have h5 := hh.2.2.2.1
            have h6 := h3.2.2.2
            omega

/-- the layer holds a point -/
def Filled (l : Nat) (s : CSt T) : Prop := ∃ v, Stored s.idx v ∧ v.pid.layer = l

theorem Filled.mono {l : Nat} {s s' : CSt T} (h : Filled l s) (hm : Mono s s') : Filled l s' := by
  obtain ⟨v, hv, hl⟩ := h
  exact ⟨v, hm.stored v hv, hl⟩

theorem searchLayerFP_safe (L : P.Lawful) {ep : Ref T} {fuel : Nat} {s : CSt T}
    (hfu : N + 1 ≤ fuel) (hly : Filled layer s) (hep : Stored s.idx ep) :
    RSafe B cfg N D (SErr cfg D q ef filt) (SRes P cfg D q ef filt)
      (searchLayerFP P cfg fuel q ep ef layer filt) s := by
  unfold searchLayerFP
  apply RSafe.read
  intro s' hi' hr
  obtain ⟨v, hv, hvl⟩ := hly.mono hr
  have hm := (mem_layer_iff hi'.inv.okB.tab).2 ⟨hv, hvl⟩
  unfold Idx.layer at hm
  cases hg : s'.idx.layers[layer]? with
  | none => rw [hg] at hm; simp at hm
  | some x =>
    cases x with
    | nil => rw [hg] at hm; simp at hm
    | cons a as =>
      simp only
      apply searchLoopP_safe (ep := ep) L fuel _ s' hi' (invA_init L (hr.stored _ hep))
      · intro hl; exact linv_init L hl.2
      · simp [slInit, Policy.len, L.items_push_empty]; omega

theorem descendP_safe {Fx : Panic → Prop} : ∀ (l : Nat) (s : CSt T) (a : Ref T),
    Stored s.idx a →
    RSafe B cfg N D Fx (fun x s => Stored s.idx x.1) (descendP cfg q l (a, cfg.eval q a.data)) s := by
  intro l
  induction l with
  | zero => intro s a ha s' hi hm; exact hm.stored _ ha
  | succ l ih =>
    intro s a ha
    simp only [descendP]
    apply RSafe.read
    intro s' hi hm
    have hsp := scanPivot_spec cfg.eval q (s'.idx.nb a.pid (l + 1)) a
    generalize scanPivot cfg.eval q (s'.idx.nb a.pid (l + 1)) (a, cfg.eval q a.data) = x at hsp
    obtain ⟨b, d⟩ := x
    simp only at hsp
    rw [hsp.1]
    apply ih
    rcases List.mem_cons.1 hsp.2 with h | h
    · rw [h]; exact hm.stored _ ha
    · obtain ⟨e, he, h⟩ := List.mem_map.1 h
      rw [← h]
      exact hi.inv.okB.stored _ _ e he

theorem lowestP_safe {Fx : Panic → Prop} {lv : Nat} : ∀ (n l : Nat) (s : CSt T), Filled lv s →
    l ≤ lv → lv < l + n → RSafe B cfg N D Fx (fun l s => Filled l s) (lowestP n l) s := by
  intro n
  induction n with
  | zero => intro l s _ h1 h2; omega
  | succ n ih =>
    intro l s hf h1 h2
    simp only [lowestP]
    apply RSafe.read
    intro s' hi hm
    obtain ⟨v, hv, hvl⟩ := hf.mono hm
    have hlt : lv < s'.idx.layers.length := by
      have := (mem_layer_iff hi.inv.okB.tab).2 ⟨hv, hvl⟩
      unfold Idx.layer at this
      cases hg : s'.idx.layers[lv]? with
      | none => rw [hg] at this; simp at this
      | some x => exact (List.getElem?_eq_some_iff.1 hg).1
    rw [if_pos (by omega)]
    apply RSafe.read
    intro s'' hi'' hm''
    by_cases hp : 0 < (s''.idx.layer l).length
    · rw [if_pos hp]
      obtain ⟨x, hx⟩ := List.exists_mem_of_length_pos hp
      intro s3 _ hm3
      have := (mem_layer_iff hi''.inv.okB.tab).1 hx
      exact (Filled.mono ⟨x, this.1, this.2⟩ hm3)
    · rw [if_neg hp]
      have hf2 : Filled lv s'' := Filled.mono ⟨v, hv, hvl⟩ hm''
      refine ih (l + 1) s'' hf2 ?_ (by omega)
      obtain ⟨w, hw, hwl⟩ := hf2
      have := (mem_layer_iff hi''.inv.okB.tab).2 ⟨hw, hwl⟩
      rcases Nat.lt_or_ge l lv with h | h
      · exact h
      · exfalso
        have : l = lv := by omega
        subst this
        have := List.length_pos_of_mem ‹w ∈ s''.idx.layer l›
        omega

/-- what a search answers, the state being the one at the time it returns or any later one -/
structure Answers (cfg : Cfg T) (D : List T → Prop) (r : Req T) (ns : List Neighbour) (s : CSt T) :
    Prop where
  sorted : (∀ v, Stored s.idx v → (cfg.eval r.query v.data).isNaN = false) → SortedAnswers ns
  len : ns.length ≤ r.knbn
  stored : ∀ n ∈ ns, ∃ p, Stored s.idx p ∧ n = answer cfg.eval r.query p
  nodup : (ns.map (·.pId)).Nodup
  legal : (∀ v, Stored s.idx v → (cfg.eval r.query v.data).isNaN = false) →
    ∀ n ∈ ns, n.distance.Legal
  acc : Fine cfg D r.query (max r.ef r.knbn) r.filt → ∀ φ, r.filt = some φ →
    (∀ n ∈ ns, φ n.dId = true) ∨ ns.length ≤ 1

theorem Answers.nil {r : Req T} {s : CSt T} : Answers cfg D r [] s := by
  constructor <;> simp [SortedAnswers]

theorem SRes.answers (L : P.Lawful) {r : Req T} {h : P.H} {s : CSt T} {v : List (PWO T)}
    (hr : SRes P cfg D r.query (max r.ef r.knbn) r.filt h s) (hv : P.intoSortedC h = .ok v) :
    Answers cfg D r ((v.take (min r.knbn (min (max r.ef r.knbn) v.length))).map PWO.toNeighbour) s ∧
    (Fine cfg D r.query (max r.ef r.knbn) r.filt → 1 ≤ r.knbn →
      (v.take (min r.knbn (min (max r.ef r.knbn) v.length))).map PWO.toNeighbour ≠ []) := by
  have hv := Policy.intoSortedC_ok hv
  subst hv
  have hp := L.intoSorted_perm h
  have hso := fun hN => L.intoSorted_sorted h (hr.res.built hN)
  have hsub : ((P.intoSorted h).take
      (min r.knbn (min (max r.ef r.knbn) (P.intoSorted h).length))).Sublist (P.intoSorted h) :=
    List.take_sublist _ _
  have hlen := List.length_take (l := P.intoSorted h)
    (i := min r.knbn (min (max r.ef r.knbn) (P.intoSorted h).length))
  generalize (P.intoSorted h).take
      (min r.knbn (min (max r.ef r.knbn) (P.intoSorted h).length)) = w at hsub hlen
  have hmem : ∀ x ∈ w, x ∈ P.items h := fun x hx => hp.mem_iff.1 (hsub.subset hx)
  refine ⟨⟨?_, ?_, ?_, ?_, ?_, ?_⟩, ?_⟩
  · intro hN
    unfold SortedAnswers
    rw [List.pairwise_map]
    exact (hso hN).sublist hsub
  · rw [List.length_map]; omega
  · intro n hn
    obtain ⟨x, hx, rfl⟩ := List.mem_map.1 hn
    exact ⟨x.pt, hr.res.inK x (hmem x hx), toNeighbour_answer (hr.res.dist x (hmem x hx))⟩
  · rw [List.map_map]
    exact ((hp.map _).nodup_iff.2 hr.res.nd).sublist (hsub.map _)
  · intro hN n hn
    obtain ⟨x, hx, rfl⟩ := List.mem_map.1 hn
    exact hr.res.legal hN x (hmem x hx)
  · intro hf φ hφ
    rcases hr.acc hf φ hφ with h1 | h1
    · left
      intro n hn
      obtain ⟨x, hx, rfl⟩ := List.mem_map.1 hn
      exact h1 x (hmem x hx)
    · right
      rw [List.length_map]
      have := hsub.length_le
      rw [hp.length_eq] at this
      unfold Policy.len at h1
      omega
  · intro hf hk h0
    have h1 : 0 < (P.items h).length := List.length_pos_iff.2 (hr.ne hf)
    have h2 : w.length = 0 := by simpa using congrArg List.length h0
    rw [← hp.length_eq] at h1
    omega

theorem searchP_safe (L : P.Lawful) (hml : cfg.maxLayer ≤ 256) {fuel : Nat} (hfu : N + 1 ≤ fuel)
    (r : Req T) (s : CSt T) :
    RSafe B cfg N D (SErr cfg D r.query (max r.ef r.knbn) r.filt) (fun ns s' => Answers cfg D r ns s' ∧
        (s.idx.entry ≠ none → Fine cfg D r.query (max r.ef r.knbn) r.filt → 1 ≤ r.knbn → ns ≠ []))
      (Req.prog P cfg fuel r) s := by
  unfold Req.prog searchP
  apply RSafe.read
  intro s' hi hm
  cases he : s'.idx.entry with
  | none =>
    intro s'' _ _
    exact ⟨Answers.nil, fun h => absurd he (hm.entry h)⟩
  | some ep =>
    simp only
    have hst := hi.inv.okB.entry _ he
    have hlt : ep.pid.layer < cfg.maxLayer := by
      have := (mem_layer_iff hi.inv.okB.tab).2 ⟨hst, rfl⟩
      unfold Idx.layer at this
      cases hg : s'.idx.layers[ep.pid.layer]? with
      | none => rw [hg] at this; simp at this
      | some x => rw [← hi.inv.okB.tab.len]; exact (List.getElem?_eq_some_iff.1 hg).1
    refine RSafe.bind (s0 := s') ?_ hi (Mono.refl _) (descendP_safe _ _ _ hst)
    intro x s1 hi1 hm1 hx
    refine RSafe.bind (s0 := s1) ?_ hi1 (Mono.refl _) (lowestP_safe (lv := ep.pid.layer) 256 0 s1
      (Filled.mono ⟨ep, hst, rfl⟩ hm1) (by omega) (by omega))
    intro l s2 hi2 hm2 hl
    refine RSafe.bind (s0 := s2) ?_ hi2 (Mono.refl _)
      (searchLayerFP_safe L hfu hl (hm2.stored _ hx))
    intro h s3 hi3 hm3 hR
    cases hv : P.intoSortedC h with
    | error e =>
      refine ⟨by rw [Policy.intoSortedC_err hv]; simp, fun hf => ?_⟩
      have := L.intoSortedC_built (hR.res.built fun v hv => (hf.1 _ (hi3.data v hv)).1)
      rw [hv] at this
      cases this
    | ok v =>
      intro s4 hi4 hm4
      have := (hR.mono hm4).answers L hv
      exact ⟨this.1, fun _ => this.2⟩

/-! ## Mixed executions -/

theorem sysInv_mono {fuel : Nat} {W : Nat → Prop} {s0 : CSt T} {jobs : List (Job T)}
    {c c' : CSt T × List (Prog (CSt T) Unit)} (hs : Step c c') {ph : List (Phase T)}
    (h : SysInvB B P cfg fuel N D W s0 jobs c.1 c.2 ph) : Mono c.1 c'.1 := by
  cases hs with
  | mk i hi g u k hact hg =>
  rename_i s ts
  simp only at h ⊢
  have hti : ts[i]? = some (.act g u k) := by rw [List.getElem?_eq_getElem hi, hact]
  have hilt : i < jobs.length := h.tlen ▸ hi
  have hji : jobs[i]? = some jobs[i] := List.getElem?_eq_getElem hilt
  have hplt : i < ph.length := by rw [h.len]; exact hilt
  have hpi : ph[i]? = some ph[i] := List.getElem?_eq_getElem hplt
  generalize jobs[i] = j at hji
  generalize ph[i] = a at hpi
  have hT := h.thr i j a _ hji hpi hti
  cases a with
  | idle =>
    obtain ⟨hprog, -, hlev, -⟩ := hT
    unfold Job.prog insertP at hprog
    cases hprog
    have hlt : j.level < s.idx.layers.length := by rw [h.env.inv.okB.tab.len]; exact hlev
    exact ⟨fun v hv => (stored_addPoint (j.data, j.id) j.level s.idx hlt v).2 (Or.inl hv), fun h => h⟩
  | added r =>
    obtain ⟨hprog, -⟩ := hT
    unfold countP at hprog
    cases hprog
    exact ⟨fun _ h => h, fun h => h⟩
  | running r rk =>
    obtain ⟨hsafe, -⟩ := hT
    obtain ⟨hG, -⟩ := (hsafe s h.env (Rel.refl _ _ _)).2 hg
    refine ⟨fun v hv => ?_, fun he => ?_⟩
    · unfold Stored Idx.points at hv ⊢
      rw [hG.layers]; exact hv
    · cases he1 : s.idx.entry with
      | none => exact absurd he1 he
      | some e =>
        obtain ⟨e2, he2, -⟩ := (hG.others ⟨r.pid.layer + 1, r.pid.rank⟩ (by
          intro hh
          have := congrArg PointId.layer hh
          simp at this)).entry e he1
        rw [he2]; simp

/-- state of the search threads in a mixed execution -/
def SrchOK (B : Base T) (cfg : Cfg T) (N : Nat) (D : List T → Prop) (c0 : CSt T)
    (reqs : List (Req T)) (us : List (Prog (CSt T) (List Neighbour))) (s : CSt T) : Prop :=
  us.length = reqs.length ∧
  ∀ (i : Nat) (r : Req T) (u : Prog (CSt T) (List Neighbour)), reqs[i]? = some r → us[i]? = some u →
    ReadOnly u ∧ RSafe B cfg N D (SErr cfg D r.query (max r.ef r.knbn) r.filt)
      (fun ns s' => Answers cfg D r ns s' ∧ (c0.idx.entry ≠ none →
        Fine cfg D r.query (max r.ef r.knbn) r.filt → 1 ≤ r.knbn → ns ≠ [])) u s

theorem MExec.invB (L : P.Lawful) (hml : cfg.maxLayer ≤ 256) {c0 : CSt T} (h : GoodCB B cfg c0) (hB : B.Owned c0.idx)
    {jobs : List (Job T)} {reqs : List (Req T)}
    (hl : ∀ j ∈ jobs, j.level < cfg.maxLayer) {m : Mixed T} (he : MExec P cfg c0 jobs reqs m)
    (D : List T → Prop) (hD : ∀ v, Stored c0.idx v → D v.data) (hDj : ∀ j ∈ jobs, D j.data) :
    (∃ ph, SysInvB B P cfg (c0.idx.points.length + jobs.length + 2)
      (c0.idx.points.length + jobs.length) D (fun l => ∃ j ∈ jobs, j.level = l) c0 jobs m.st m.ins ph) ∧
    SrchOK B cfg (c0.idx.points.length + jobs.length) D c0 reqs m.srch m.st := by
  unfold MExec at he
  generalize hm0 : (⟨c0, jobs.map (Job.prog P cfg (c0.idx.points.length + jobs.length + 2)),
    reqs.map (Req.prog P cfg (c0.idx.points.length + jobs.length + 2))⟩ : Mixed T) = m0 at he
  induction he with
  | refl =>
    subst hm0
    refine ⟨⟨_, sysInv_init h.inv h.held hl (fun j hj => ⟨j, hj, rfl⟩) hD hDj (Nat.le_refl _)⟩,
      by simp, ?_⟩
    intro i r u hr hu
    simp only [List.getElem?_map, hr, Option.map_some, Option.some.injEq] at hu
    subst hu
    exact ⟨searchP_ro _ _ _ _ _ _ _, searchP_safe L hml (by omega) r c0⟩
  | step _ hs ih =>
    obtain ⟨⟨ph, hS⟩, hlen, hU⟩ := ih
    cases hs with
    | ins h =>
      refine ⟨sysInv_step L (by omega) hB h hS, hlen, ?_⟩
      intro i r u hr hu
      obtain ⟨h1, h2⟩ := hU i r u hr hu
      exact ⟨h1, h2.mono_state (sysInv_mono h hS)⟩
    | srch h =>
      cases h with
      | mk i hi g u k hact hg =>
      rename_i s ts us _
      simp only at hS hU hlen ⊢
      have hi' : i < reqs.length := hlen ▸ hi
      obtain ⟨h1, h2⟩ := hU i _ _ (List.getElem?_eq_getElem hi') (List.getElem?_eq_getElem hi)
      rw [hact] at h1 h2
      have hus : u s = s := (h1.1 s).2
      rw [hus]
      refine ⟨⟨ph, hS⟩, by simpa using hlen, ?_⟩
      intro i' r u' hr hu'
      rcases getElem?_set_cases hu' with ⟨rfl, rfl, -⟩ | ⟨hne, hu'⟩
      · rw [List.getElem?_eq_getElem hi'] at hr
        cases hr
        exact ⟨h1.2 s, h2 s hS.env (Mono.refl _)⟩
      · exact hU i' r u' hr hu'

theorem MExec.inv (L : P.Lawful) (hml : cfg.maxLayer ≤ 256) {c0 : CSt T} (h : GoodC cfg c0)
    {jobs : List (Job T)} {reqs : List (Req T)}
    (hl : ∀ j ∈ jobs, j.level < cfg.maxLayer) {m : Mixed T} (he : MExec P cfg c0 jobs reqs m)
    (D : List T → Prop) (hD : ∀ v, Stored c0.idx v → D v.data) (hDj : ∀ j ∈ jobs, D j.data) :
    (∃ ph, SysInv P cfg (c0.idx.points.length + jobs.length + 2)
      (c0.idx.points.length + jobs.length) D (fun l => ∃ j ∈ jobs, j.level = l) c0 jobs m.st m.ins ph) ∧
    SrchOK Base.none cfg (c0.idx.points.length + jobs.length) D c0 reqs m.srch m.st :=
  MExec.invB L hml h (Base.owned_none _) hl he D hD hDj

/-! ## The program of a search, run alone, is the function `searchFilter` -/

theorem prog_run_bind {σ α β : Type} (t : Prog σ α) (f : α → Prog σ β) : ∀ s : σ,
    (t.bind f).run s = match t.run s with
      | .ok a s' => (f a).run s'
      | .panic e s' => .panic e s'
      | .blocked s' => .blocked s' := by
  induction t with
  | ret a => intro s; rfl
  | fail e => intro s; rfl
  | act g u k ih =>
    intro s
    simp only [Prog.bind, Prog.run]
    split
    · exact ih s (u s)
    · rfl

/-- outcome of a computation that does not touch the state -/
def outcome {σ α : Type} (s : σ) : Except Panic α → Outcome σ α
  | .ok a => .ok a s
  | .error e => .panic e s

theorem run_read {σ α : Type} (k : σ → Prog σ α) (s : σ) : (Prog.read k).run s = (k s).run s := rfl

theorem searchLoopP_run (c : CSt T) : ∀ (n : Nat) (st : SL P),
    (searchLoopP P cfg q ef layer filt n st).run c =
      outcome c (slLoop P cfg.eval q ef filt (fun p => c.idx.nb p layer) n st) := by
  intro n
  induction n with
  | zero => intro st; rfl
  | succ n ih =>
    intro st
    simp only [searchLoopP, slLoop]
    cases head P ef filt st with
    | done r => rfl
    | panic e => rfl
    | expand x st' =>
      simp only [run_read]
      cases scanList P cfg.eval q ef filt (c.idx.nb x.pid layer) st' with
      | error e => rfl
      | ok o =>
        cases o with
        | stop r => rfl
        | go st'' => exact ih st''

theorem descendP_run (c : CSt T) : ∀ (l : Nat) (x : Ref T × F32),
    (descendP cfg q l x).run c = .ok (descend cfg.eval q c.idx l x) c := by
  intro l
  induction l with
  | zero => intro x; rfl
  | succ l ih => intro x; simp only [descendP, run_read, descend]; exact ih _

theorem lowestP_run (c : CSt T) : ∀ (n l : Nat), c.idx.layers.length ≤ l + n →
    (lowestP n l).run c = match (c.idx.layers.drop l).findIdx? (fun l => !l.isEmpty) with
      | some k => .ok (l + k) c
      | none => .panic .overflow c := by
  intro n
  induction n with
  | zero =>
    intro l h
    rw [List.drop_eq_nil_of_le (by omega)]
    rfl
  | succ n ih =>
    intro l h
    simp only [lowestP, run_read]
    by_cases hl : l < c.idx.layers.length
    · rw [if_pos hl, run_read, List.drop_eq_getElem_cons hl, List.findIdx?_cons]
      have hly : c.idx.layer l = c.idx.layers[l] := by
        simp [Idx.layer, List.getElem?_eq_getElem hl]
      rw [hly]
      cases hx : c.idx.layers[l] with
      | nil =>
        simp only [List.length_nil, Nat.lt_irrefl, if_false, List.isEmpty_nil, Bool.not_true,
          Bool.false_eq_true]
        rw [ih (l + 1) (by omega)]
        cases (c.idx.layers.drop (l + 1)).findIdx? (fun l => !l.isEmpty) with
        | none => rfl
        | some k => simp only [Option.map_some]; congr 1; omega
      | cons a as => simp [Prog.run]
    · rw [if_neg hl, ih (l + 1) (by omega), List.drop_eq_nil_of_le (by omega),
        List.drop_eq_nil_of_le (by omega)]
      rfl

theorem searchP_run (c : CSt T) (hly : c.idx.layers.length ≤ 256) (q : List T) (knbn efArg : Nat)
    (filt : Option (DataId → Bool)) :
    (searchP P cfg (c.idx.points.length + 2) q knbn efArg filt).run c =
      outcome c (searchFilter P cfg c.idx q knbn efArg filt) := by
  unfold searchP searchFilter
  rw [run_read]
  cases c.idx.entry with
  | none => rfl
  | some ep =>
    simp only
    rw [prog_run_bind, descendP_run]
    simp only
    rw [prog_run_bind, lowestP_run c 256 0 (by omega)]
    simp only [List.drop_zero, lowestLayer]
    cases c.idx.layers.findIdx? (fun l => !l.isEmpty) with
    | none => rfl
    | some l =>
      simp only [Nat.zero_add]
      rw [prog_run_bind]
      unfold searchLayerFP searchLayer
      rw [run_read]
      cases c.idx.layers[l]? with
      | none => rfl
      | some x =>
        cases x with
        | nil =>
          simp only [Prog.run]
          cases P.intoSortedC P.empty <;> rfl
        | cons a as =>
          simp only [searchLoopP_run]
          cases slLoop P cfg.eval q (max efArg knbn) filt (fun p => c.idx.nb p l)
            (c.idx.points.length + 2)
            (slInit P cfg.eval q (descend cfg.eval q c.idx ep.pid.layer (ep, cfg.eval q ep.data)).1) with
          | error e => rfl
          | ok h =>
            simp only [outcome]
            cases P.intoSortedC h <;> rfl

/-- searches alone: the state does not change and what remains to be done by each thread gives what
it would have given at the start -/
theorem MSteps.quiet {m m' : Mixed T} (h : MSteps m m') (hro : ∀ u ∈ m.srch, ReadOnly u)
    (hf : ∀ t ∈ m.ins, t.Finished) :
    m'.st = m.st ∧ m'.ins = m.ins ∧ (∀ u ∈ m'.srch, ReadOnly u) ∧ 
    m'.srch.map (fun u => u.run m.st) = m.srch.map (fun u => u.run m.st) := by
  induction h with
  | refl => exact ⟨rfl, rfl, hro, rfl⟩
  | step _ hs ih =>
    obtain ⟨h1, h2, h3, h4⟩ := ih
    cases hs with
    | ins h =>
      cases h with
      | mk i hi g u k hact hg =>
        simp only at h2
        have hm := List.getElem_mem hi
        rw [hact, h2] at hm
        have := hf _ hm
        exact this.elim
    | srch h =>
      cases h with
      | mk i hi g u k hact hg =>
        have hr := h3 _ (List.getElem_mem hi)
        rw [hact] at hr
        simp only at h1 h2 h4 ⊢
        rw [(hr.1 _).2]
        refine ⟨h1, h2, ?_, ?_⟩
        · intro v hv
          rcases mem_of_set hv with rfl | hv
          · exact hr.2 _
          · exact h3 v hv
        · rw [← h4, List.map_set]
          apply List.ext_getElem?
          intro j
          by_cases hj : i = j
          · subst hj
            rw [List.getElem?_set_self (by simpa using hi)]
            simp only [List.getElem?_map, List.getElem?_eq_getElem hi, Option.map_some, hact, Prog.run]
            rw [h1, (hr.1 _).1, (hr.1 _).2]
            rfl
          · rw [List.getElem?_set_ne hj]

end Verif
