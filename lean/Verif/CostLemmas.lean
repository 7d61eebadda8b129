import Verif.Cost
import Verif.SearchTop

set_option autoImplicit false

/-!
# Lemmas on the work of a search
-/

namespace Verif
variable {T : Type} {P : Policy T} {eval : List T → List T → F32} {q : List T} {ef : Nat}
  {filt : Option (DataId → Bool)}

@[simp] theorem Work.of_res {α : Type} (x : Except Panic α) : (Work.of (T := T) x).res = x := rfl
@[simp] theorem Work.of_log {α : Type} (x : Except Panic α) : (Work.of (T := T) x).log = [] := rfl

theorem Work.bind_res {α β : Type} (x : Work T α) (f : α → Work T β) :
    (x.bind f).res = match x.res with | .ok a => (f a).res | .error e => .error e := by
  unfold Work.bind
  cases x.res <;> rfl

theorem Work.bind_log {α β : Type} (x : Work T α) (f : α → Work T β) :
    (x.bind f).log = x.log ++ match x.res with | .ok a => (f a).log | .error _ => [] := by
  unfold Work.bind
  cases x.res <;> simp

theorem dists_append (a b : List (Use T)) : dists (a ++ b) = dists a ++ dists b := by
  induction a with
  | nil => rfl
  | cons u a ih => cases u <;> simp [dists, ih]

theorem reads_append (a b : List (Use T)) : reads (a ++ b) = reads a ++ reads b := by
  induction a with
  | nil => rfl
  | cons u a ih => cases u <;> simp [reads, ih]

theorem accepts_append (a b : List (Use T)) : accepts (a ++ b) = accepts a ++ accepts b := by
  induction a with
  | nil => rfl
  | cons u a ih => cases u <;> simp [accepts, ih]

/-! ## The results -/

theorem clearW_res (φ : DataId → Bool) (r : P.H) :
    (clearW P φ r).res = .ok (if P.len r = 1 then
          match P.peek r with
          | some x => if φ x.pt.origin then r else P.empty
          | none => r
        else r) := by
  unfold clearW
  split
  · cases P.peek r with
    | some x => simp [Work.bind_res, acceptW]
    | none => rfl
  · rfl

theorem pushRetW_res (r : P.H) (e : PWO T) : (pushRetW P filt r e).res = pushRet P filt r e := by
  unfold pushRetW pushRet
  split
  · rfl
  · rename_i φ
    simp only [Work.bind_res, acceptW]
    cases φ e.pt.origin
    · rfl
    · simp only [if_true, Work.bind_res, clearW_res, Work.of_res]
      rfl

theorem scanEW_res (e : Ref T) (st : SL P) :
    (scanEW P eval q ef filt e st).res = scanE P eval q ef filt e st := by
  unfold scanEW scanE
  split
  · rfl
  · cases P.peek st.ret with
    | none => rfl
    | some f =>
      simp only [Work.bind_res, evalW]
      split
      · simp only [Work.bind_res, Work.of_res, pushRetW_res]
        cases P.pushC st.cand ⟨e, (eval q e.data).neg⟩ with
        | error x => rfl
        | ok cand' => cases pushRet P filt st.ret ⟨e, eval q e.data⟩ <;> rfl
      · rfl

theorem scanListW_res : ∀ (es : List (PWO T)) (st : SL P),
    (scanListW P eval q ef filt es st).res = scanList P eval q ef filt es st
  | [], _ => rfl
  | e :: es, st => by
    unfold scanListW scanList
    rw [Work.bind_res, scanEW_res]
    cases scanE P eval q ef filt e.pt st with
    | error x => rfl
    | ok o =>
      cases o with
      | stop r => rfl
      | go st' => exact scanListW_res es st'

theorem slLoopW_res (s : Idx T) (layer : Nat) : ∀ (n : Nat) (st : SL P),
    (slLoopW P eval q ef filt s layer n st).res = slLoop P eval q ef filt (fun p => s.nb p layer) n st
  | 0, _ => rfl
  | n + 1, st => by
    unfold slLoopW slLoop
    cases head P ef filt st with
    | done r => rfl
    | panic e => rfl
    | expand c st' =>
      simp only [Work.bind_res, readW, scanListW_res]
      cases scanList P eval q ef filt (s.nb c.pid layer) st' with
      | error x => rfl
      | ok o =>
        cases o with
        | stop r => rfl
        | go st'' => exact slLoopW_res s layer n st''

theorem searchLayerW_res (s : Idx T) (ep : Ref T) (layer : Nat) :
    (searchLayerW P eval q ef filt s ep layer).res = searchLayer P eval q ef filt s ep layer := by
  unfold searchLayerW searchLayer
  cases s.layers[layer]? with
  | none => rfl
  | some ps =>
    cases ps with
    | nil => rfl
    | cons a as =>
      simp only [Work.bind_res, evalW, slLoopW_res]
      rfl

theorem scanPivotW_res : ∀ (ns : List (PWO T)) (x : Ref T × F32),
    (scanPivotW eval q ns x).res = .ok (scanPivot eval q ns x)
  | [], _ => rfl
  | n :: ns, x => by
    unfold scanPivotW scanPivot
    simp only [Work.bind_res, evalW]
    exact scanPivotW_res ns _

theorem descendW_res (s : Idx T) : ∀ (l : Nat) (x : Ref T × F32),
    (descendW eval q s l x).res = .ok (descend eval q s l x)
  | 0, _ => rfl
  | l + 1, x => by
    unfold descendW descend
    simp only [Work.bind_res, readW, scanPivotW_res]
    exact descendW_res s l _

theorem searchFilterW_res (cfg : Cfg T) (s : Idx T) (knbn efArg : Nat) :
    (searchFilterW P cfg s q knbn efArg filt).res = searchFilter P cfg s q knbn efArg filt := by
  unfold searchFilterW searchFilter
  cases s.entry with
  | none => rfl
  | some ep =>
    simp only [Work.bind_res, evalW, descendW_res, bottomW]
    cases lowestLayer s with
    | none => rfl
    | some l =>
      simp only [Work.bind_res, searchLayerW_res, Work.of_res]
      cases searchLayer P cfg.eval q (max efArg knbn) filt s
        (descend cfg.eval q s ep.pid.layer (ep, cfg.eval q ep.data)).1 l with
      | error e => rfl
      | ok h =>
        simp only
        cases P.intoSortedC h <;> rfl

/-! ## The uses -/

theorem clearW_log (φ : DataId → Bool) (r : P.H) :
    dists (clearW P φ r).log = [] ∧ reads (clearW P φ r).log = [] ∧ (accepts (clearW P φ r).log).length ≤ 1 := by
  unfold clearW
  split
  · split
    · simp [Work.bind_log, acceptW, dists, reads, accepts]
    · simp [dists, reads, accepts]
  · simp [dists, reads, accepts]

theorem pushRetW_log (r : P.H) (e : PWO T) :
    dists (pushRetW P filt r e).log = [] ∧ reads (pushRetW P filt r e).log = [] ∧
      (accepts (pushRetW P filt r e).log).length ≤ (if filt.isSome then 2 else 0) := by
  unfold pushRetW
  split
  · simp [dists, reads, accepts]
  · rename_i φ
    rw [Work.bind_log]
    simp only [acceptW]
    cases φ e.pt.origin
    · simp [dists, reads, accepts]
    · have := clearW_log (P := P) φ r
      simp only [if_true, Work.bind_log, clearW_res, Work.of_log, List.append_nil]
      simp only [List.cons_append, List.nil_append, dists, reads, accepts, List.length_cons]
      refine ⟨this.1, this.2.1, ?_⟩
      simp
      omega

/-- the uses in the treatment of a neighbour -/
theorem scanEW_log (e : Ref T) (st : SL P) :
    reads (scanEW P eval q ef filt e st).log = [] ∧
    (accepts (scanEW P eval q ef filt e st).log).length ≤
      (if filt.isSome then 2 else 0) * (dists (scanEW P eval q ef filt e st).log).length ∧
    (dists (scanEW P eval q ef filt e st).log = [] ∨
      dists (scanEW P eval q ef filt e st).log = [e] ∧ e.pid ∉ st.vis.map (·.pid)) ∧
    ∀ st', scanE P eval q ef filt e st = .ok (.go st') →
      st'.vis = dists (scanEW P eval q ef filt e st).log ++ st.vis := by
  unfold scanEW scanE
  split
  · refine ⟨rfl, by simp [dists, accepts], .inl rfl, ?_⟩
    intro st' h
    cases h
    rfl
  · rename_i hv
    cases P.peek st.ret with
    | none =>
      refine ⟨rfl, by simp [dists, accepts], .inl rfl, ?_⟩
      intro st' h
      cases h
    | some f =>
      simp only [Work.bind_log, evalW]
      split
      · have hp := pushRetW_log (P := P) (filt := filt) st.ret ⟨e, eval q e.data⟩
        simp only [Work.bind_log, Work.of_res, Work.of_log, List.nil_append, pushRetW_res]
        cases P.pushC st.cand ⟨e, (eval q e.data).neg⟩ with
        | error x =>
          refine ⟨rfl, by simp [dists, accepts], .inr ⟨by simp [dists], hv⟩, ?_⟩
          intro st' h
          cases h
        | ok cand' =>
          cases hr : pushRet P filt st.ret ⟨e, eval q e.data⟩ with
          | error x =>
            simp only [List.cons_append, List.nil_append, List.append_nil, dists, reads, accepts, hp.1]
            refine ⟨hp.2.1, by simpa using hp.2.2, .inr ⟨by simp, hv⟩, ?_⟩
            intro st' h
            cases h
          | ok ret' =>
            simp only [List.cons_append, List.nil_append, List.append_nil, dists, reads, accepts, hp.1]
            refine ⟨hp.2.1, by simpa using hp.2.2, .inr ⟨by simp, hv⟩, ?_⟩
            intro st' h
            cases h
            rfl
      · refine ⟨rfl, by simp [dists, accepts], .inr ⟨by simp [dists], hv⟩, ?_⟩
        intro st' h
        cases h
        rfl

/-- the uses in the scan of a list -/
theorem scanListW_log : ∀ (es : List (PWO T)) (st : SL P), (st.vis.map (·.pid)).Nodup →
    reads (scanListW P eval q ef filt es st).log = [] ∧
    (accepts (scanListW P eval q ef filt es st).log).length ≤
      (if filt.isSome then 2 else 0) * (dists (scanListW P eval q ef filt es st).log).length ∧
    (∀ p ∈ dists (scanListW P eval q ef filt es st).log, ∃ e ∈ es, e.pt = p) ∧
    (((dists (scanListW P eval q ef filt es st).log).reverse ++ st.vis).map (·.pid)).Nodup ∧
    ∀ st', scanList P eval q ef filt es st = .ok (.go st') →
      st'.vis = (dists (scanListW P eval q ef filt es st).log).reverse ++ st.vis
  | [], st, hn => by
    refine ⟨rfl, by simp [scanListW, accepts], by simp [scanListW, dists], by simpa [scanListW, dists], ?_⟩
    intro st' h
    simp only [scanList] at h
    cases h
    rfl
  | e :: es, st, hn => by
    obtain ⟨h1, h2, h3, h4⟩ := scanEW_log (P := P) (eval := eval) (q := q) (ef := ef) (filt := filt) e.pt st
    unfold scanListW scanList
    rw [Work.bind_log, scanEW_res]
    have hn' : (((dists (scanEW P eval q ef filt e.pt st).log).reverse ++ st.vis).map (·.pid)).Nodup := by
      rcases h3 with h3 | ⟨h3, hv⟩
      · rw [h3]; exact hn
      · rw [h3]; exact List.nodup_cons.2 ⟨hv, hn⟩
    have hin : ∀ p ∈ dists (scanEW P eval q ef filt e.pt st).log, ∃ e' ∈ e :: es, e'.pt = p := by
      intro p hp
      rcases h3 with h3 | ⟨h3, -⟩
      · rw [h3] at hp; cases hp
      · rw [h3] at hp
        rw [List.mem_singleton.1 hp]
        exact ⟨e, by simp, rfl⟩
    have stop : ∀ {x : List (Use T)}, x = [] →
        reads ((scanEW P eval q ef filt e.pt st).log ++ x) = [] ∧
        (accepts ((scanEW P eval q ef filt e.pt st).log ++ x)).length ≤
          (if filt.isSome then 2 else 0) * (dists ((scanEW P eval q ef filt e.pt st).log ++ x)).length ∧
        (∀ p ∈ dists ((scanEW P eval q ef filt e.pt st).log ++ x), ∃ e' ∈ e :: es, e'.pt = p) ∧
        (((dists ((scanEW P eval q ef filt e.pt st).log ++ x)).reverse ++ st.vis).map (·.pid)).Nodup := by
      intro x hx
      subst hx
      rw [List.append_nil]
      exact ⟨h1, h2, hin, hn'⟩
    cases hs : scanE P eval q ef filt e.pt st with
    | error x =>
      obtain ⟨a, b, c, d⟩ := stop (x := []) rfl
      exact ⟨a, b, c, d, fun st' h => by cases h⟩
    | ok o =>
      cases o with
      | stop r =>
        obtain ⟨a, b, c, d⟩ := stop (x := []) rfl
        exact ⟨a, b, c, d, fun st' h => by cases h⟩
      | go st1 =>
        have hv := h4 st1 hs
        have hv' : st1.vis = (dists (scanEW P eval q ef filt e.pt st).log).reverse ++ st.vis := by
          rw [hv]
          rcases h3 with h3 | ⟨h3, -⟩ <;> rw [h3] <;> rfl
        obtain ⟨a, b, c, d, f⟩ := scanListW_log es st1 (by rw [hv']; exact hn')
        simp only [reads_append, accepts_append, dists_append, List.length_append, List.reverse_append,
          List.append_assoc, ← hv', h1, a]
        refine ⟨rfl, ?_, ?_, d, f⟩
        · rw [Nat.mul_add]; omega
        · intro p hp
          rcases List.mem_append.1 hp with hp | hp
          · exact hin p hp
          · obtain ⟨e', he, hp⟩ := c p hp
            exact ⟨e', List.mem_cons_of_mem _ he, hp⟩

/-- the uses in the loop -/
theorem slLoopW_log (L : P.Lawful) {K : Ref T → Prop} {s : Idx T} {layer : Nat}
    (hg : ∀ c, K c → ∀ e ∈ s.nb c.pid layer, K e.pt) :
    ∀ (n : Nat) (st : SL P), InvA P eval q ef K st →
    (reads (slLoopW P eval q ef filt s layer n st).log).length ≤
      P.len st.cand + (dists (slLoopW P eval q ef filt s layer n st).log).length ∧
    (accepts (slLoopW P eval q ef filt s layer n st).log).length ≤
      (if filt.isSome then 2 else 0) * (dists (slLoopW P eval q ef filt s layer n st).log).length ∧
    (∀ p ∈ dists (slLoopW P eval q ef filt s layer n st).log, K p) ∧
    (((dists (slLoopW P eval q ef filt s layer n st).log).reverse ++ st.vis).map (·.pid)).Nodup := by
  intro n
  induction n with
  | zero =>
    intro st hI
    refine ⟨by simp [slLoopW, reads], by simp [slLoopW, accepts], by simp [slLoopW, dists], ?_⟩
    simpa [slLoopW, dists] using hI.visNd
  | succ n ih =>
    intro st hI
    unfold slLoopW
    have hh := head_invA (filt := filt) L hI
    split
    · exact ⟨by simp [reads], by simp [accepts], by simp [dists], by simpa [dists] using hI.visNd⟩
    · exact ⟨by simp [reads], by simp [accepts], by simp [dists], by simpa [dists] using hI.visNd⟩
    · rename_i c st' he
      rw [he] at hh
      simp only at hh
      have hs : ∀ e ∈ s.nb c.pid layer, K e.pt := hg c (hI.visK c hh.2.1)
      have hvis : st'.vis = st.vis := hh.2.2.1
      have hlen := hh.2.2.2.1
      obtain ⟨h1, h2, h3, h4, h5⟩ := scanListW_log (P := P) (eval := eval) (q := q) (ef := ef) (filt := filt)
        (s.nb c.pid layer) st' hh.1.visNd
      have hK : ∀ p ∈ dists (scanListW P eval q ef filt (s.nb c.pid layer) st').log, K p := by
        intro p hp
        obtain ⟨e, hee, rfl⟩ := h3 p hp
        exact hs e hee
      rw [hvis] at h4 h5
      have h5' : ∀ st'', scanList P eval q ef filt (s.nb c.pid layer) st' = .ok (.go st'') →
          st''.vis = (dists (scanListW P eval q ef filt (s.nb c.pid layer) st').log).reverse ++ st.vis := by
        intro st'' hst
        have := h5 st'' hst
        rw [this]
      simp only [Work.bind_log, readW, scanListW_res]
      have stop : ∀ {x : List (Use T)}, x = [] →
          (reads ([Use.read c.pid layer] ++ ((scanListW P eval q ef filt (s.nb c.pid layer) st').log ++ x))).length ≤
            P.len st.cand + (dists ([Use.read c.pid layer] ++ ((scanListW P eval q ef filt (s.nb c.pid layer) st').log ++ x))).length ∧
          (accepts ([Use.read c.pid layer] ++ ((scanListW P eval q ef filt (s.nb c.pid layer) st').log ++ x))).length ≤
            (if filt.isSome then 2 else 0) * (dists ([Use.read c.pid layer] ++ ((scanListW P eval q ef filt (s.nb c.pid layer) st').log ++ x))).length ∧
          (∀ p ∈ dists ([Use.read c.pid layer] ++ ((scanListW P eval q ef filt (s.nb c.pid layer) st').log ++ x)), K p) ∧
          (((dists ([Use.read c.pid layer] ++ ((scanListW P eval q ef filt (s.nb c.pid layer) st').log ++ x))).reverse ++ st.vis).map (Ref.pid (T := T))).Nodup := by
        intro x hx
        subst hx
        rw [List.append_nil]
        simp only [List.cons_append, List.nil_append, reads, accepts, dists, List.length_cons, h1]
        exact ⟨by simp; omega, h2, hK, h4⟩
      cases hsc : scanList P eval q ef filt (s.nb c.pid layer) st' with
      | error x => exact stop rfl
      | ok o =>
        cases o with
        | stop r => exact stop rfl
        | go st'' =>
          have hI2 := scanList_invA L hh.1 hs hsc
          simp only at hI2
          obtain ⟨a, b, d, f⟩ := ih st'' hI2.1
          have hv := h5' st'' hsc
          have hm := hI2.2.2.2
          rw [hv, hvis, List.length_append, List.length_reverse] at hm
          simp only [List.cons_append, List.nil_append, reads, accepts, dists, List.length_cons,
            reads_append, accepts_append, dists_append, List.length_append, h1, List.reverse_append,
            List.append_assoc, ← hv]
          refine ⟨?_, ?_, ?_, f⟩
          · omega
          · rw [Nat.mul_add]; omega
          · intro p hp
            rcases List.mem_append.1 hp with hp | hp
            · exact hK p hp
            · exact d p hp

/-- the uses in the scan of the pivot's list -/
theorem scanPivotW_log : ∀ (ns : List (PWO T)) (x : Ref T × F32),
    (scanPivotW eval q ns x).log = ns.map fun n => .dist n.pt
  | [], _ => rfl
  | n :: ns, x => by
    unfold scanPivotW
    simp only [Work.bind_log, evalW, List.map_cons, scanPivotW_log ns]
    rfl

theorem dists_map_dist (ns : List (PWO T)) : dists (ns.map fun n => Use.dist n.pt) = ns.map (·.pt) := by
  induction ns with
  | nil => rfl
  | cons n ns ih => simp [dists, ih]

theorem reads_map_dist (ns : List (PWO T)) : reads (ns.map fun n => Use.dist n.pt) = [] := by
  induction ns with
  | nil => rfl
  | cons n ns ih => simp [reads, ih]

theorem accepts_map_dist (ns : List (PWO T)) : accepts (ns.map fun n => Use.dist n.pt) = [] := by
  induction ns with
  | nil => rfl
  | cons n ns ih => simp [accepts, ih]

/-- the uses in the descent: one list per layer -/
theorem descendW_log {s : Idx T} {m : Nat} (hb : ∀ p l, 0 < l → (s.nb p l).length ≤ m)
    (hst : ∀ p l, ∀ e ∈ s.nb p l, Stored s e.pt) : ∀ (l : Nat) (x : Ref T × F32),
    (dists (descendW eval q s l x).log).length ≤ l * m ∧
    (reads (descendW eval q s l x).log).map (·.2) = (List.range l).reverse.map (· + 1) ∧
    accepts (descendW eval q s l x).log = [] ∧
    ∀ p ∈ dists (descendW eval q s l x).log, Stored s p
  | 0, x => by simp [descendW, dists, reads, accepts]
  | l + 1, x => by
    obtain ⟨h1, h2, h3, h4⟩ := descendW_log hb hst l (scanPivot eval q (s.nb x.1.pid (l + 1)) x)
    unfold descendW
    simp only [Work.bind_log, readW, scanPivotW_log, scanPivotW_res, List.cons_append, List.nil_append,
      dists, reads, accepts, dists_append, reads_append, accepts_append, dists_map_dist, reads_map_dist,
      accepts_map_dist, List.length_append, List.length_map, List.map_cons, h2, h3]
    have := hb x.1.pid (l + 1) (by omega)
    refine ⟨?_, ?_, trivial, ?_⟩
    · rw [Nat.add_mul]; omega
    · rw [List.range_succ]; simp
    · intro p hp
      rcases List.mem_append.1 hp with hp | hp
      · obtain ⟨e, he, rfl⟩ := List.mem_map.1 hp
        exact hst _ _ e he
      · exact h4 p hp

/-- the uses in the lowest layer -/
theorem bottomW_log (L : P.Lawful) {cfg : Cfg T} {s : Idx T} (h : Navig s) (knbn efArg : Nat)
    {pivot : Ref T} (hp : Stored s pivot) {l : Nat} (hl : lowestLayer s = some l) :
    (dists (bottomW P cfg s q knbn efArg filt pivot).log).head? = some pivot ∧
    ((dists (bottomW P cfg s q knbn efArg filt pivot).log).map (·.pid)).Nodup ∧
    (∀ p ∈ dists (bottomW P cfg s q knbn efArg filt pivot).log, Stored s p ∧ Reaches (links s l) pivot p) ∧
    (reads (bottomW P cfg s q knbn efArg filt pivot).log).length ≤
      (dists (bottomW P cfg s q knbn efArg filt pivot).log).length ∧
    (accepts (bottomW P cfg s q knbn efArg filt pivot).log).length ≤ (if filt.isSome then 2 else 0) *
      ((dists (bottomW P cfg s q knbn efArg filt pivot).log).length - 1) := by
  have hI : InvA P cfg.eval q (max efArg knbn) (KP s l pivot) (slInit P cfg.eval q pivot) :=
    invA_init L ⟨hp, .refl⟩
  obtain ⟨h1, h2, h3, h4⟩ := slLoopW_log (filt := filt) (s := s) (layer := l) L (kp_step h l pivot)
    (s.points.length + 2) _ hI
  have hlog : (bottomW P cfg s q knbn efArg filt pivot).log =
      .dist pivot :: (slLoopW P cfg.eval q (max efArg knbn) filt s l (s.points.length + 2)
        (slInit P cfg.eval q pivot)).log := by
    have hne : ∃ a as, s.layers[l]? = some (a :: as) := by
      unfold lowestLayer at hl
      obtain ⟨hlt, hx, -⟩ := List.findIdx?_eq_some_iff_getElem.1 hl
      cases hla : s.layers[l] with
      | nil => rw [hla] at hx; simp at hx
      | cons a as => exact ⟨a, as, by rw [List.getElem?_eq_getElem hlt, hla]⟩
    obtain ⟨a, as, hla⟩ := hne
    have hsl : searchLayerW P cfg.eval q (max efArg knbn) filt s pivot l =
        ⟨.dist pivot :: (slLoopW P cfg.eval q (max efArg knbn) filt s l (s.points.length + 2)
          (slInit P cfg.eval q pivot)).log, (slLoopW P cfg.eval q (max efArg knbn) filt s l
          (s.points.length + 2) (slInit P cfg.eval q pivot)).res⟩ := by
      unfold searchLayerW
      rw [hla]
      rfl
    unfold bottomW
    simp only [hl, Work.bind_log, hsl]
    cases (slLoopW P cfg.eval q (max efArg knbn) filt s l (s.points.length + 2)
      (slInit P cfg.eval q pivot)).res with
    | error e => simp
    | ok r =>
      simp only [Work.of_log, List.nil_append, Work.of_res]
      cases P.intoSortedC r <;> simp
  rw [hlog]
  have hlen : P.len (slInit P cfg.eval q pivot).cand = 1 := by
    simp [slInit, Policy.len, L.items_push_empty]
  rw [hlen] at h1
  simp only [dists, reads, accepts, List.head?_cons, List.length_cons, Nat.add_sub_cancel, true_and]
  refine ⟨?_, ?_, by omega, h2⟩
  · have : (slInit P cfg.eval q pivot).vis = [pivot] := rfl
    rw [this, List.map_append, List.map_reverse] at h4
    rw [List.map_cons, List.nodup_cons]
    rw [List.nodup_append] at h4
    refine ⟨fun hm => ?_, ?_⟩
    · exact h4.2.2 _ (List.mem_reverse.2 hm) pivot.pid (by simp) rfl
    · have := h4.1
      exact (List.reverse_perm _).nodup_iff.1 this
  · intro p hpm
    rcases List.mem_cons.1 hpm with rfl | hpm
    · exact ⟨hp, .refl⟩
    · exact h3 p hpm

/-! ## Everything used is noted -/

section
variable {P : Policy T}

/-- If all that `x` notes satisfies `ok`, then `y` is `x`. -/
def Same {α : Type} (ok : Use T → Prop) (x y : Work T α) : Prop := (∀ u ∈ x.log, ok u) → y = x

theorem Same.rfl' {α : Type} {ok : Use T → Prop} (x : Work T α) : Same ok x x := fun _ => rfl

theorem Same.bind {α β : Type} {ok : Use T → Prop} {x y : Work T α} {f g : α → Work T β}
    (h : Same ok x y) (hf : ∀ a, Same ok (f a) (g a)) : Same ok (x.bind f) (y.bind g) := by
  intro hu
  unfold Work.bind at hu ⊢
  cases hx : x.res with
  | error e =>
    rw [hx] at hu
    rw [h hu, hx]
  | ok a =>
    rw [hx] at hu
    rw [h (fun u hm => hu u (List.mem_append_left _ hm)), hx]
    simp only []
    rw [hf a (fun u hm => hu u (List.mem_append_right _ hm))]

/-- the uses for which two searches find the same -/
def Use.agree (eval eval' : List T → List T → F32) (q q' : List T) (s s' : Idx T)
    (filt filt' : Option (DataId → Bool)) : Use T → Prop
  | .dist p => eval' q' p.data = eval q p.data
  | .read p l => s'.nb p l = s.nb p l
  | .accept id => ∀ φ φ', filt = some φ → filt' = some φ' → φ' id = φ id

variable {eval eval' : List T → List T → F32} {q q' : List T} {s s' : Idx T} {ef : Nat}
  {filt filt' : Option (DataId → Bool)}

theorem evalW_same (e : Ref T) :
    Same (Use.agree eval eval' q q' s s' filt filt') (evalW eval q e) (evalW eval' q' e) := by
  intro h
  have h := h (.dist e) (by simp [evalW])
  unfold evalW
  rw [show eval' q' e.data = eval q e.data from h]

theorem readW_same (p : PointId) (l : Nat) :
    Same (Use.agree eval eval' q q' s s' filt filt') (readW s p l) (readW s' p l) := by
  intro h
  have h := h (.read p l) (by simp [readW])
  unfold readW
  rw [show s'.nb p l = s.nb p l from h]

theorem acceptW_same {φ φ' : DataId → Bool} (id : DataId) :
    Same (Use.agree eval eval' q q' s s' (some φ) (some φ')) (acceptW φ id : Work T Bool) (acceptW φ' id) := by
  intro h
  have h := h (.accept id) (by simp [acceptW])
  unfold acceptW
  rw [show φ' id = φ id from h φ φ' rfl rfl]

theorem clearW_same {φ φ' : DataId → Bool} (r : P.H) :
    Same (Use.agree eval eval' q q' s s' (some φ) (some φ')) (clearW P φ r) (clearW P φ' r) := by
  unfold clearW
  split
  · split
    · exact (acceptW_same _).bind fun _ => Same.rfl' _
    · exact Same.rfl' _
  · exact Same.rfl' _

theorem pushRetW_same (hs : filt'.isSome = filt.isSome) (r : P.H) (e : PWO T) :
    Same (Use.agree eval eval' q q' s s' filt filt') (pushRetW P filt r e) (pushRetW P filt' r e) := by
  unfold pushRetW
  cases filt with
  | none =>
    cases filt' with
    | none => exact Same.rfl' _
    | some _ => cases hs
  | some φ =>
    cases filt' with
    | none => cases hs
    | some φ' =>
      refine (acceptW_same _).bind fun b => ?_
      cases b
      · exact Same.rfl' _
      · exact (clearW_same r).bind fun _ => Same.rfl' _

theorem scanEW_same (hs : filt'.isSome = filt.isSome) (e : Ref T) (st : SL P) :
    Same (Use.agree eval eval' q q' s s' filt filt') (scanEW P eval q ef filt e st)
      (scanEW P eval' q' ef filt' e st) := by
  unfold scanEW
  split
  · exact Same.rfl' _
  · split
    · exact Same.rfl' _
    · refine (evalW_same e).bind fun d => ?_
      split
      · exact (Same.rfl' _).bind fun _ => (pushRetW_same hs _ _).bind fun _ => Same.rfl' _
      · exact Same.rfl' _

theorem scanListW_same (hs : filt'.isSome = filt.isSome) : ∀ (es : List (PWO T)) (st : SL P),
    Same (Use.agree eval eval' q q' s s' filt filt') (scanListW P eval q ef filt es st)
      (scanListW P eval' q' ef filt' es st)
  | [], _ => Same.rfl' _
  | e :: es, st => by
    refine (scanEW_same hs e.pt st).bind fun o => ?_
    cases o with
    | stop r => exact Same.rfl' _
    | go st' => exact scanListW_same hs es st'

theorem slLoopW_same (hs : filt'.isSome = filt.isSome) (layer : Nat) : ∀ (n : Nat) (st : SL P),
    Same (Use.agree eval eval' q q' s s' filt filt') (slLoopW P eval q ef filt s layer n st)
      (slLoopW P eval' q' ef filt' s' layer n st)
  | 0, _ => Same.rfl' _
  | n + 1, st => by
    have hh : head P ef filt' st = head P ef filt st := by
      unfold head
      rw [show filt'.isNone = filt.isNone by
        rw [← Option.not_isSome, ← Option.not_isSome, hs]]
    unfold slLoopW
    rw [hh]
    cases head P ef filt st with
    | done r => exact Same.rfl' _
    | panic e => exact Same.rfl' _
    | expand c st' =>
      refine (readW_same _ _).bind fun ns => (scanListW_same hs ns st').bind fun o => ?_
      cases o with
      | stop r => exact Same.rfl' _
      | go st'' => exact slLoopW_same hs layer n st''

theorem searchLayerW_same (hs : filt'.isSome = filt.isSome) (hl : s'.layers = s.layers) (ep : Ref T)
    (layer : Nat) : Same (Use.agree eval eval' q q' s s' filt filt') (searchLayerW P eval q ef filt s ep layer)
      (searchLayerW P eval' q' ef filt' s' ep layer) := by
  unfold searchLayerW
  rw [hl]
  split
  · exact Same.rfl' _
  · exact Same.rfl' _
  · refine (evalW_same ep).bind fun d => ?_
    rw [show s'.points = s.points by unfold Idx.points; rw [hl]]
    exact slLoopW_same hs layer _ _

theorem scanPivotW_same : ∀ (ns : List (PWO T)) (x : Ref T × F32),
    Same (Use.agree eval eval' q q' s s' filt filt') (scanPivotW eval q ns x) (scanPivotW eval' q' ns x)
  | [], _ => Same.rfl' _
  | n :: ns, _ => (evalW_same n.pt).bind fun _ => scanPivotW_same ns _

theorem descendW_same : ∀ (l : Nat) (x : Ref T × F32),
    Same (Use.agree eval eval' q q' s s' filt filt') (descendW eval q s l x) (descendW eval' q' s' l x)
  | 0, _ => Same.rfl' _
  | l + 1, _ => (readW_same _ _).bind fun ns => (scanPivotW_same ns _).bind fun _ => descendW_same l _

theorem searchFilterW_same {cfg cfg' : Cfg T} (hs : filt'.isSome = filt.isSome) (hl : s'.layers = s.layers)
    (he : s'.entry = s.entry) (knbn efArg : Nat) :
    Same (Use.agree cfg.eval cfg'.eval q q' s s' filt filt') (searchFilterW P cfg s q knbn efArg filt)
      (searchFilterW P cfg' s' q' knbn efArg filt') := by
  unfold searchFilterW
  rw [he]
  split
  · exact Same.rfl' _
  · refine (evalW_same _).bind fun d => (descendW_same _ _).bind fun x => ?_
    unfold bottomW lowestLayer
    rw [hl]
    simp only []
    split
    · exact Same.rfl' _
    · exact (searchLayerW_same hs hl _ _).bind fun h => Same.rfl' _

end

theorem mem_dists {p : Ref T} : ∀ {us : List (Use T)}, Use.dist p ∈ us → p ∈ dists us
  | .dist _ :: us, h => by
    rcases List.mem_cons.1 h with h | h
    · injection h with h
      exact List.mem_cons.2 (.inl h)
    · exact List.mem_cons.2 (.inr (mem_dists h))
  | .read _ _ :: us, h => by
    rcases List.mem_cons.1 h with h | h
    · cases h
    · exact mem_dists (us := us) h
  | .accept _ :: us, h => by
    rcases List.mem_cons.1 h with h | h
    · cases h
    · exact mem_dists (us := us) h

theorem mem_reads {p : PointId} {l : Nat} : ∀ {us : List (Use T)}, Use.read p l ∈ us → (p, l) ∈ reads us
  | .read _ _ :: us, h => by
    rcases List.mem_cons.1 h with h | h
    · injection h with h h'
      exact List.mem_cons.2 (.inl (by rw [h, h']))
    · exact List.mem_cons.2 (.inr (mem_reads h))
  | .dist _ :: us, h => by
    rcases List.mem_cons.1 h with h | h
    · cases h
    · exact mem_reads (us := us) h
  | .accept _ :: us, h => by
    rcases List.mem_cons.1 h with h | h
    · cases h
    · exact mem_reads (us := us) h

theorem mem_accepts {id : DataId} : ∀ {us : List (Use T)}, Use.accept id ∈ us → id ∈ accepts us
  | .accept _ :: us, h => by
    rcases List.mem_cons.1 h with h | h
    · injection h with h
      exact List.mem_cons.2 (.inl h)
    · exact List.mem_cons.2 (.inr (mem_accepts h))
  | .dist _ :: us, h => by
    rcases List.mem_cons.1 h with h | h
    · cases h
    · exact mem_accepts (us := us) h
  | .read _ _ :: us, h => by
    rcases List.mem_cons.1 h with h | h
    · cases h
    · exact mem_accepts (us := us) h

end Verif
