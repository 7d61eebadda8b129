import Verif.HeaderLemmas
import Verif.SearchTop

set_option autoImplicit false

/-!
# What a successful reload tells, whatever the bytes of the files
-/

namespace Verif
variable {T : Type}

/-! ## Reading backwards: what was read -/

theorem readExact_ok {e : Fail} {n : Nat} {s s' b : Bytes} (h : readExact e n s = .ok (b, s')) :
    s = b ++ s' ∧ b.length = n := by
  unfold readExact at h
  split at h
  · injection h with h
    rw [Prod.mk.injEq] at h
    rw [← h.1, ← h.2, List.take_append_drop, List.length_take]
    exact ⟨rfl, by omega⟩
  · cases h

theorem readNat_ok {e : Fail} {n x : Nat} {s s' : Bytes} (h : readNat e n s = .ok (x, s')) :
    ∃ b, s = b ++ s' ∧ b.length = n ∧ ofLE b = x := by
  replace h := Rd.bind_ok h
  obtain ⟨b, s1, h1, h2⟩ := h
  rw [Rd.pure_run] at h2
  injection h2 with h2
  rw [Prod.mk.injEq] at h2
  obtain ⟨h3, h4⟩ := readExact_ok h1
  exact ⟨b, by rw [← h2.2]; exact h3, h4, h2.1⟩

theorem leBytes_ofLE (b : Bytes) : leBytes b.length (ofLE b) = b := by
  induction b with
  | nil => rfl
  | cons x xs ih =>
    simp only [List.length_cons, leBytes, ofLE]
    have h1 : (x.toNat + 256 * ofLE xs) / 256 = ofLE xs := by
      have := x.toNat_lt; omega
    rw [h1, ih]
    congr 1
    apply UInt8.toNat.inj
    have := x.toNat_lt
    simp only [UInt8.toNat_ofNat']
    omega

/-- a number that was read is the one written in the bytes that were consumed -/
theorem readNat_ok' {e : Fail} {n x : Nat} {s s' : Bytes} (h : readNat e n s = .ok (x, s')) :
    s = leBytes n x ++ s' ∧ x < 256 ^ n := by
  obtain ⟨b, h1, h2, h3⟩ := readNat_ok h
  subst h2 h3
  rw [leBytes_ofLE]
  exact ⟨h1, ofLE_lt b⟩

theorem onG_ok {α : Type} {m : Rd Bytes α} {s s' : Two} {a : α} (h : onG m s = .ok (a, s')) :
    m s.1 = .ok (a, s'.1) ∧ s'.2 = s.2 := by
  unfold onG at h
  cases hm : m s.1 with
  | error e => rw [hm] at h; cases h
  | ok r =>
    obtain ⟨x, g⟩ := r
    rw [hm] at h
    injection h with h
    rw [Prod.mk.injEq] at h
    rw [← h.1, ← h.2]
    exact ⟨rfl, rfl⟩

theorem onD_ok {α : Type} {m : Rd Bytes α} {s s' : Two} {a : α} (h : onD m s = .ok (a, s')) :
    m s.2 = .ok (a, s'.2) ∧ s'.1 = s.1 := by
  unfold onD at h
  cases hm : m s.2 with
  | error e => rw [hm] at h; cases h
  | ok r =>
    obtain ⟨x, g⟩ := r
    rw [hm] at h
    injection h with h
    rw [Prod.mk.injEq] at h
    rw [← h.1, ← h.2]
    exact ⟨rfl, rfl⟩

theorem pure_ok {σ α : Type} {a b : α} {s s' : σ} (h : (pure a : Rd σ α) s = .ok (b, s')) :
    b = a ∧ s' = s := by
  rw [Rd.pure_run] at h
  injection h with h
  rw [Prod.mk.injEq] at h
  exact ⟨h.1.symm, h.2.symm⟩

/-- a record of the data file -/
def recordBytes (id : DataId) (v : Bytes) : Bytes :=
  leBytes 4 magicDataP ++ leBytes 8 id.toNat ++ leBytes 8 v.length ++ v

theorem readRecord_ok {e : Fail} {origin : DataId} {s s' b : Bytes}
    (h : readRecord e origin s = .ok (b, s')) : s = recordBytes origin b ++ s' := by
  unfold readRecord at h
  replace h := Rd.bind_ok h
  obtain ⟨magic, s1, h1, h⟩ := h
  replace h := Rd.bind_ok h
  obtain ⟨_, s2, h2, h⟩ := h
  replace h := Rd.bind_ok h
  obtain ⟨id, s3, h3, h⟩ := h
  replace h := Rd.bind_ok h
  obtain ⟨_, s4, h4, h⟩ := h
  replace h := Rd.bind_ok h
  obtain ⟨len, s5, h5, h⟩ := h
  obtain ⟨c2, rfl⟩ := Rd.require_ok h2
  obtain ⟨c4, rfl⟩ := Rd.require_ok h4
  have e1 := (readNat_ok' h1).1
  have e3 := (readNat_ok' h3).1
  have e5 := (readNat_ok' h5).1
  obtain ⟨e6, e7⟩ := readExact_ok h
  simp only [decide_eq_true_eq] at c2 c4
  unfold recordBytes
  rw [e1, e3, e5, e6, c2, c4, e7]
  simp only [List.append_assoc]

theorem mapE_ok {α β : Type} {f : α → Except Fail β} {l : List α} {bs : List β}
    (h : mapE f l = .ok bs) : bs.length = l.length ∧
      ∀ (i : Nat) (a : α), l[i]? = some a → ∃ b, bs[i]? = some b ∧ f a = .ok b := by
  induction l generalizing bs with
  | nil =>
    unfold mapE at h
    injection h with h
    subst h
    simp
  | cons a as ih =>
    unfold mapE at h
    cases ha : f a with
    | error e => rw [ha] at h; cases h
    | ok b =>
      rw [ha] at h
      cases hs : mapE f as with
      | error e => simp only [hs, bind, Except.bind] at h; cases h
      | ok bs' =>
        simp only [hs, bind, Except.bind] at h
        injection h with h
        subst h
        obtain ⟨h1, h2⟩ := ih hs
        refine ⟨by simp [h1], ?_⟩
        intro i x hx
        cases i with
        | zero => simp at hx; subst hx; exact ⟨b, by simp, ha⟩
        | succ i => simp at hx; simpa using h2 i x hx

theorem resolve_ok {layers : List (List (Ref T))} {p : PointId} {q : Ref T}
    (h : resolve layers p = .ok q) : ∃ l, layers[p.layer]? = some l ∧ l[p.rank]? = some q := by
  unfold resolve at h
  split at h
  · split at h
    · rename_i q' hq
      injection h with h
      subst h
      rw [Option.bind_eq_some_iff] at hq
      exact hq
    · cases h
  · cases h

theorem resolve_mem {layers : List (List (Ref T))} {p : PointId} {q : Ref T}
    (h : resolve layers p = .ok q) : q ∈ layers.flatten := by
  obtain ⟨l, h1, h2⟩ := resolve_ok h
  exact List.mem_flatten.2 ⟨l, List.mem_of_getElem? h1, List.mem_of_getElem? h2⟩

theorem linkList_ok {P : Policy T} (L : P.Lawful) {layers : List (List (Ref T))} {ns : List Neighbour}
    {es : List (PWO T)} (h : linkList P layers ns = .ok es) :
    (∀ e ∈ es, e.pt ∈ layers.flatten) ∧
    (NoNaN es → es.Pairwise (fun a b => a.dist.key ≤ b.dist.key)) := by
  unfold linkList at h
  cases hm : mapE (fun n : Neighbour => do
      let q ← resolve layers n.pId
      .ok (⟨q, n.distance⟩ : PWO T)) ns with
  | error e => rw [hm] at h; cases h
  | ok v =>
    rw [hm] at h
    simp only [bind, Except.bind] at h
    split at h
    · rename_i w hw
      injection h with h
      subst h
      have hsort : w = P.sort v := by
        unfold Policy.sortC at hw
        split at hw
        · cases hw
        · injection hw with hw; exact hw.symm
      subst hsort
      refine ⟨?_, fun hN => L.sort_sorted v fun e he => hN e ((L.sort_perm v).mem_iff.2 he)⟩
      intro e he
      have he' := (L.sort_perm v).mem_iff.1 he
      obtain ⟨i, hi, hie⟩ := List.getElem_of_mem he'
      obtain ⟨h1, h2⟩ := mapE_ok hm
      have hi' : i < ns.length := by omega
      obtain ⟨b, hb, hf⟩ := h2 i ns[i] (List.getElem?_eq_getElem hi')
      have hbe : b = e := by
        rw [List.getElem?_eq_getElem hi] at hb
        injection hb with hb
        rw [← hb, hie]
      subst hbe
      cases hr : resolve layers ns[i].pId with
      | error x => rw [hr] at hf; cases hf
      | ok q =>
        rw [hr] at hf
        simp only [bind, Except.bind] at hf
        injection hf with hf
        rw [← hf]
        exact resolve_mem hr
    · cases h

/-! ## Points and layers -/

/-- what was read of the data file for a list of points -/
def recordsOf (vs : List (DataId × Bytes)) : Bytes := vs.flatMap fun x => recordBytes x.1 x.2

theorem recordsOf_append (a b : List (DataId × Bytes)) :
    recordsOf (a ++ b) = recordsOf a ++ recordsOf b := by simp [recordsOf]

/-- the vector of a loaded point is the one of its record, or the one of the map -/
def VecOf (ty : Ty T) (d : Descr) (dm : Option DataMap) (r : PointRec T) (b : Bytes) : Prop :=
  if r.mapped then mappedVec ty dm r.pt.origin = .ok r.pt.data else recordVec ty d b = .ok r.pt.data

theorem loadPoint_ok {ty : Ty T} {d : Descr} {dm : Option DataMap} {mm : Bool} {s s' : Two}
    {p : PointRec T} (h : loadPoint ty d dm mm s = .ok (p, s')) :
    ∃ b, s.2 = recordBytes p.pt.origin b ++ s'.2 ∧ VecOf ty d dm p b := by
  unfold loadPoint at h
  replace h := Rd.bind_ok h
  obtain ⟨⟨origin, pid, lists⟩, s1, h1, h⟩ := h
  have e1 := (onG_ok h1).2
  cases mm with
  | true =>
    simp only [if_true] at h
    replace h := Rd.bind_ok h
    obtain ⟨b, s2, h2, h⟩ := h
    replace h := Rd.bind_ok h
    obtain ⟨v, s3, h3, h⟩ := h
    obtain ⟨h3x, rfl⟩ := Rd.lift_ok h3
    obtain ⟨rfl, rfl⟩ := pure_ok h
    refine ⟨b, ?_, ?_⟩
    · rw [← e1]; exact readRecord_ok (onD_ok h2).1
    · simp only [VecOf, if_true]; exact h3x
  | false =>
    simp only [Bool.false_eq_true, if_false] at h
    replace h := Rd.bind_ok h
    obtain ⟨v, s2, h2, h⟩ := h
    obtain ⟨rfl, rfl⟩ := pure_ok h
    obtain ⟨b, s3, h3, h4⟩ := Rd.bind_ok (onD_ok h2).1
    obtain ⟨h4, h5⟩ := Rd.lift_ok h4
    refine ⟨b, ?_, ?_⟩
    · rw [← e1, h5]; exact readRecord_ok h3
    · simp only [VecOf, Bool.false_eq_true, if_false]; exact h4

/-- the points of the list have the layer `l` and the ranks from `r` on -/
def RanksFrom (l r : Nat) (ps : List (PointRec T)) : Prop :=
  ∀ (i : Nat) p, ps[i]? = some p → p.pt.pid = ⟨l, r + i⟩

/-- the data read for the points `ps` is `vs` -/
def DataOf (ty : Ty T) (d : Descr) (dm : Option DataMap) (ps : List (PointRec T))
    (vs : List (DataId × Bytes)) : Prop :=
  vs.map (·.1) = ps.map (·.pt.origin) ∧
    ∀ (i : Nat) p v, ps[i]? = some p → vs[i]? = some v → VecOf ty d dm p v.2

theorem DataOf.append {ty : Ty T} {d : Descr} {dm : Option DataMap} {ps ps' : List (PointRec T)}
    {vs vs' : List (DataId × Bytes)} (h : DataOf ty d dm ps vs) (h' : DataOf ty d dm ps' vs') :
    DataOf ty d dm (ps ++ ps') (vs ++ vs') := by
  have hl : vs.length = ps.length := by
    have := congrArg List.length h.1
    simpa using this
  refine ⟨by simp [h.1, h'.1], ?_⟩
  intro i p v hp hv
  rw [List.getElem?_append] at hp hv
  rw [hl] at hv
  split at hp
  · rename_i hi
    rw [if_pos hi] at hv
    exact h.2 i p v hp hv
  · rename_i hi
    rw [if_neg hi] at hv
    exact h'.2 _ p v hp hv

theorem DataOf.cons {ty : Ty T} {d : Descr} {dm : Option DataMap} {p : PointRec T} {b : Bytes}
    {ps : List (PointRec T)} {vs : List (DataId × Bytes)} (h : VecOf ty d dm p b)
    (h' : DataOf ty d dm ps vs) : DataOf ty d dm (p :: ps) ((p.pt.origin, b) :: vs) := by
  have : DataOf ty d dm [p] [(p.pt.origin, b)] := by
    refine ⟨rfl, ?_⟩
    intro i q v hq hv
    cases i with
    | zero => simp at hq hv; subst hq hv; exact h
    | succ i => simp at hq
  exact this.append h'

theorem loadPoints_ok {ty : Ty T} {d : Descr} {dm : Option DataMap} {o : ReloadOptions} {l : Nat}
    {n r : Nat} {still : Int} {s s' : Two} {ps : List (PointRec T)} {still' : Int}
    (h : loadPoints ty d dm o l n r still s = .ok ((ps, still'), s')) :
    RanksFrom l r ps ∧ ∃ vs, DataOf ty d dm ps vs ∧ s.2 = recordsOf vs ++ s'.2 := by
  induction n generalizing r still s ps still' with
  | zero =>
    unfold loadPoints at h
    obtain ⟨h1, rfl⟩ := pure_ok h
    rw [Prod.mk.injEq] at h1
    rw [h1.1]
    exact ⟨fun i p hp => by simp at hp, [], ⟨rfl, fun i p v hp => by simp at hp⟩, by simp [recordsOf]⟩
  | succ n ih =>
    unfold loadPoints at h
    replace h := Rd.bind_ok h
    obtain ⟨p, s1, h1, h⟩ := h
    replace h := Rd.bind_ok h
    obtain ⟨_, s2, h2, h⟩ := h
    replace h := Rd.bind_ok h
    obtain ⟨_, s3, h3, h⟩ := h
    replace h := Rd.bind_ok h
    obtain ⟨_, s4, h4, h⟩ := h
    replace h := Rd.bind_ok h
    obtain ⟨⟨ps', st'⟩, s5, h5, h⟩ := h
    obtain ⟨c2, rfl⟩ := Rd.require_ok h2
    obtain ⟨c3, rfl⟩ := Rd.require_ok h3
    obtain ⟨c4, rfl⟩ := Rd.require_ok h4
    obtain ⟨h6, rfl⟩ := pure_ok h
    rw [Prod.mk.injEq] at h6
    obtain ⟨b, h7, h8⟩ := loadPoint_ok h1
    obtain ⟨h9, vs, h10, h11⟩ := ih h5
    simp only [decide_eq_true_eq, Bool.and_eq_true] at c2 c3
    rw [h6.1]
    refine ⟨?_, (p.pt.origin, b) :: vs, DataOf.cons h8 h10, ?_⟩
    · intro i q hq
      cases i with
      | zero =>
        simp at hq
        subst hq
        rw [c2, Nat.add_zero, c3.2]
      | succ i =>
        simp at hq
        rw [h9 i q hq]
        congr 1
        omega
    · rw [h7, h11]
      simp [recordsOf]

theorem loadLayers_ok {ty : Ty T} {d : Descr} {dm : Option DataMap} {o : ReloadOptions}
    {n l : Nat} {still : Int} {s s' : Two} {rs : List (List (PointRec T))}
    (h : loadLayers ty d dm o n l still s = .ok (rs, s')) :
    rs.length = n ∧ (∀ (i : Nat) ps, rs[i]? = some ps → RanksFrom (l + i) 0 ps) ∧
      ∃ vs, DataOf ty d dm rs.flatten vs ∧ s.2 = recordsOf vs ++ s'.2 := by
  induction n generalizing l still s rs with
  | zero =>
    unfold loadLayers at h
    obtain ⟨rfl, rfl⟩ := pure_ok h
    exact ⟨rfl, fun i p hp => by simp at hp, [], ⟨rfl, fun i p v hp => by simp at hp⟩,
      by simp [recordsOf]⟩
  | succ n ih =>
    unfold loadLayers at h
    replace h := Rd.bind_ok h
    obtain ⟨magic, s1, h1, h⟩ := h
    replace h := Rd.bind_ok h
    obtain ⟨_, s2, h2, h⟩ := h
    replace h := Rd.bind_ok h
    obtain ⟨nb, s3, h3, h⟩ := h
    replace h := Rd.bind_ok h
    obtain ⟨⟨ps, still'⟩, s4, h4, h⟩ := h
    replace h := Rd.bind_ok h
    obtain ⟨ls, s5, h5, h⟩ := h
    obtain ⟨c2, rfl⟩ := Rd.require_ok h2
    obtain ⟨rfl, rfl⟩ := pure_ok h
    have e1 := (onG_ok h1).2
    have e3 := (onG_ok h3).2
    obtain ⟨h6, vs, h7, h8⟩ := loadPoints_ok h4
    obtain ⟨h9, h10, vs', h11, h12⟩ := ih h5
    refine ⟨by simp [h9], ?_, vs ++ vs', ?_, ?_⟩
    · intro i q hq
      cases i with
      | zero => simp at hq; subst hq; simpa using h6
      | succ i =>
        simp at hq
        have := h10 i q hq
        rw [show l + (i + 1) = l + 1 + i by omega]
        exact this
    · rw [List.flatten_cons]; exact h7.append h11
    · rw [← e1, ← e3, h8, h12, recordsOf_append, List.append_assoc]

/-! ## The index -/

theorem linkPoint_ok {P : Policy T} {layers : List (List (Ref T))} {lists : List (List Neighbour)}
    {v : List (List (PWO T))} (h : linkPoint P layers lists = .ok v) :
    lists.length ≤ nbLayerMax ∧ mapE (linkList P layers) lists = .ok v := by
  unfold linkPoint at h
  by_cases hc : nbLayerMax < lists.length
  · simp only [hc, if_true, bind, Except.bind] at h; cases h
  · simp only [hc, if_false, bind, Except.bind] at h
    exact ⟨by omega, h⟩

/-- links of a table made by `linkPoint` -/
theorem tableNb_ok {P : Policy T} (L : P.Lawful) {layers : List (List (Ref T))}
    {recs : List (List (PointRec T))} {t : List (List (List (List (PWO T))))}
    (ht : mapE (fun l => mapE (fun r : PointRec T => linkPoint P layers r.lists) l) recs = .ok t)
    (p : PointId) (l : Nat) :
    (∀ e ∈ tableNb t p l, e.pt ∈ layers.flatten) ∧
    (NoNaN (tableNb t p l) → (tableNb t p l).Pairwise (fun a b => a.dist.key ≤ b.dist.key)) ∧
    (tableNb t p l ≠ [] → l < nbLayerMax ∧ ∃ ps r, recs[p.layer]? = some ps ∧ ps[p.rank]? = some r) := by
  unfold tableNb
  cases h1 : t[p.layer]? with
  | none => simp
  | some a =>
    cases h2 : a[p.rank]? with
    | none => simp [h2]
    | some b =>
      cases h3 : b[l]? with
      | none => simp [h2, h3]
      | some es =>
        simp only [Option.bind_some, h2, h3, Option.getD_some]
        obtain ⟨e1, e2⟩ := mapE_ok ht
        have hl1 : p.layer < recs.length := by
          have := (List.getElem?_eq_some_iff.1 h1).1
          omega
        obtain ⟨a', ha', hf⟩ := e2 p.layer recs[p.layer] (List.getElem?_eq_getElem hl1)
        rw [h1] at ha'
        injection ha' with ha'
        subst ha'
        obtain ⟨e3, e4⟩ := mapE_ok hf
        have hl2 : p.rank < recs[p.layer].length := by
          have := (List.getElem?_eq_some_iff.1 h2).1
          omega
        obtain ⟨b', hb', hg⟩ := e4 p.rank recs[p.layer][p.rank] (List.getElem?_eq_getElem hl2)
        rw [h2] at hb'
        injection hb' with hb'
        subst hb'
        obtain ⟨e5, e6⟩ := linkPoint_ok hg
        obtain ⟨e7, e8⟩ := mapE_ok e6
        have hl3 : l < recs[p.layer][p.rank].lists.length := by
          have := (List.getElem?_eq_some_iff.1 h3).1
          omega
        obtain ⟨es', hes', hk⟩ := e8 l _ (List.getElem?_eq_getElem hl3)
        rw [h3] at hes'
        injection hes' with hes'
        subst hes'
        obtain ⟨e9, e10⟩ := linkList_ok L hk
        refine ⟨e9, e10, fun _ => ⟨by omega, recs[p.layer], recs[p.layer][p.rank],
          List.getElem?_eq_getElem hl1, List.getElem?_eq_getElem hl2⟩⟩

/-- What a successful reload of the tables tells. -/
theorem loadIndexation_ok {P : Policy T} (L : P.Lawful) {ty : Ty T} {d : Descr} {dm : Option DataMap}
    {o : ReloadOptions} {s s' : Two} {idx : Idx T} {m : List Bool}
    (h : loadIndexation P ty d dm o s = .ok ((idx, m), s')) :
    idx.layers.length ≤ nbLayerMax ∧
    (∀ l r (p : Ref T), (idx.layer l)[r]? = some p → p.pid = ⟨l, r⟩) ∧
    (∃ e, idx.entry = some e ∧ e ∈ idx.points) ∧ idx.nbPoint = idx.points.length ∧
    (∀ p l, ∀ e ∈ idx.nb p l, e.pt ∈ idx.points) ∧
    (∀ p l, NoNaN (idx.nb p l) → (idx.nb p l).Pairwise (fun a b => a.dist.key ≤ b.dist.key)) ∧
    (∀ p l, idx.nb p l ≠ [] → l < nbLayerMax ∧ ∃ q ∈ idx.points, q.pid = p) ∧
    ∃ ps vs, ps.map (·.pt) = idx.points ∧ m = ps.map (·.mapped) ∧ DataOf ty d dm ps vs ∧
      s.2 = recordsOf vs ++ s'.2 := by
  unfold loadIndexation at h
  replace h := Rd.bind_ok h
  obtain ⟨_, s1, h1, h⟩ := h
  replace h := Rd.bind_ok h
  obtain ⟨nbL, s2, h2, h⟩ := h
  replace h := Rd.bind_ok h
  obtain ⟨_, s3, h3, h⟩ := h
  replace h := Rd.bind_ok h
  obtain ⟨recs, s4, h4, h⟩ := h
  replace h := Rd.bind_ok h
  obtain ⟨t, s5, h5, h⟩ := h
  replace h := Rd.bind_ok h
  obtain ⟨or, s6, h6, h⟩ := h
  replace h := Rd.bind_ok h
  obtain ⟨la, s7, h7, h⟩ := h
  replace h := Rd.bind_ok h
  obtain ⟨rk, s8, h8, h⟩ := h
  replace h := Rd.bind_ok h
  obtain ⟨e, s9, h9, h⟩ := h
  obtain ⟨-, rfl⟩ := Rd.require_ok h1
  obtain ⟨c3, rfl⟩ := Rd.require_ok h3
  obtain ⟨h5x, rfl⟩ := Rd.lift_ok h5
  obtain ⟨h9x, rfl⟩ := Rd.lift_ok h9
  obtain ⟨hx, rfl⟩ := pure_ok h
  rw [Prod.mk.injEq] at hx
  obtain ⟨hx1, hx2⟩ := hx
  subst hx1 hx2
  obtain ⟨l1, l2, vs, l3, l4⟩ := loadLayers_ok h4
  simp only [decide_eq_true_eq] at c3
  have hids : ∀ l r (p : Ref T), ((recs.map fun l => l.map (·.pt))[l]?.getD [])[r]? = some p →
      p.pid = ⟨l, r⟩ := by
    intro l r p hp
    cases hl : recs[l]? with
    | none => simp [hl] at hp
    | some ps =>
      simp only [List.getElem?_map, hl, Option.map_some, Option.getD_some] at hp
      cases hr : ps[r]? with
      | none => simp [hr] at hp
      | some x =>
        simp only [hr, Option.map_some, Option.some.injEq] at hp
        have := l2 l ps hl r x hr
        rw [← hp, this]
        simp
  have ho := fun p l => tableNb_ok L h5x p l
  refine ⟨by simp [mkIdx]; omega, hids, ⟨e, rfl, resolve_mem h9x⟩, rfl, fun p l => (ho p l).1,
    fun p l => (ho p l).2.1, ?_, recs.flatten, vs, ?_, rfl, l3, ?_⟩
  · intro p l hne
    obtain ⟨h10, ps, r, h11, h12⟩ := (ho p l).2.2 hne
    refine ⟨h10, r.pt, ?_, ?_⟩
    · unfold Idx.points mkIdx
      exact List.mem_flatten.2 ⟨ps.map (·.pt), List.mem_map.2 ⟨ps, List.mem_of_getElem? h11, rfl⟩,
        List.mem_map.2 ⟨r, List.mem_of_getElem? h12, rfl⟩⟩
    · have := l2 p.layer ps h11 p.rank r h12
      rw [this]
      simp
  · unfold Idx.points mkIdx
    simp only [List.map_flatten]
  · have e2 := (onG_ok h2).2
    have e6 := (onG_ok h6).2
    have e7 := (onG_ok h7).2
    have e8 := (onG_ok h8).2
    rw [← e2, l4, e8, e7, e6]

/-- What a successful `load_hnsw` tells, in parts. -/
theorem load_ok_parts {P : Policy T} {ty : Ty T} {defScale : Nat → F64} {dist : Dist T}
    {io io' : HnswIo} {fs : Dir} {x : Loaded T}
    (hx : io.loadHnsw P ty defScale dist fs = (io', .ok x)) :
    ∃ g b d g' s1 idx m s2, fs (graphName io.base) = some g ∧ fs (dataName io.base) = some b ∧
      loadDescr g = .ok (d, g') ∧ loadDataHeader d (g', b) = .ok ((), s1) ∧
      loadIndexation P ty d io'.datamap io'.opts s1 = .ok ((idx, m), s2) ∧
      x = ⟨mkHnsw defScale dist d idx true, m⟩ := by
  unfold HnswIo.loadHnsw at hx
  split at hx
  · cases hx
  · rename_i d s hi
    split at hx
    · cases hx
    · rename_i u s1 hh
      split at hx
      · cases hx
      · split at hx
        · cases hx
        · rename_i io1 hm
          split at hx
          · cases hx
          · rename_i idx m s' hl
            rw [Prod.mk.injEq] at hx
            obtain ⟨rfl, hx2⟩ := hx
            injection hx2 with hx2
            unfold HnswIo.init at hi
            split at hi
            · rename_i g b hg hb
              split at hi
              · rename_i d' g' hd
                injection hi with hi
                rw [Prod.mk.injEq] at hi
                obtain ⟨rfl, rfl⟩ := hi
                exact ⟨g, b, d', g', s1, idx, m, s', hg, hb, hd, hh, hl, hx2.symm⟩
              · cases hi
              · cases hi
            · cases hi

theorem loadDataHeader_ok {d : Descr} {s s' : Two} {u : Unit} (h : loadDataHeader d s = .ok (u, s')) :
    s.2 = leBytes 4 magicDataP ++ leBytes 8 d.dim.toNat ++ s'.2 ∧ s'.1 = s.1 := by
  unfold loadDataHeader at h
  replace h := Rd.bind_ok h
  obtain ⟨magic, s1, h1, h⟩ := h
  replace h := Rd.bind_ok h
  obtain ⟨_, s2, h2, h⟩ := h
  replace h := Rd.bind_ok h
  obtain ⟨dim, s3, h3, h⟩ := h
  obtain ⟨c2, rfl⟩ := Rd.require_ok h2
  obtain ⟨c4, rfl⟩ := Rd.require_ok h
  obtain ⟨h1, e1⟩ := onD_ok h1
  obtain ⟨h3, e3⟩ := onD_ok h3
  simp only [decide_eq_true_eq] at c2 c4
  rw [(readNat_ok' h1).1, (readNat_ok' h3).1, c2, c4, List.append_assoc]
  exact ⟨rfl, e3.trans e1⟩

/-- A reloaded index can be searched. -/
theorem load_navig {P : Policy T} (L : P.Lawful) {ty : Ty T} {defScale : Nat → F64} {dist : Dist T}
    {io io' : HnswIo} {fs : Dir} {x : Loaded T}
    (hx : io.loadHnsw P ty defScale dist fs = (io', .ok x)) : Navig x.hnsw.idx := by
  obtain ⟨g, b, d, g', s1, idx, m, s2, -, -, -, -, hl, rfl⟩ := load_ok_parts hx
  obtain ⟨-, h1, ⟨e, he, hst⟩, -, h2, -⟩ := loadIndexation_ok L hl
  refine ⟨⟨rfl, h1⟩, h2, ?_, fun _ => by show idx.entry ≠ none; rw [he]; simp⟩
  intro e' he'
  have : idx.entry = some e' := he'
  rw [he] at this
  injection this with this
  subst this
  exact hst

end Verif
