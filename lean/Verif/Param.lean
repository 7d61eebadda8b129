import Verif.Reach

set_option autoImplicit false

/-!
# Two indexes on related data

A relation between two sorts of vectors, two sorts of ids and two distances (`DSim`) carries over to
heaps, searches, programs, executions and states, as long as related distances compare alike.
-/

namespace Verif

/-- element-wise relation of two lists -/
inductive Rel2 {α β : Type} (R : α → β → Prop) : List α → List β → Prop
  | nil : Rel2 R [] []
  | cons {a : α} {b : β} {l : List α} {l' : List β} : R a b → Rel2 R l l' → Rel2 R (a :: l) (b :: l')

namespace Rel2
variable {α β γ δ : Type} {R : α → β → Prop}

theorem length {l : List α} {l' : List β} (h : Rel2 R l l') : l.length = l'.length := by
  induction h with
  | nil => rfl
  | cons _ _ ih => simp [ih]

theorem append {l m : List α} {l' m' : List β} (h : Rel2 R l l') (h2 : Rel2 R m m') :
    Rel2 R (l ++ m) (l' ++ m') := by
  induction h with
  | nil => exact h2
  | cons h1 _ ih => exact .cons h1 ih

theorem snoc {l : List α} {l' : List β} (h : Rel2 R l l') {a : α} {b : β} (hab : R a b) :
    Rel2 R (l ++ [a]) (l' ++ [b]) := h.append (.cons hab .nil)

theorem reverse {l : List α} {l' : List β} (h : Rel2 R l l') : Rel2 R l.reverse l'.reverse := by
  induction h with
  | nil => exact .nil
  | cons h1 _ ih =>
    rw [List.reverse_cons, List.reverse_cons]
    exact ih.snoc h1

theorem map {Q : γ → δ → Prop} {f : α → γ} {g : β → δ} (hf : ∀ a b, R a b → Q (f a) (g b))
    {l : List α} {l' : List β} (h : Rel2 R l l') : Rel2 Q (l.map f) (l'.map g) := by
  induction h with
  | nil => exact .nil
  | cons h1 _ ih => exact .cons (hf _ _ h1) ih

theorem map_eq {f : α → γ} {g : β → γ} (hf : ∀ a b, R a b → f a = g b) {l : List α} {l' : List β}
    (h : Rel2 R l l') : l.map f = l'.map g := by
  induction h with
  | nil => rfl
  | cons h1 _ ih => simp [hf _ _ h1, ih]

theorem any_eq {f : α → Bool} {g : β → Bool} (hf : ∀ a b, R a b → f a = g b) {l : List α}
    {l' : List β} (h : Rel2 R l l') : l.any f = l'.any g := by
  induction h with
  | nil => rfl
  | cons h1 _ ih => simp [hf _ _ h1, ih]

theorem take {l : List α} {l' : List β} (h : Rel2 R l l') (n : Nat) :
    Rel2 R (l.take n) (l'.take n) := by
  induction h generalizing n with
  | nil => simp; exact .nil
  | cons h1 _ ih =>
    cases n with
    | zero => exact .nil
    | succ n => exact .cons h1 (ih n)

theorem dropLast {l : List α} {l' : List β} (h : Rel2 R l l') : Rel2 R l.dropLast l'.dropLast := by
  rw [List.dropLast_eq_take, List.dropLast_eq_take, h.length]
  exact h.take _

theorem nil_iff {l : List α} {l' : List β} (h : Rel2 R l l') : l = [] ↔ l' = [] := by
  cases h <;> simp

theorem flatten {l : List (List α)} {l' : List (List β)} (h : Rel2 (Rel2 R) l l') :
    Rel2 R l.flatten l'.flatten := by
  induction h with
  | nil => exact .nil
  | cons h1 _ ih => exact h1.append ih

theorem imp {Q : α → β → Prop} (hq : ∀ a b, R a b → Q a b) {l : List α} {l' : List β}
    (h : Rel2 R l l') : Rel2 Q l l' := by
  induction h with
  | nil => exact .nil
  | cons h1 _ ih => exact .cons (hq _ _ h1) ih

theorem get {l : List α} {l' : List β} (h : Rel2 R l l') {i : Nat} (h1 : i < l.length)
    (h2 : i < l'.length) : R l[i] l'[i] := by
  induction h generalizing i with
  | nil => cases h1
  | cons h3 _ ih =>
    cases i with
    | zero => exact h3
    | succ i => exact ih _ _

theorem set {l : List α} {l' : List β} (h : Rel2 R l l') {a : α} {b : β} (hab : R a b) (i : Nat) :
    Rel2 R (l.set i a) (l'.set i b) := by
  induction h generalizing i with
  | nil => exact .nil
  | cons h1 h2 ih =>
    cases i with
    | zero => exact .cons hab h2
    | succ i => exact .cons h1 (ih i)

theorem refl {S : α → α → Prop} (hS : ∀ a, S a a) : ∀ l : List α, Rel2 S l l
  | [] => .nil
  | a :: l => .cons (hS a) (refl hS l)

theorem eq_of {l l' : List α} (h : Rel2 (· = ·) l l') : l = l' := by
  induction h with
  | nil => rfl
  | cons h1 _ ih => rw [h1, ih]

theorem of_map {f : α → β} (hf : ∀ a, R a (f a)) : ∀ l : List α, Rel2 R l (l.map f)
  | [] => .nil
  | a :: l => .cons (hf a) (of_map hf l)

end Rel2

/-- relation of optional values -/
inductive OptR {α β : Type} (R : α → β → Prop) : Option α → Option β → Prop
  | none : OptR R none none
  | some {a : α} {b : β} : R a b → OptR R (some a) (some b)

/-- relation of computations that may panic: same panic or related results -/
inductive ExcR {α β : Type} (R : α → β → Prop) : Except Panic α → Except Panic β → Prop
  | error (e : Panic) : ExcR R (.error e) (.error e)
  | ok {a : α} {b : β} : R a b → ExcR R (.ok a) (.ok b)

/-- Relations between vectors, ids and distances. -/
structure DSim (T T' : Type) where
  data : List T → List T' → Prop
  id : DataId → DataId → Prop
  dist : F32 → F32 → Prop

variable {T T' : Type} (S : DSim T T')

/-- related points: same place in the table -/
structure DSim.Ref (a : Ref T) (a' : Verif.Ref T') : Prop where
  pid : a.pid = a'.pid
  id : S.id a.origin a'.origin
  data : S.data a.data a'.data

/-- related elements of heaps and lists -/
structure DSim.PWO (x : PWO T) (x' : Verif.PWO T') : Prop where
  pt : S.Ref x.pt x'.pt
  dist : S.dist x.dist x'.dist

/-- Related distances compare alike, also with zero, and so do their opposites. -/
structure DSim.Mono : Prop where
  nan : ∀ {x y}, S.dist x y → x.isNaN = y.isNaN
  key : ∀ {x y x' y'}, S.dist x y → S.dist x' y' → (x.key ≤ x'.key ↔ y.key ≤ y'.key)
  zero : S.dist F32.zero F32.zero
  neg : ∀ {x y}, S.dist x y → S.dist x.neg y.neg

/-- Related vectors have related distances. -/
def DSim.Eval (eval : List T → List T → F32) (eval' : List T' → List T' → F32) : Prop :=
  ∀ v v' w w', S.data v v' → S.data w w' → S.dist (eval v w) (eval' v' w')

/-- Containers that treat related contents alike. -/
structure PolRel (P : Policy T) (P' : Policy T') where
  H : P.H → P'.H → Prop
  empty : H P.empty P'.empty
  push : ∀ {h h' x x'}, H h h' → S.PWO x x' → H (P.push h x) (P'.push h' x')
  pop : ∀ {h h'}, H h h' → OptR (fun a b => S.PWO a.1 b.1 ∧ H a.2 b.2) (P.pop h) (P'.pop h')
  items : ∀ {h h'}, H h h' → Rel2 S.PWO (P.items h) (P'.items h')
  intoSorted : ∀ {h h'}, H h h' → Rel2 S.PWO (P.intoSorted h) (P'.intoSorted h')
  sort : ∀ {l l'}, Rel2 S.PWO l l' → Rel2 S.PWO (P.sort l) (P'.sort l')
  pushPanics : ∀ {h h' x x'}, H h h' → S.PWO x x' → P.pushPanics h x = P'.pushPanics h' x'
  intoSortedPanics : ∀ {h h'}, H h h' → P.intoSortedPanics h = P'.intoSortedPanics h'
  sortPanics : ∀ {l l'}, Rel2 S.PWO l l' → P.sortPanics l = P'.sortPanics l'
  hash : ∀ p l k {r r'}, Rel2 S.Ref r r' → Rel2 S.Ref (P.hashOrder p l k r) (P'.hashOrder p l k r')

variable {S} {P : Policy T} {P' : Policy T'}

namespace DSim.Mono

theorem lt (M : S.Mono) {x y x' y' : F32} (h : S.dist x y) (h' : S.dist x' y') :
    x.lt x' = y.lt y' := by
  unfold F32.lt
  rw [M.nan h, M.nan h']
  have := M.key h' h
  by_cases hc : x.key < x'.key
  · have h2 : y.key < y'.key := by
      apply Classical.byContradiction
      intro h3
      have := this.2 (by omega)
      omega
    simp [hc, h2]
  · have h2 : ¬ y.key < y'.key := by
      have := this.1 (by omega)
      omega
    simp [hc, h2]

theorem le (M : S.Mono) {x y x' y' : F32} (h : S.dist x y) (h' : S.dist x' y') :
    x.le x' = y.le y' := by
  unfold F32.le
  rw [M.nan h, M.nan h', decide_eq_decide.2 (M.key h h')]

end DSim.Mono

/-! ## Heaps -/

section
variable (R : PolRel S P P') (M : S.Mono)

theorem PolRel.len {h : P.H} {h' : P'.H} (hh : R.H h h') : P.len h = P'.len h' := (R.items hh).length

theorem PolRel.peek {h : P.H} {h' : P'.H} (hh : R.H h h') : OptR S.PWO (P.peek h) (P'.peek h') := by
  unfold Policy.peek
  have := R.pop hh
  generalize P.pop h = a at this
  generalize P'.pop h' = b at this
  cases this with
  | none => exact .none
  | some h1 => exact .some h1.1

theorem PolRel.pushC {h : P.H} {h' : P'.H} (hh : R.H h h') {x : PWO T} {x' : PWO T'} (hx : S.PWO x x') :
    ExcR R.H (P.pushC h x) (P'.pushC h' x') := by
  unfold Policy.pushC
  rw [R.pushPanics hh hx]
  split
  · exact .error _
  · exact .ok (R.push hh hx)

include R in
theorem PolRel.sortC {l : List (PWO T)} {l' : List (PWO T')} (hl : Rel2 S.PWO l l') :
    ExcR (Rel2 S.PWO) (P.sortC l) (P'.sortC l') := by
  unfold Policy.sortC
  rw [R.sortPanics hl]
  split
  · exact .error _
  · exact .ok (R.sort hl)

theorem PolRel.intoSortedC {h : P.H} {h' : P'.H} (hh : R.H h h') :
    ExcR (Rel2 S.PWO) (P.intoSortedC h) (P'.intoSortedC h') := by
  unfold Policy.intoSortedC
  rw [R.intoSortedPanics hh]
  split
  · exact .error _
  · exact .ok (R.intoSorted hh)

theorem PolRel.pushAll {l : List (PWO T)} {l' : List (PWO T')} (hl : Rel2 S.PWO l l') :
    ∀ {h : P.H} {h' : P'.H}, R.H h h' → ExcR R.H (P.pushAll h l) (P'.pushAll h' l') := by
  induction hl with
  | nil => intro h h' hh; exact .ok hh
  | @cons a b l l' h1 _ ih =>
    intro h h' hh
    simp only [Policy.pushAll]
    have := R.pushC hh h1
    generalize P.pushC h a = x at this
    generalize P'.pushC h' b = y at this
    cases this with
    | error e => exact .error e
    | ok h2 => exact ih h2

/-! ## The search loop -/

/-- related local variables of a search -/
structure SLRel (st : SL P) (st' : SL P') : Prop where
  cand : R.H st.cand st'.cand
  ret : R.H st.ret st'.ret
  vis : Rel2 S.Ref st.vis st'.vis

/-- related outcomes of the head of the loop -/
inductive HeadR : Head P → Head P' → Prop
  | done {r : P.H} {r' : P'.H} : R.H r r' → HeadR (.done r) (.done r')
  | panic (e : Panic) : HeadR (.panic e) (.panic e)
  | expand {c : Ref T} {c' : Ref T'} {st : SL P} {st' : SL P'} : S.Ref c c' → SLRel R st st' →
      HeadR (.expand c st) (.expand c' st')

/-- related outcomes of a scan -/
inductive ScanR : Scan P → Scan P' → Prop
  | go {st : SL P} {st' : SL P'} : SLRel R st st' → ScanR (.go st) (.go st')
  | stop {r : P.H} {r' : P'.H} : R.H r r' → ScanR (.stop r) (.stop r')

/-- related filters -/
def FiltR (S : DSim T T') (φ φ' : Option (DataId → Bool)) : Prop :=
  OptR (fun f f' => ∀ i i', S.id i i' → f i = f' i') φ φ'

theorem trim_rel (ef : Nat) {h : P.H} {h' : P'.H} (hh : R.H h h') :
    R.H (trim P ef h) (trim P' ef h') := by
  unfold trim
  rw [R.len hh]
  split
  · have := R.pop hh
    generalize P.pop h = a at this
    generalize P'.pop h' = b at this
    cases this with
    | none => exact hh
    | some h1 => exact h1.2
  · exact hh

include M in
theorem pushRet_rel {φ φ' : Option (DataId → Bool)} (hφ : FiltR S φ φ') {h : P.H} {h' : P'.H}
    (hh : R.H h h') {x : PWO T} {x' : PWO T'} (hx : S.PWO x x') :
    ExcR R.H (pushRet P φ h x) (pushRet P' φ' h' x') := by
  cases hφ with
  | none => exact R.pushC hh hx
  | @some f f' hf =>
    simp only [pushRet]
    rw [hf _ _ hx.pt.id]
    split
    · apply R.pushC _ hx
      rw [R.len hh]
      split
      · have := R.peek hh
        generalize P.peek h = a at this
        generalize P'.peek h' = b at this
        cases this with
        | none => exact hh
        | some h1 =>
          simp only [hf _ _ h1.pt.id]
          split
          · exact hh
          · exact R.empty
      · exact hh
    · exact .ok hh

theorem vis_rel {l : List (Ref T)} {l' : List (Ref T')} (h : Rel2 S.Ref l l') :
    l.map (·.pid) = l'.map (·.pid) := h.map_eq (fun _ _ h => h.pid)

variable {eval : List T → List T → F32} {eval' : List T' → List T' → F32} (E : S.Eval eval eval')
  {q : List T} {q' : List T'} (hq : S.data q q')

include M E hq in
theorem scanE_rel {φ φ' : Option (DataId → Bool)} (hφ : FiltR S φ φ') (ef : Nat) {e : Ref T}
    {e' : Ref T'} (he : S.Ref e e') {st : SL P} {st' : SL P'} (hst : SLRel R st st') :
    ExcR (ScanR R) (scanE P eval q ef φ e st) (scanE P' eval' q' ef φ' e' st') := by
  unfold scanE
  rw [vis_rel hst.vis, he.pid]
  split
  · exact .ok (.go hst)
  · have hp := R.peek hst.ret
    generalize P.peek st.ret = a at hp
    generalize P'.peek st'.ret = b at hp
    cases hp with
    | none => exact .ok (.stop hst.ret)
    | some h1 =>
      have hd := E _ _ _ _ hq he.data
      simp only [M.lt hd h1.dist, R.len hst.ret]
      split
      · have h2 := R.pushC hst.cand (x := ⟨e, (eval q e.data).neg⟩)
          (x' := ⟨e', (eval' q' e'.data).neg⟩) ⟨he, M.neg hd⟩
        generalize P.pushC st.cand ⟨e, (eval q e.data).neg⟩ = a2 at h2
        generalize P'.pushC st'.cand ⟨e', (eval' q' e'.data).neg⟩ = b2 at h2
        cases h2 with
        | error x => exact .error x
        | ok h2 =>
          have h3 := pushRet_rel R M hφ hst.ret (x := ⟨e, eval q e.data⟩)
            (x' := ⟨e', eval' q' e'.data⟩) ⟨he, hd⟩
          generalize pushRet P φ st.ret ⟨e, eval q e.data⟩ = a3 at h3
          generalize pushRet P' φ' st'.ret ⟨e', eval' q' e'.data⟩ = b3 at h3
          cases h3 with
          | error x => exact .error x
          | ok h3 => exact .ok (.go ⟨h2, trim_rel R ef h3, .cons he hst.vis⟩)
      · exact .ok (.go ⟨hst.cand, hst.ret, .cons he hst.vis⟩)

include M E hq in
theorem scanList_rel {φ φ' : Option (DataId → Bool)} (hφ : FiltR S φ φ') (ef : Nat)
    {l : List (PWO T)} {l' : List (PWO T')} (hl : Rel2 S.PWO l l') :
    ∀ {st : SL P} {st' : SL P'}, SLRel R st st' →
    ExcR (ScanR R) (scanList P eval q ef φ l st) (scanList P' eval' q' ef φ' l' st') := by
  induction hl with
  | nil => intro st st' hst; exact .ok (.go hst)
  | @cons a b l l' h1 _ ih =>
    intro st st' hst
    simp only [scanList]
    have := scanE_rel R M E hq hφ ef h1.pt hst
    generalize scanE P eval q ef φ a.pt st = x at this
    generalize scanE P' eval' q' ef φ' b.pt st' = y at this
    cases this with
    | error e => exact .error e
    | ok h2 =>
      cases h2 with
      | stop h3 => exact .ok (.stop h3)
      | go h3 => exact ih h3

theorem filt_isNone {φ φ' : Option (DataId → Bool)} (hφ : FiltR S φ φ') : φ.isNone = φ'.isNone := by
  cases hφ <;> rfl

include M in
theorem head_rel {φ φ' : Option (DataId → Bool)} (hφ : FiltR S φ φ') (ef : Nat) {st : SL P}
    {st' : SL P'} (hst : SLRel R st st') : HeadR R (head P ef φ st) (head P' ef φ' st') := by
  unfold head
  have hp := R.pop hst.cand
  generalize P.pop st.cand = a at hp
  generalize P'.pop st'.cand = b at hp
  cases hp with
  | none => exact .done hst.ret
  | @some a b h1 =>
    obtain ⟨c, cand⟩ := a
    obtain ⟨c', cand'⟩ := b
    have hk := R.peek hst.ret
    simp only
    generalize P.peek st.ret = x at hk
    generalize P'.peek st'.ret = y at hk
    cases hk with
    | none => exact .panic _
    | some h2 =>
      simp only [M.le M.zero h2.dist, M.le h1.1.dist M.zero, M.lt h2.dist (M.neg h1.1.dist),
        filt_isNone hφ, R.len hst.ret]
      split
      · exact .panic _
      · split
        · exact .panic _
        · split
          · exact .done hst.ret
          · exact .expand h1.1.pt ⟨h1.2, hst.ret, hst.vis⟩

include M E hq in
theorem slInit_rel {ep : Ref T} {ep' : Ref T'} (he : S.Ref ep ep') :
    SLRel R (slInit P eval q ep) (slInit P' eval' q' ep') := by
  have hd := E _ _ _ _ hq he.data
  exact ⟨R.push R.empty ⟨he, M.neg hd⟩, R.push R.empty ⟨he, hd⟩, .cons he .nil⟩

include M E hq in
theorem slLoop_rel {φ φ' : Option (DataId → Bool)} (hφ : FiltR S φ φ') (ef : Nat)
    {nbf : PointId → List (PWO T)} {nbf' : PointId → List (PWO T')}
    (hn : ∀ p, Rel2 S.PWO (nbf p) (nbf' p)) : ∀ (n : Nat) {st : SL P} {st' : SL P'},
    SLRel R st st' →
    ExcR R.H (slLoop P eval q ef φ nbf n st) (slLoop P' eval' q' ef φ' nbf' n st') := by
  intro n
  induction n with
  | zero => intros; exact .error _
  | succ n ih =>
    intro st st' hst
    simp only [slLoop]
    have h1 := head_rel R M hφ ef hst
    generalize head P ef φ st = a at h1
    generalize head P' ef φ' st' = b at h1
    cases h1 with
    | done h => exact .ok h
    | panic e => exact .error e
    | @expand c c' st st' hc hst =>
      have h2 := scanList_rel R M E hq hφ ef (hn c.pid) hst
      simp only [← hc.pid]
      generalize scanList P eval q ef φ (nbf c.pid) st = x at h2
      generalize scanList P' eval' q' ef φ' (nbf' c.pid) st' = y at h2
      cases h2 with
      | error e => exact .error e
      | ok h3 =>
        cases h3 with
        | stop h => exact .ok h
        | go h => exact ih h

end

/-! ## Indexes and searches -/

/-- related indexes: the same graph on related points -/
structure IdxR (S : DSim T T') (s : Idx T) (s' : Idx T') : Prop where
  layers : Rel2 (Rel2 S.Ref) s.layers s'.layers
  nb : ∀ p l, Rel2 S.PWO (s.nb p l) (s'.nb p l)
  count : s.nbPoint = s'.nbPoint
  entry : OptR S.Ref s.entry s'.entry

theorem IdxR.layerOpt {s : Idx T} {s' : Idx T'} (h : IdxR S s s') (l : Nat) :
    OptR (Rel2 S.Ref) s.layers[l]? s'.layers[l]? := by
  by_cases hl : l < s.layers.length
  · have hl' : l < s'.layers.length := by rw [← h.layers.length]; exact hl
    rw [List.getElem?_eq_getElem hl, List.getElem?_eq_getElem hl']
    exact .some (h.layers.get hl hl')
  · have hl' : ¬ l < s'.layers.length := by rw [← h.layers.length]; exact hl
    rw [List.getElem?_eq_none (by omega), List.getElem?_eq_none (by omega)]
    exact .none

theorem IdxR.points {s : Idx T} {s' : Idx T'} (h : IdxR S s s') : Rel2 S.Ref s.points s'.points :=
  h.layers.flatten

section
variable (R : PolRel S P P') (M : S.Mono) {cfg : Cfg T} {cfg' : Cfg T'}
  (E : S.Eval cfg.eval cfg'.eval) {q : List T} {q' : List T'} (hq : S.data q q') {s : Idx T} {s' : Idx T'}
  (hs : IdxR S s s')

include M E hq in
theorem scanPivot_rel {l : List (PWO T)} {l' : List (PWO T')} (hl : Rel2 S.PWO l l') :
    ∀ {x : Ref T × F32} {x' : Ref T' × F32}, S.Ref x.1 x'.1 → S.dist x.2 x'.2 →
    S.Ref (scanPivot cfg.eval q l x).1 (scanPivot cfg'.eval q' l' x').1 ∧
    S.dist (scanPivot cfg.eval q l x).2 (scanPivot cfg'.eval q' l' x').2 := by
  induction hl with
  | nil => intro x x' h1 h2; exact ⟨h1, h2⟩
  | @cons a b l l' h1 _ ih =>
    intro x x' h2 h3
    simp only [scanPivot]
    have hd := E _ _ _ _ hq h1.pt.data
    rw [M.lt hd h3]
    split
    · exact ih h1.pt hd
    · exact ih h2 h3

include M E hq hs in
theorem descend_rel : ∀ (l : Nat) {x : Ref T × F32} {x' : Ref T' × F32}, S.Ref x.1 x'.1 →
    S.dist x.2 x'.2 →
    S.Ref (descend cfg.eval q s l x).1 (descend cfg'.eval q' s' l x').1 := by
  intro l
  induction l with
  | zero => intro x x' h1 _; exact h1
  | succ l ih =>
    intro x x' h1 h2
    simp only [descend]
    have hn := hs.nb x.1.pid (l + 1)
    have h3 := scanPivot_rel M E hq hn h1 h2
    rw [← h1.pid]
    exact ih h3.1 h3.2

include hs in
theorem lowestLayer_rel : lowestLayer s = lowestLayer s' := by
  unfold lowestLayer
  have h := hs.layers
  generalize s.layers = a at h
  generalize s'.layers = b at h
  induction h with
  | nil => rfl
  | cons h1 _ ih =>
    rw [List.findIdx?_cons, List.findIdx?_cons, ih]
    have : (List.isEmpty : List (Ref T) → Bool) = fun l => l.isEmpty := rfl
    cases h1 <;> rfl

/-- related answers -/
structure AnsR (S : DSim T T') (a a' : Neighbour) : Prop where
  id : S.id a.dId a'.dId
  dist : S.dist a.distance a'.distance
  pid : a.pId = a'.pId

include R M E hq hs in
/-- related searches give related answers, or the same panic -/
theorem searchFilter_rel {φ φ' : Option (DataId → Bool)} (hφ : FiltR S φ φ') (knbn ef : Nat) :
    ExcR (Rel2 (AnsR S)) (searchFilter P cfg s q knbn ef φ) (searchFilter P' cfg' s' q' knbn ef φ') := by
  unfold searchFilter
  have he := hs.entry
  generalize s.entry = a at he
  generalize s'.entry = b at he
  cases he with
  | none => exact .ok .nil
  | @some ep ep' he =>
    simp only
    rw [lowestLayer_rel hs, ← he.pid]
    have hpv := descend_rel M E hq hs ep.pid.layer (x := (ep, cfg.eval q ep.data))
      (x' := (ep', cfg'.eval q' ep'.data)) he (E _ _ _ _ hq he.data)
    generalize (descend cfg.eval q s ep.pid.layer (ep, cfg.eval q ep.data)).1 = pv at hpv
    generalize (descend cfg'.eval q' s' ep.pid.layer (ep', cfg'.eval q' ep'.data)).1 = pv' at hpv
    cases lowestLayer s' with
    | none => exact .error _
    | some l =>
      simp only
      have h1 : ExcR R.H (searchLayer P cfg.eval q (max ef knbn) φ s pv l)
          (searchLayer P' cfg'.eval q' (max ef knbn) φ' s' pv' l) := by
        unfold searchLayer
        have hl := hs.layerOpt l
        generalize s.layers[l]? = x at hl
        generalize s'.layers[l]? = y at hl
        cases hl with
        | none => exact .error _
        | some hl =>
          cases hl with
          | nil => exact .ok R.empty
          | cons _ _ =>
            simp only
            rw [hs.points.length]
            exact slLoop_rel R M E hq hφ _ (fun p => hs.nb p l) _ (slInit_rel R M E hq hpv)
      generalize searchLayer P cfg.eval q (max ef knbn) φ s pv l = x at h1
      generalize searchLayer P' cfg'.eval q' (max ef knbn) φ' s' pv' l = y at h1
      cases h1 with
      | error e => exact .error e
      | @ok h h' h1 =>
        simp only
        have h2 := R.intoSortedC h1
        generalize P.intoSortedC h = x at h2
        generalize P'.intoSortedC h' = y at h2
        cases h2 with
        | error e => exact .error e
        | ok h2 =>
          simp only [h2.length]
          exact .ok ((h2.take _).map (fun a b h => ⟨h.pt.id, h.dist, h.pt.pid⟩))

end

end Verif
