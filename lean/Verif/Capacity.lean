import Verif.SearchTop

set_option autoImplicit false

/-!
# Memory reserved by a search (for C135)

`search_layer` reserves room for `ef` elements in each of its two heaps before it looks at the index (/repo/src/hnsw.rs
929-931, 949-950).  Elsewhere the model ignores capacities.
-/

namespace Verif
variable {T : Type}

/-- what may happen to a request of memory -/
inductive MemFail where
  /-- the panic "capacity overflow" of the standard library: more than `isize::MAX` bytes -/
  | capacity
  /-- the allocator has not enough memory: the process is aborted -/
  | alloc
deriving DecidableEq, Repr

/-- `BinaryHeap::with_capacity(n)` for elements of 8 bytes (`Arc`), when `avail` bytes can be given: what is left. -/
def withCapacity (avail n : Nat) : Except MemFail Nat :=
  if 2 ^ 63 - 1 < 8 * n then .error .capacity
  else if avail < 8 * n then .error .alloc
  else .ok (avail - 8 * n)

/-- `search_layer` (/repo/src/hnsw.rs 911-1042) with the reservation of `return_points` (931), before the layer is looked at
(933), and that of `candidate_points` (949-950). -/
def searchLayerMem (avail : Nat) (P : Policy T) (eval : List T → List T → F32) (q : List T) (ef : Nat)
    (filt : Option (DataId → Bool)) (s : Idx T) (ep : Ref T) (layer : Nat) : Except MemFail (Except Panic P.H) :=
  match withCapacity avail (max ef 2) with
  | .error e => .error e
  | .ok left =>
    match s.layers[layer]? with
    | none => .ok (.error .index)
    | some [] => .ok (.ok P.empty)
    | some (_ :: _) =>
      match withCapacity left (max ef 2) with
      | .error e => .error e
      | .ok _ => .ok (slLoop P eval q ef filt (fun p => s.nb p layer) (s.points.length + 2) (slInit P eval q ep))

/-- `search_filter` (/repo/src/hnsw.rs 1462-1535) when `avail` bytes can be given to its heaps. The vectors made of the answers
(1519-1532) are not longer than the heap and are left out. -/
def searchFilterMem (avail : Nat) (P : Policy T) (cfg : Cfg T) (s : Idx T) (q : List T) (knbn efArg : Nat)
    (filt : Option (DataId → Bool)) : Except MemFail (Except Panic (List Neighbour)) :=
  match s.entry with
  | none => .ok (.ok [])
  | some ep =>
    let pivot := (descend cfg.eval q s ep.pid.layer (ep, cfg.eval q ep.data)).1
    let ef := max efArg knbn
    match lowestLayer s with
    | none => .ok (.error .overflow)
    | some l =>
      match searchLayerMem avail P cfg.eval q ef filt s pivot l with
      | .error e => .error e
      | .ok (.error e) => .ok (.error e)
      | .ok (.ok h) =>
        match P.intoSortedC h with
        | .error e => .ok (.error e)
        | .ok v => .ok (.ok ((v.take (min knbn (min ef v.length))).map PWO.toNeighbour))

/-! ## An `ef` above the number of points changes nothing -/

section
variable {P : Policy T} {eval : List T → List T → F32} {q : List T} {ef ef' : Nat} {filt : Option (DataId → Bool)}

theorem InvA.retVis {K : Ref T → Prop} {st : SL P} (h : InvA P eval q ef K st) : P.len st.ret ≤ st.vis.length := by
  have h1 : ((P.items st.ret).map (·.pt.pid)) ⊆ st.vis.map (·.pid) := by
    intro p hp
    obtain ⟨x, hx, rfl⟩ := List.mem_map.1 hp
    exact List.mem_map.2 ⟨x.pt, (h.retIn x hx).1, rfl⟩
  have := length_le_of_nodup_subset h.retNd h1
  simpa [Policy.len] using this

theorem trim_noop {r : P.H} (h : P.len r ≤ ef) : trim P ef r = r := by
  unfold trim
  rw [if_neg (by omega)]

variable {N : Nat} {K : Ref T → Prop}

theorem scanE_clamp (L : P.Lawful) (hN : ∀ l : List (Ref T), (∀ v ∈ l, K v) → (l.map (·.pid)).Nodup → l.length ≤ N)
    (h1 : N < ef) (h2 : N < ef') {st : SL P} (hI : InvA P eval q ef K st) {e : Ref T} (hK : K e) :
    scanE P eval q ef filt e st = scanE P eval q ef' filt e st := by
  unfold scanE
  by_cases hv : e.pid ∈ st.vis.map (·.pid)
  · rw [if_pos hv, if_pos hv]
  · rw [if_neg hv, if_neg hv]
    have hlen : (e :: st.vis).length ≤ N := by
      refine hN _ (fun v hv' => ?_) ?_
      · rcases List.mem_cons.1 hv' with rfl | hv'
        · exact hK
        · exact hI.visK v hv'
      · rw [List.map_cons, List.nodup_cons]
        exact ⟨hv, hI.visNd⟩
    have hret := hI.retVis
    simp only [List.length_cons] at hlen
    cases hp : P.peek st.ret with
    | none => rfl
    | some f =>
      have e1 : decide (P.len st.ret < ef) = true := decide_eq_true (by omega)
      have e2 : decide (P.len st.ret < ef') = true := decide_eq_true (by omega)
      simp only [e1, e2, Bool.or_true, if_true]
      cases P.pushC st.cand ⟨e, (eval q e.data).neg⟩ with
      | error x => rfl
      | ok cand' =>
        simp only
        cases hr : pushRet P filt st.ret ⟨e, eval q e.data⟩ with
        | error x => rfl
        | ok ret' =>
          have hl : P.len ret' ≤ P.len st.ret + 1 := by
            rcases pushRet_cases hr with ⟨h1, -⟩ | ⟨-, h1, -⟩ | ⟨h1, -, -⟩
            · subst h1; omega
            · subst h1
              have := (L.items_push st.ret ⟨e, eval q e.data⟩).length_eq
              simp [Policy.len] at this ⊢
              omega
            · subst h1
              have := (L.items_push P.empty ⟨e, eval q e.data⟩).length_eq
              rw [L.items_empty] at this
              simp [Policy.len] at this ⊢
              omega
          simp only
          rw [trim_noop (by omega), trim_noop (by omega)]

theorem scanList_clamp (L : P.Lawful) (hN : ∀ l : List (Ref T), (∀ v ∈ l, K v) → (l.map (·.pid)).Nodup → l.length ≤ N)
    (h1 : N < ef) (h2 : N < ef') : ∀ (es : List (PWO T)) {st : SL P}, InvA P eval q ef K st → (∀ e ∈ es, K e.pt) →
    scanList P eval q ef filt es st = scanList P eval q ef' filt es st := by
  intro es
  induction es with
  | nil => intro st _ _; rfl
  | cons e es ih =>
    intro st hI hK
    unfold scanList
    rw [← scanE_clamp (filt := filt) L hN h1 h2 hI (hK e (by simp))]
    cases hs : scanE P eval q ef filt e.pt st with
    | error x => rfl
    | ok o =>
      cases o with
      | stop r => rfl
      | go st' =>
        exact ih (scanE_invA L hI (hK e (by simp)) hs).1 fun e' he' => hK e' (List.mem_cons_of_mem _ he')

theorem head_clamp (hN : ∀ l : List (Ref T), (∀ v ∈ l, K v) → (l.map (·.pid)).Nodup → l.length ≤ N)
    (h1 : N < ef) (h2 : N < ef') {st : SL P} (hI : InvA P eval q ef K st) :
    head P ef filt st = head P ef' filt st := by
  have h3 := hI.retVis
  have h4 := hN _ hI.visK hI.visNd
  have e1 : decide (ef ≤ P.len st.ret) = false := decide_eq_false (by omega)
  have e2 : decide (ef' ≤ P.len st.ret) = false := decide_eq_false (by omega)
  unfold head
  simp only [e1, e2]

theorem slLoop_clamp (L : P.Lawful) {nbf : PointId → List (PWO T)} (hg : ∀ c, K c → ∀ e ∈ nbf c.pid, K e.pt)
    (hN : ∀ l : List (Ref T), (∀ v ∈ l, K v) → (l.map (·.pid)).Nodup → l.length ≤ N)
    (h1 : N < ef) (h2 : N < ef') : ∀ (n : Nat) {st : SL P}, InvA P eval q ef K st →
    slLoop P eval q ef filt nbf n st = slLoop P eval q ef' filt nbf n st := by
  intro n
  induction n with
  | zero => intro st _; rfl
  | succ n ih =>
    intro st hI
    unfold slLoop
    rw [← head_clamp (filt := filt) hN h1 h2 hI]
    have hh := head_invA (filt := filt) L hI
    cases he : head P ef filt st with
    | done r => rfl
    | panic e => rfl
    | expand c st' =>
      rw [he] at hh
      simp only at hh ⊢
      have hs : ∀ e ∈ nbf c.pid, K e.pt := hg c (hI.visK c hh.2.1)
      rw [← scanList_clamp (filt := filt) L hN h1 h2 _ hh.1 hs]
      cases hsc : scanList P eval q ef filt (nbf c.pid) st' with
      | error x => rfl
      | ok o =>
        cases o with
        | stop r => rfl
        | go st'' => exact ih (scanList_invA L hh.1 hs hsc).1

end

section
variable {P : Policy T} {cfg : Cfg T} {s : Idx T} {q : List T}

/-- `min` of what is asked for and the number of points, plus one -/
theorem searchFilter_clamp (L : P.Lawful) (h : Navig s) (knbn efArg : Nat) (filt : Option (DataId → Bool)) :
    searchFilter P cfg s q knbn efArg filt =
      searchFilter P cfg s q (min knbn (s.points.length + 1)) (min efArg (s.points.length + 1)) filt := by
  unfold searchFilter
  cases he : s.entry with
  | none => rfl
  | some ep =>
    simp only
    cases hl : lowestLayer s with
    | none => rfl
    | some l =>
      simp only
      have hst := h.entry ep he
      have hpiv := descend_stored (q := q) (cfg := cfg) h ep.pid.layer ep hst
      generalize (descend cfg.eval q s ep.pid.layer (ep, cfg.eval q ep.data)).1 = pivot at hpiv ⊢
      have hefs : max (min efArg (s.points.length + 1)) (min knbn (s.points.length + 1)) =
          min (max efArg knbn) (s.points.length + 1) := by omega
      rw [hefs]
      have hcnt : ∀ (a : Ref T) (v : List (Ref T)), (∀ x ∈ v, KP s l a x) → (v.map (·.pid)).Nodup →
          v.length ≤ s.points.length := fun a v hv hn => h.tab.count (fun x hx => (hv x hx).1) hn
      have hI : InvA P cfg.eval q (max efArg knbn) (KP s l pivot) (slInit P cfg.eval q pivot) :=
        invA_init L ⟨hpiv, .refl⟩
      have hsl : searchLayer P cfg.eval q (max efArg knbn) filt s pivot l =
          searchLayer P cfg.eval q (min (max efArg knbn) (s.points.length + 1)) filt s pivot l := by
        by_cases hle : max efArg knbn ≤ s.points.length
        · rw [Nat.min_eq_left (by omega)]
        · unfold searchLayer
          split
          · rfl
          · rfl
          · exact slLoop_clamp L (kp_step h l pivot) (hcnt pivot) (by omega) (by omega) _ hI
      rw [← hsl]
      cases hr : searchLayer P cfg.eval q (max efArg knbn) filt s pivot l with
      | error e => rfl
      | ok r =>
        simp only
        have hlen : (P.items r).length ≤ s.points.length := by
          unfold searchLayer at hr
          split at hr
          · cases hr
          · cases hr
            rw [L.items_empty]
            exact Nat.zero_le _
          · have hA := slLoop_resA L (kp_step h l pivot) _ hI hr
            have := hcnt pivot ((P.items r).map (·.pt)) (fun v hv => by
              obtain ⟨x, hx, rfl⟩ := List.mem_map.1 hv
              exact hA.inK x hx) (by rw [List.map_map]; exact hA.nd)
            simpa using this
        cases hs : P.intoSortedC r with
        | error e => rfl
        | ok w =>
          have hw : P.intoSorted r = w := by
            unfold Policy.intoSortedC at hs
            split at hs
            · cases hs
            · exact Except.ok.inj hs
          subst hw
          have hv := (L.intoSorted_perm r).length_eq
          have hm : min knbn (min (max efArg knbn) (P.intoSorted r).length) =
              min (min knbn (s.points.length + 1)) (min (min (max efArg knbn) (s.points.length + 1)) (P.intoSorted r).length) := by
            omega
          simp only
          rw [hm]

end

end Verif
