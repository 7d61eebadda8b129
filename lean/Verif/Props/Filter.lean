import Verif.Filter
import Verif.Props.Search

set_option autoImplicit false

/-!
# Properties of vector filters and of parallel searches (C11, C12)
-/

namespace Verif
variable {T : Type} {P : Policy T} {cfg : Cfg T}

theorem bsLoop_spec {v : List DataId} (hs : v.Pairwise (· ≤ ·)) {id : DataId} :
    ∀ (n size base : Nat), size ≤ n + 1 → base + size ≤ v.length →
      (∃ j, base ≤ j ∧ j < base + size ∧ v[j]? = some id) →
      v[bsLoop v id n size base]? = some id := by
  intro n
  induction n with
  | zero =>
    rintro size base h1 h2 ⟨j, h3, h4, h5⟩
    have : j = base := by omega
    subst this
    exact h5
  | succ n ih =>
    rintro size base h1 h2 ⟨j, h3, h4, h5⟩
    simp only [bsLoop]
    by_cases h6 : size ≤ 1
    · rw [if_pos h6]
      have : j = base := by omega
      subst this
      exact h5
    · rw [if_neg h6]
      have hmid : base + size / 2 < v.length := by omega
      have hj : j < v.length := by omega
      rw [List.getElem?_eq_getElem hj] at h5
      have h5' : v[j] = id := by simpa using h5
      rw [List.getElem?_eq_getElem hmid, Option.getD_some]
      have hle : ∀ (a b : Nat) (ha : a < v.length) (hb : b < v.length), a ≤ b → v[a] ≤ v[b] := by
        intro a b ha hb hab
        rcases Nat.lt_or_eq_of_le hab with h | h
        · exact List.pairwise_iff_getElem.1 hs a b ha hb h
        · subst h; exact UInt64.le_refl _
      by_cases h7 : id < v[base + size / 2]
      · rw [if_pos h7]
        apply ih
        · omega
        · omega
        · refine ⟨j, h3, ?_, by rw [List.getElem?_eq_getElem hj, h5']⟩
          apply Classical.byContradiction
          intro hn
          have := hle (base + size / 2) j hmid hj (by omega)
          rw [h5'] at this
          exact UInt64.not_lt.2 this h7
      · rw [if_neg h7]
        apply ih
        · omega
        · omega
        · by_cases h8 : j < base + size / 2
          · refine ⟨base + size / 2, Nat.le_refl _, by omega, ?_⟩
            rw [List.getElem?_eq_getElem hmid]
            have h9 := hle j (base + size / 2) hj hmid (by omega)
            rw [h5'] at h9
            exact congrArg some (UInt64.le_antisymm (UInt64.not_lt.1 h7) h9)
          · exact ⟨j, by omega, by omega, by rw [List.getElem?_eq_getElem hj, h5']⟩

/-- **C11** A sorted vector used as a filter accepts exactly its elements. -/
theorem C11_vec_filter (v : List DataId) (hs : v.Pairwise (· ≤ ·)) (id : DataId) :
    vecFilter v id = true ↔ id ∈ v := by
  unfold vecFilter
  split
  · rename_i h
    rw [List.length_eq_zero_iff.1 h]
    simp
  · rw [decide_eq_true_eq]
    constructor
    · intro h; exact List.mem_of_getElem? h
    · intro h
      obtain ⟨j, hj, hj'⟩ := List.getElem_of_mem h
      exact bsLoop_spec hs v.length v.length 0 (by omega) (by omega)
        ⟨j, Nat.zero_le _, by omega, by rw [List.getElem?_eq_getElem hj, hj']⟩

/-- **C11**, any vector: only its elements can be accepted. -/
theorem C11_vec_filter_sound (v : List DataId) (id : DataId) (h : vecFilter v id = true) : id ∈ v := by
  unfold vecFilter at h
  split at h
  · cases h
  · rw [decide_eq_true_eq] at h
    exact List.mem_of_getElem? h

example : [(2 : DataId), 3, 3, 7, 9, 20, 21].Pairwise (· ≤ ·) ∧
    [(1 : DataId), 2, 3, 5, 7, 9, 20, 21, 22].map (vecFilter [2, 3, 3, 7, 9, 20, 21]) =
      [false, true, true, false, true, true, true, true, false] := by decide

/-- an unsorted vector refuses some of its elements: the documentation asks for a sorted one -/
example : vecFilter [9, 2, 3] 9 = false := by decide

theorem arrivals_ok {s : Idx T} {datas : List (List T)} {knbn ef : Nat} : ∀ (order : List Nat)
    (res : List (Nat × List Neighbour)), arrivals P cfg s datas knbn ef order = .ok res ↔
      res.map (·.1) = order ∧ ∀ x ∈ res, ∃ q, datas[x.1]? = some q ∧ search P cfg s q knbn ef = .ok x.2 := by
  intro order
  induction order with
  | nil =>
    intro res
    simp only [arrivals]
    constructor
    · intro h; cases h; simp
    · rintro ⟨h, -⟩
      have := List.map_eq_nil_iff.1 h
      rw [this]
  | cons i is ih =>
    intro res
    simp only [arrivals]
    constructor
    · intro h
      split at h
      · cases h
      · rename_i q hq
        split at h
        · cases h
        · rename_i a ha
          split at h
          · cases h
          · rename_i as has
            cases h
            obtain ⟨h1, h2⟩ := (ih as).1 has
            refine ⟨by simp [h1], ?_⟩
            intro x hx
            rcases List.mem_cons.1 hx with rfl | hx
            · exact ⟨q, hq, ha⟩
            · exact h2 x hx
    · rintro ⟨h1, h2⟩
      cases res with
      | nil => simp at h1
      | cons x xs =>
        simp only [List.map_cons, List.cons.injEq] at h1
        obtain ⟨rfl, h1⟩ := h1
        obtain ⟨q, hq, ha⟩ := h2 x (by simp)
        rw [hq]
        simp only [ha]
        rw [(ih xs).2 ⟨h1, fun y hy => h2 y (List.mem_cons_of_mem _ hy)⟩]

theorem rankMap_spec : ∀ (res : List (Nat × List Neighbour)) (i : Nat) (m : Nat → Option Nat) (k : Nat),
    (res.map (·.1)).Nodup →
    (k ∉ res.map (·.1) → rankMap res i m k = m k) ∧
    (∀ (r : Nat) (x : Nat × List Neighbour), res[r]? = some x → x.1 = k → rankMap res i m k = some (i + r)) := by
  intro res
  induction res with
  | nil => intro i m k _; exact ⟨fun _ => rfl, by simp⟩
  | cons e es ih =>
    intro i m k hnd
    obtain ⟨k0, a⟩ := e
    simp only [List.map_cons, List.nodup_cons] at hnd
    obtain ⟨h1, h2⟩ := ih (i + 1) (fun x => if x = k0 then some i else m x) k hnd.2
    simp only [rankMap]
    constructor
    · intro hk
      simp only [List.map_cons, List.mem_cons, not_or] at hk
      rw [h1 hk.2, if_neg hk.1]
    · intro r x hr hx
      cases r with
      | zero =>
        simp only [List.getElem?_cons_zero, Option.some.injEq] at hr
        subst hr
        simp only at hx
        subst hx
        rw [h1 hnd.1, if_pos rfl]
        rfl
      | succ r =>
        rw [List.getElem?_cons_succ] at hr
        rw [h2 r x hr hx]
        congr 1
        omega

theorem collect_ok {res : List (Nat × List Neighbour)} {m : Nat → Option Nat} : ∀ (is : List Nat)
    (as : List (List Neighbour)), as.length = is.length →
    (∀ (k i : Nat), is[k]? = some i → ∃ (r : Nat) (x : Nat × List Neighbour), m i = some r ∧ res[r]? = some x ∧ as[k]? = some x.2) →
    collectAnswers res m is = .ok as := by
  intro is
  induction is with
  | nil => intro as h _; rw [List.length_eq_zero_iff.1 h]; rfl
  | cons i is ih =>
    intro as h hall
    cases as with
    | nil => simp at h
    | cons a as =>
      obtain ⟨r, x, h1, h2, h3⟩ := hall 0 i rfl
      simp only [List.getElem?_cons_zero, Option.some.injEq] at h3
      subst h3
      simp only [collectAnswers, h1, h2]
      rw [ih as (by simpa using h) (fun k j hk => by simpa using hall (k + 1) j (by simpa using hk))]

/-- **C12** `parallel_search` returns, in the order of the requests, exactly the answers `search` gives
for each of them, whatever the order in which the workers deliver the answers; it returns iff all
the searches return. -/
theorem C12_parallel_search (s : Idx T) (datas : List (List T)) (knbn ef : Nat) (order : List Nat)
    (ho : order.Perm (List.range datas.length)) (answers : List (List Neighbour)) :
    parallelSearch P cfg s datas knbn ef order = .ok answers ↔
      answers.length = datas.length ∧
      ∀ (i : Nat) (q : List T), datas[i]? = some q →
        ∃ a, answers[i]? = some a ∧ search P cfg s q knbn ef = .ok a := by
  -- if all searches return, so does the parallel one, with these answers
  have main : ∀ as : List (List Neighbour), as.length = datas.length →
      (∀ (i : Nat) (q : List T), datas[i]? = some q →
        ∃ a, as[i]? = some a ∧ search P cfg s q knbn ef = .ok a) →
      parallelSearch P cfg s datas knbn ef order = .ok as := by
    intro as hlen hall
    have harr : arrivals P cfg s datas knbn ef order =
        .ok (order.map fun i => (i, (as[i]?).getD [])) := by
      rw [arrivals_ok]
      refine ⟨by simp [Function.comp_def], ?_⟩
      intro x hx
      obtain ⟨i, hi, rfl⟩ := List.mem_map.1 hx
      have hlt : i < datas.length := List.mem_range.1 (ho.mem_iff.1 hi)
      obtain ⟨a, ha, hs⟩ := hall i _ (List.getElem?_eq_getElem hlt)
      exact ⟨_, List.getElem?_eq_getElem hlt, by simpa [ha] using hs⟩
    unfold parallelSearch
    rw [harr]
    simp only
    have hnd : ((order.map fun i => (i, (as[i]?).getD [])).map (·.1)).Nodup := by
      have : (order.map fun i => (i, (as[i]?).getD [])).map (·.1) = order := by
        simp [Function.comp_def]
      rw [this]
      exact ho.nodup_iff.2 List.nodup_range
    apply collect_ok
    · simp [hlen]
    · intro k i hk
      have hki : k < datas.length ∧ i = k := by
        rw [List.getElem?_eq_some_iff] at hk
        obtain ⟨h1, h2⟩ := hk
        simp at h1 h2
        exact ⟨h1, h2.symm⟩
      obtain ⟨hk1, rfl⟩ := hki
      have hmem : i ∈ order := ho.mem_iff.2 (List.mem_range.2 hk1)
      obtain ⟨r, hr, hr'⟩ := List.getElem_of_mem hmem
      have hget : (order.map fun i => (i, (as[i]?).getD []))[r]? = some (i, (as[i]?).getD []) := by
        rw [List.getElem?_map, List.getElem?_eq_getElem hr, hr']
        rfl
      refine ⟨r, _, ?_, hget, ?_⟩
      · have := (rankMap_spec _ 0 (fun _ => none) i hnd).2 r _ hget rfl
        simpa using this
      · rw [List.getElem?_eq_getElem (by omega)]
        rfl
  constructor
  · intro h
    -- all searches returned
    have hex : ∀ (i : Nat) (q : List T), datas[i]? = some q →
        ∃ a, search P cfg s q knbn ef = .ok a := by
      intro i q hq
      unfold parallelSearch at h
      split at h
      · cases h
      · rename_i res hres
        obtain ⟨h1, h2⟩ := (arrivals_ok order res).1 hres
        have hlt : i < datas.length := (List.getElem?_eq_some_iff.1 hq).1
        have hmem : i ∈ res.map (·.1) := by
          rw [h1]; exact ho.mem_iff.2 (List.mem_range.2 hlt)
        obtain ⟨x, hx, rfl⟩ := List.mem_map.1 hmem
        obtain ⟨q', hq', ha⟩ := h2 x hx
        rw [hq] at hq'
        cases hq'
        exact ⟨_, ha⟩
    let as := datas.map fun q => match search P cfg s q knbn ef with
      | .ok a => a
      | .error _ => []
    have has : parallelSearch P cfg s datas knbn ef order = .ok as := by
      apply main
      · simp [as]
      · intro i q hq
        obtain ⟨a, ha⟩ := hex i q hq
        refine ⟨a, ?_, ha⟩
        simp only [as, List.getElem?_map, hq, Option.map_some, ha]
    have hh : as = answers := by rw [has] at h; exact Except.ok.inj h
    rw [← hh]
    refine ⟨by simp [as], ?_⟩
    intro i q hq
    obtain ⟨a, ha⟩ := hex i q hq
    refine ⟨a, ?_, ha⟩
    simp only [as, List.getElem?_map, hq, Option.map_some, ha]
  · rintro ⟨h1, h2⟩
    exact main answers h1 h2

/-- the ids found by each request -/
def foundIds (x : Except Panic (List (List Neighbour))) : List (List DataId) :=
  match x with
  | .ok as => as.map fun ns => ns.map (·.dId)
  | .error _ => []

/-- three requests whose answers arrive in another order -/
example : [2, 0, 1].Perm (List.range 3) ∧
    foundIds (parallelSearch (listPolicy Nat) (exCfg 3) ex4 [[11], [29], [21]] 2 4 [2, 0, 1]) =
      [[10, 20], [30, 25], [20, 25]] := by decide +kernel

end Verif
