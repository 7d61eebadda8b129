import Verif.Props.LoadFail
import Verif.Props.MapFiles

set_option autoImplicit false

/-!
# C103 with a memory map: files that are cut
-/

namespace Verif
variable {T : Type} {P : Policy T} {ty : Ty T} {defScale : Nat → F64} {dist : Dist T}

/-! ## The map of a file that is cut -/

/-- each vector of the map lies in the file -/
def MapIn (size dim : Nat) (b : Bytes) (m : List (DataId × Nat)) : Prop :=
  ∀ e ∈ m, e.2 + 8 + dim * size ≤ b.length

theorem imInsert_sub {m : List (DataId × Nat)} {k : DataId} {v : Nat} {e : DataId × Nat}
    (h : e ∈ imInsert m k v) : e ∈ m ∨ e = (k, v) := by
  unfold imInsert at h
  split at h
  · obtain ⟨x, hx, rfl⟩ := List.mem_map.1 h
    split
    · exact Or.inr rfl
    · exact Or.inl hx
  · rcases List.mem_append.1 h with h | h
    · exact Or.inl h
    · exact Or.inr (List.mem_singleton.1 h)

theorem sliceAt_le {b : Bytes} {a n : Nat} {x : Bytes} (h : sliceAt b a n = .ok x) : a + n ≤ b.length := by
  unfold sliceAt at h
  split at h
  · assumption
  · cases h

/-- a slice of a file that is cut: a panic, or the same bytes -/
theorem sliceAt_cut {b b' : Bytes} (hp : b' <+: b) (a n : Nat) :
    sliceAt b' a n = .error .panic ∨ sliceAt b' a n = sliceAt b a n := by
  obtain ⟨t, rfl⟩ := hp
  unfold sliceAt
  by_cases h : a + n ≤ b'.length
  · right
    rw [if_pos h, if_pos (by simp; omega), List.drop_append_of_le_length (by omega),
      List.take_append_of_le_length (by simp; omega)]
  · left
    rw [if_neg h]

theorem mapRecords_in {size dim : Nat} {b : Bytes} : ∀ {n a : Nat} {m m' : List (DataId × Nat)},
    MapIn size dim b m → mapRecords size dim b n a m = .ok m' → MapIn size dim b m' := by
  intro n
  induction n with
  | zero => intro a m m' hm h; cases h; exact hm
  | succ n ih =>
    intro a m m' hm h
    unfold mapRecords at h
    cases h1 : sliceAt b a 4 with
    | error e => rw [h1] at h; cases h
    | ok magic =>
    rw [h1] at h
    simp only [bind, Except.bind] at h
    split at h
    · cases h
    cases h2 : sliceAt b (a + 4) 8 with
    | error e => rw [h2] at h; cases h
    | ok id =>
    rw [h2] at h
    simp only at h
    cases h3 : sliceAt b (a + 12) 8 with
    | error e => rw [h3] at h; cases h
    | ok len =>
    rw [h3] at h
    simp only at h
    cases h4 : sliceAt b (a + 20) (ofLE len) with
    | error e => rw [h4] at h; cases h
    | ok v =>
    rw [h4] at h
    simp only at h
    split at h
    · cases h
    rename_i hlen
    refine ih ?_ h
    intro e he
    rcases imInsert_sub he with he | rfl
    · exact hm e he
    · have := sliceAt_le h4
      simp only
      omega

/-- If a map can be made of a file, making one of a part of the file is not undefined. -/
theorem mapRecords_cut {size dim : Nat} {b b' : Bytes} (hp : b' <+: b) :
    ∀ {n n' a : Nat} {m m' r : List (DataId × Nat)}, n' ≤ n → mapRecords size dim b n a m = .ok r →
      mapRecords size dim b' n' a m' ≠ .error .ub := by
  intro n
  induction n with
  | zero =>
    intro n' a m m' r hn _
    obtain rfl : n' = 0 := by omega
    exact nofun
  | succ n ih =>
    intro n' a m m' r hn h
    cases n' with
    | zero => exact nofun
    | succ n' =>
    unfold mapRecords at h ⊢
    cases h1 : sliceAt b a 4 with
    | error e => rw [h1] at h; cases h
    | ok magic =>
    rw [h1] at h
    simp only [bind, Except.bind] at h ⊢
    split at h
    · cases h
    rename_i hmagic
    rcases sliceAt_cut hp a 4 with c1 | c1 <;> rw [c1]
    · exact nofun
    rw [h1]
    simp only [if_neg hmagic]
    cases h2 : sliceAt b (a + 4) 8 with
    | error e => rw [h2] at h; cases h
    | ok id =>
    rw [h2] at h
    simp only at h
    rcases sliceAt_cut hp (a + 4) 8 with c2 | c2 <;> rw [c2]
    · exact nofun
    rw [h2]
    simp only
    cases h3 : sliceAt b (a + 12) 8 with
    | error e => rw [h3] at h; cases h
    | ok len =>
    rw [h3] at h
    simp only at h
    rcases sliceAt_cut hp (a + 12) 8 with c3 | c3 <;> rw [c3]
    · exact nofun
    rw [h3]
    simp only
    cases h4 : sliceAt b (a + 20) (ofLE len) with
    | error e => rw [h4] at h; cases h
    | ok v =>
    rw [h4] at h
    simp only at h
    rcases sliceAt_cut hp (a + 20) (ofLE len) with c4 | c4 <;> rw [c4]
    · exact nofun
    rw [h4]
    simp only
    split at h
    · cases h
    rename_i hlen
    rw [if_neg hlen]
    exact ih (by omega) h

/-- a map each of whose vectors lies in the file gives no undefined vector -/
theorem getData_in {m : DataMap} (h : MapIn ty.size m.dim m.bytes m.hmap) (id : DataId) :
    m.getData ty id ≠ .error .ub := by
  unfold DataMap.getData
  cases hg : imGet m.hmap id with
  | none => exact nofun
  | some a =>
    unfold imGet at hg
    rw [Option.map_eq_some_iff] at hg
    obtain ⟨e, he, rfl⟩ := hg
    have := h e (List.mem_of_find?_eq_some he)
    simp only [bind, Except.bind]
    unfold sliceAt
    split
    · rename_i x hx
      split at hx
      · cases hx
      · cases hx
        exact nofun
    · rw [if_neg (by omega)]
      exact nofun


theorem fromDump_in {fs : Dir} {base : String} {m : DataMap} (h : DataMap.fromDump ty fs base = .ok m) :
    MapIn ty.size m.dim m.bytes m.hmap := by
  unfold DataMap.fromDump at h
  split at h
  · cases h
  split at h
  · cases h
  · cases h
  rename_i d g' hd
  split at h
  · cases h
  split at h
  · cases h
  split at h
  · cases h
  rename_i b hb
  cases h1 : sliceAt b 0 4 with
  | error e => rw [h1] at h; cases h
  | ok magic =>
  rw [h1] at h
  simp only [bind, Except.bind] at h
  split at h
  · cases h
  cases h2 : sliceAt b 4 8 with
  | error e => rw [h2] at h; cases h
  | ok dim =>
  rw [h2] at h
  simp only at h
  split at h
  · cases h
  rename_i hdim
  split at h
  · cases h
  rename_i m1 hm1
  cases h
  simp only
  rw [← Classical.not_not.1 hdim]
  exact mapRecords_in (fun e he => by cases he) hm1

/-- If making a map is not undefined for the whole data file it is not for a part of it. -/
theorem fromDump_cut {fs fs' : Dir} {base : String} {b b' : Bytes}
    (hg : fs' (graphName base) = fs (graphName base)) (hb : fs (dataName base) = some b)
    (hb' : fs' (dataName base) = some b') (hp : b' <+: b)
    (h : DataMap.fromDump ty fs base = .error .err ∨ ∃ m, DataMap.fromDump ty fs base = .ok m) :
    DataMap.fromDump ty fs' base ≠ .error .ub := by
  unfold DataMap.fromDump at h ⊢
  rw [hg]
  rw [hb] at h
  rw [hb']
  cases hgr : fs (graphName base) with
  | none => exact nofun
  | some g =>
  rw [hgr] at h
  simp only at h ⊢
  cases hd : loadDescr g with
  | error e =>
    rcases fails_loadDescr (F := fun e => e = .err ∨ e = .panic) (Or.inl rfl) (Or.inr rfl) g e hd with rfl | rfl <;>
      exact nofun
  | ok y =>
  obtain ⟨d, g'⟩ := y
  rw [hd] at h
  simp only at h ⊢
  by_cases hv : d.version ≤ 2
  · rw [if_pos hv]; exact nofun
  rw [if_neg hv] at h ⊢
  by_cases hn : ty.name ≠ d.tName
  · rw [if_pos hn]; exact nofun
  rw [if_neg hn] at h ⊢
  simp only [bind, Except.bind] at h ⊢
  rcases sliceAt_cut hp 0 4 with c1 | c1 <;> rw [c1]
  · exact nofun
  cases h1 : sliceAt b 0 4 with
  | error e =>
    rw [h1] at h
    rcases h with h | ⟨m, h⟩
    · cases h
      exact nofun
    · cases h
  | ok magic =>
  rw [h1] at h
  simp only at h ⊢
  split
  · exact nofun
  rename_i hm
  rw [if_neg hm] at h
  rcases sliceAt_cut hp 4 8 with c2 | c2 <;> rw [c2]
  · exact nofun
  cases h2 : sliceAt b 4 8 with
  | error e =>
    rw [h2] at h
    rcases h with h | ⟨m, h⟩
    · cases h
      exact nofun
    · cases h
  | ok dim =>
  rw [h2] at h
  simp only at h ⊢
  split
  · exact nofun
  rename_i hdm
  rw [if_neg hdm] at h
  have key : ∃ r, mapRecords ty.size (ofLE dim) b ((b.length - 12) / (20 + ofLE dim * ty.size)) 12 [] = .ok r := by
    cases hr : mapRecords ty.size (ofLE dim) b ((b.length - 12) / (20 + ofLE dim * ty.size)) 12 [] with
    | ok r => exact ⟨r, rfl⟩
    | error e =>
      rw [hr] at h
      rcases h with h | ⟨m, h⟩
      · cases h
        exact absurd hr mapRecords_err
      · cases h
  obtain ⟨r, hr⟩ := key
  have hlen : b'.length ≤ b.length := hp.length_le
  have := mapRecords_cut hp (m' := [])
    (Nat.div_le_div_right (c := 20 + ofLE dim * ty.size) (show b'.length - 12 ≤ b.length - 12 by omega)) hr
  split
  · rename_i e he
    intro hc
    cases hc
    exact this he
  · exact nofun

/-! ## The two readers side by side -/

/-- If the first reader succeeds, the second one, on a related stream, succeeds with a related value or fails
without undefined behaviour. -/
def Cut2 {σ α β : Type} (R : σ → σ → Prop) (S : α → β → Prop) (m : Rd σ α) (m' : Rd σ β) : Prop :=
  ∀ s s' a r, R s s' → m s = .ok (a, r) →
    (∃ e, e ≠ .ub ∧ m' s' = .error e) ∨ ∃ a' r', m' s' = .ok (a', r') ∧ R r r' ∧ S a a'

namespace Cut2
variable {σ α β γ δ : Type} {R : σ → σ → Prop} {S : α → β → Prop} {S' : γ → δ → Prop}

theorem of_cut {m : Rd σ α} (h : Cut R (· ≠ .ub) m) : Cut2 R Eq m m := by
  intro s s' a r hR ha
  rcases h s s' a r hR ha with h1 | ⟨r', h1, h2⟩
  · exact Or.inl h1
  · exact Or.inr ⟨a, r', h1, h2, rfl⟩

theorem bind {m : Rd σ α} {m' : Rd σ β} {f : α → Rd σ γ} {f' : β → Rd σ δ} (h : Cut2 R S m m')
    (hf : ∀ a a', S a a' → Cut2 R S' (f a) (f' a')) : Cut2 R S' (m >>= f) (m' >>= f') := by
  intro s s' c r hR hc
  obtain ⟨a, s1, h1, h2⟩ := Rd.bind_ok hc
  rcases h s s' a s1 hR h1 with ⟨e, he, h3⟩ | ⟨a', r1, h3, hR1, hS⟩
  · refine Or.inl ⟨e, he, ?_⟩
    rw [Rd.bind_run, h3]
  · rcases hf a a' hS s1 r1 c r hR1 h2 with ⟨e, he, h4⟩ | ⟨c', r', h4, h5⟩
    · refine Or.inl ⟨e, he, ?_⟩
      rw [Rd.bind_run, h3]
      exact h4
    · refine Or.inr ⟨c', r', ?_, h5⟩
      rw [Rd.bind_run, h3]
      exact h4

theorem pure {a : α} {b : β} (h : S a b) : Cut2 R S (Pure.pure a : Rd σ α) (Pure.pure b) := by
  intro s s' c r hR hc
  cases hc
  exact Or.inr ⟨b, s', rfl, hR, h⟩

theorem require (c c' : Bool) (e : Fail) {e' : Fail} (he : e' ≠ .ub) :
    Cut2 R (fun _ _ => True) (Rd.require c e : Rd σ Unit) (Rd.require c' e') := by
  intro s s' a r hR h
  cases c
  · cases h
  · cases h
    cases c'
    · exact Or.inl ⟨e', he, rfl⟩
    · exact Or.inr ⟨(), s', rfl, hR, trivial⟩

theorem lift (x : Except Fail α) {x' : Except Fail β} (h : x' ≠ .error .ub) :
    Cut2 R (fun _ _ => True) (Rd.lift x : Rd σ α) (Rd.lift x') := by
  intro s s' a r hR hx
  cases x with
  | error e => cases hx
  | ok y =>
    cases hx
    cases x' with
    | error e => exact Or.inl ⟨e, fun hc => h (by rw [hc]), rfl⟩
    | ok y' => exact Or.inr ⟨y', s', rfl, hR, trivial⟩

end Cut2

theorem mapE_ne_ub {α β : Type} {f : α → Except Fail β} (h : ∀ a, f a ≠ .error .ub) :
    ∀ l, mapE f l ≠ .error .ub := by
  intro l
  induction l with
  | nil => exact nofun
  | cons a as ih =>
    unfold mapE
    simp only [bind, Except.bind]
    cases ha : f a with
    | error e => intro hc; cases hc; exact h a ha
    | ok b =>
      simp only
      cases has : mapE f as with
      | error e => intro hc; cases hc; exact ih has
      | ok bs => exact nofun

theorem resolve_ne_ub (layers : List (List (Ref T))) (p : PointId) : resolve layers p ≠ .error .ub := by
  unfold resolve
  split
  · split <;> exact nofun
  · exact nofun

theorem linkPoint_ne_ub (layers : List (List (Ref T))) (lists : List (List Neighbour)) :
    linkPoint P layers lists ≠ .error .ub := by
  unfold linkPoint
  simp only [bind, Except.bind]
  split
  · exact nofun
  refine mapE_ne_ub (fun ns => ?_) _
  unfold linkList
  simp only [bind, Except.bind]
  split
  · rename_i e he
    intro hc
    cases hc
    refine mapE_ne_ub (fun n => ?_) _ he
    split
    · rename_i e he
      intro hc
      cases hc
      exact resolve_ne_ub _ _ he
    · exact nofun
  · split <;> exact nofun

section
variable {d : Descr} {dm dm' : Option DataMap}

/-- the maps that `load_point` can use without undefined behaviour -/
def SafeMap (ty : Ty T) (dm : Option DataMap) : Prop := ∀ m, dm = some m → MapIn ty.size m.dim m.bytes m.hmap

theorem mappedVec_ne_ub (h : SafeMap ty dm) (id : DataId) : mappedVec ty dm id ≠ .error .ub := by
  unfold mappedVec
  cases dm with
  | none => exact nofun
  | some m =>
    simp only
    split
    · rename_i e he
      intro hc
      cases hc
      exact getData_in (h m rfl) id he
    · exact nofun
    · exact nofun

theorem cut_readRecord {eof : Fail} (he : eof ≠ .ub) (origin : DataId) :
    Cut CutOf (· ≠ .ub) (readRecord eof origin) := by
  unfold readRecord
  have rn : ∀ n, Cut CutOf (fun e => e ≠ Fail.ub) (readNat eof n) := fun n => Cut.readNat (F := (· ≠ Fail.ub)) he n
  refine (rn _).bind fun _ => ?_
  refine (Cut.require _ _).bind fun _ => ?_
  refine (rn _).bind fun _ => ?_
  refine (Cut.require _ _).bind fun _ => ?_
  exact (rn _).bind fun _ => Cut.readExact (F := (· ≠ Fail.ub)) he _

theorem cut2_loadPoint (h : SafeMap ty dm') (mm : Bool) :
    Cut2 (OnBoth Eq CutOf) (fun _ _ => True) (loadPoint ty d dm mm) (loadPoint ty d dm' mm) := by
  unfold loadPoint
  refine (Cut2.of_cut (Cut.onG (Cut.eq _))).bind fun x x' hx => ?_
  subst hx
  obtain ⟨origin, pid, lists⟩ := x
  cases mm
  · simp only [Bool.false_eq_true, if_false]
    refine Cut2.bind (S := Eq) (Cut2.of_cut (Cut.onD ?_)) fun _ _ _ => Cut2.pure trivial
    unfold loadPointData
    exact (cut_readRecord (by decide) _).bind fun _ => Cut.lift _
  · simp only [if_true]
    refine Cut2.bind (Cut2.of_cut (Cut.onD (cut_readRecord (by decide) _))) fun _ _ _ => ?_
    exact Cut2.bind (Cut2.lift _ (mappedVec_ne_ub h _)) fun _ _ _ => Cut2.pure trivial

theorem cut2_loadPoints (h : SafeMap ty dm') (o : ReloadOptions) (l n r : Nat) (still : Int) :
    Cut2 (OnBoth Eq CutOf) (fun a b => a.2 = b.2) (loadPoints ty d dm o l n r still)
      (loadPoints ty d dm' o l n r still) := by
  induction n generalizing r still with
  | zero => exact Cut2.pure rfl
  | succ n ih =>
    unfold loadPoints
    refine (cut2_loadPoint h _).bind fun p p' _ => ?_
    refine (Cut2.require _ _ _ (by decide)).bind fun _ _ _ => ?_
    refine (Cut2.require _ _ _ (by decide)).bind fun _ _ _ => ?_
    refine (Cut2.require _ _ _ (by decide)).bind fun _ _ _ => ?_
    exact (ih _ _).bind fun _ _ hs => Cut2.pure hs

theorem cut2_loadLayers (h : SafeMap ty dm') (o : ReloadOptions) (n l : Nat) (still : Int) :
    Cut2 (OnBoth Eq CutOf) (fun _ _ => True) (loadLayers ty d dm o n l still) (loadLayers ty d dm' o n l still) := by
  induction n generalizing l still with
  | zero => exact Cut2.pure trivial
  | succ n ih =>
    unfold loadLayers
    refine (Cut2.of_cut (Cut.onG (Cut.eq _))).bind fun x x' hx => ?_
    refine (Cut2.require _ _ _ (by decide)).bind fun _ _ _ => ?_
    refine (Cut2.of_cut (Cut.onG (Cut.eq _))).bind fun x x' hx => ?_
    subst hx
    refine (cut2_loadPoints h o _ _ _ _).bind fun x x' hx => ?_
    obtain ⟨ps, st⟩ := x
    obtain ⟨ps', st'⟩ := x'
    cases hx
    exact (ih _ _).bind fun _ _ _ => Cut2.pure trivial

theorem cut2_loadIndexation (h : SafeMap ty dm') (o : ReloadOptions) :
    Cut2 (OnBoth Eq CutOf) (fun _ _ => True) (loadIndexation P ty d dm o) (loadIndexation P ty d dm' o) := by
  unfold loadIndexation
  refine (Cut2.require _ _ _ (by decide)).bind fun _ _ _ => ?_
  refine (Cut2.of_cut (Cut.onG (Cut.eq _))).bind fun x x' hx => ?_
  subst hx
  refine (Cut2.require _ _ _ (by decide)).bind fun _ _ _ => ?_
  refine (cut2_loadLayers h o _ _ _).bind fun recs recs' _ => ?_
  refine (Cut2.lift _ (mapE_ne_ub (fun l => mapE_ne_ub (fun r => linkPoint_ne_ub _ _) l) _)).bind fun _ _ _ => ?_
  refine (Cut2.of_cut (Cut.onG (Cut.eq _))).bind fun _ _ _ => ?_
  refine (Cut2.of_cut (Cut.onG (Cut.eq _))).bind fun _ _ _ => ?_
  refine (Cut2.of_cut (Cut.onG (Cut.eq _))).bind fun _ _ _ => ?_
  exact (Cut2.lift _ (resolve_ne_ub _ _)).bind fun _ _ _ => Cut2.pure trivial

end


/-- the steps of a reload that returns an index -/
theorem load_steps {io : HnswIo} {fs : Dir} {g b : Bytes} {x : Loaded T}
    (hg : fs (graphName io.base) = some g) (hb : fs (dataName io.base) = some b)
    (hx : (io.loadHnsw P ty defScale dist fs).2 = .ok x) :
    ∃ d g' s io1 idx m r, loadDescr g = .ok (d, g') ∧ loadDataHeader d (g', b) = .ok ((), s) ∧
      checkDist ty dist.name d = .ok () ∧ io.mapData ty fs = .ok io1 ∧
      loadIndexation P ty d io1.datamap io1.opts s = .ok ((idx, m), r) ∧
      x = ⟨mkHnsw defScale dist d idx true, m⟩ := by
  unfold HnswIo.loadHnsw at hx
  cases hi : io.init fs with
  | error e => rw [hi] at hx; cases hx
  | ok y =>
  obtain ⟨d, s0⟩ := y
  rw [hi] at hx
  simp only at hx
  unfold HnswIo.init at hi
  rw [hg, hb] at hi
  simp only at hi
  cases hd : loadDescr g with
  | error e =>
    rw [hd] at hi
    cases e <;> cases hi
  | ok y =>
  obtain ⟨d', g'⟩ := y
  rw [hd] at hi
  cases hi
  cases hh : loadDataHeader d (g', b) with
  | error e => rw [hh] at hx; cases hx
  | ok y =>
  obtain ⟨u, s⟩ := y
  rw [hh] at hx
  simp only at hx
  cases hc : checkDist ty dist.name d with
  | error e => rw [hc] at hx; cases hx
  | ok v =>
  rw [hc] at hx
  simp only at hx
  cases hm : io.mapData ty fs with
  | error e => rw [hm] at hx; cases hx
  | ok io1 =>
  rw [hm] at hx
  simp only at hx
  cases hl : loadIndexation P ty d io1.datamap io1.opts s with
  | error e => rw [hl] at hx; cases hx
  | ok z =>
  obtain ⟨⟨idx, m⟩, r⟩ := z
  rw [hl] at hx
  exact ⟨d, g', s, io1, idx, m, r, rfl, hh, hc, rfl, hl, (Except.ok.inj hx).symm⟩

/-- **C103** (data file, memory map) Whatever the files, if `load_hnsw` of a new `HnswIo` returns an index, with
or without a map, and the data file is cut: in its header `Err` is returned, and nothing is ever read out of
bounds. -/
theorem C103_cut_mapped {io : HnswIo} (h0 : io.datamap = none) {fs fs' : Dir} {g b b' : Bytes}
    {x : Loaded T} (hg : fs (io.base ++ ".hnsw.graph") = some g) (hb : fs (io.base ++ ".hnsw.data") = some b)
    (hx : (io.loadHnsw P ty defScale dist fs).2 = .ok x)
    (hg' : fs' (io.base ++ ".hnsw.graph") = some g) (hb' : fs' (io.base ++ ".hnsw.data") = some b')
    (hp : b' <+: b) :
    (b'.length < 12 → (io.loadHnsw P ty defScale dist fs').2 = .error .err) ∧
    (io.loadHnsw P ty defScale dist fs').2 ≠ .error .ub := by
  have hg : fs (graphName io.base) = some g := hg
  have hb : fs (dataName io.base) = some b := hb
  have hg' : fs' (graphName io.base) = some g := hg'
  have hb' : fs' (dataName io.base) = some b' := hb'
  obtain ⟨d, g', s, io1, idx, m, r, h1, h2, h3, h4, h5, rfl⟩ := load_steps hg hb hx
  obtain ⟨h6, h7⟩ := dataHeader_short h2 hp
  have hi : io.init fs' = .ok (d, (g', b')) := by
    unfold HnswIo.init
    rw [hg', hb']
    simp only [h1]
  unfold HnswIo.loadHnsw
  rw [hi]
  simp only
  by_cases hl : b'.length < 12
  · rw [h6 hl]
    exact ⟨fun _ => rfl, nofun⟩
  · refine ⟨fun h => absurd h hl, ?_⟩
    obtain ⟨r', h8, hR⟩ := h7 (by omega)
    rw [h8]
    simp only [h3]
    have hmap : io.mapData ty fs' ≠ .error .ub ∧
        ∀ io2, io.mapData ty fs' = .ok io2 → io2.opts = io1.opts ∧ SafeMap ty io2.datamap := by
      unfold HnswIo.mapData at h4 ⊢
      by_cases ho : io.opts.datamap = true
      · rw [if_pos ho] at h4 ⊢
        have hfull : (DataMap.fromDump ty fs io.base = .error .err ∨
            ∃ m, DataMap.fromDump ty fs io.base = .ok m) ∧ io1.opts = io.opts := by
          split at h4
          · rename_i m hm; cases h4; exact ⟨Or.inr ⟨m, hm⟩, rfl⟩
          · rename_i hm; cases h4; exact ⟨Or.inl hm, rfl⟩
          · cases h4
        have hcut := fromDump_cut (hg'.trans hg.symm) hb hb' hp hfull.1
        constructor
        · split
          · exact nofun
          · exact nofun
          · rename_i e _ he
            intro hc
            cases hc
            exact hcut he
        · intro io2 h
          split at h
          · rename_i m hm
            cases h
            refine ⟨hfull.2.symm, fun m' hm' => ?_⟩
            cases hm'
            exact fromDump_in hm
          · cases h
            exact ⟨hfull.2.symm, fun m' hm' => by rw [h0] at hm'; cases hm'⟩
          · cases h
      · rw [if_neg ho] at h4 ⊢
        cases h4
        refine ⟨nofun, fun io2 h => ?_⟩
        cases h
        exact ⟨rfl, fun m' hm' => by rw [h0] at hm'; cases hm'⟩
    cases hm2 : io.mapData ty fs' with
    | error e =>
      intro hc
      cases hc
      exact hmap.1 hm2
    | ok io2 =>
      obtain ⟨ho2, hs2⟩ := hmap.2 io2 hm2
      simp only
      rw [ho2]
      rcases cut2_loadIndexation (P := P) (d := d) (dm := io1.datamap) hs2 io1.opts s r' (idx, m) r hR h5 with
        ⟨e, he, h9⟩ | ⟨a', r2, h9, -⟩
      · rw [h9]
        intro hc
        cases hc
        exact he rfl
      · rw [h9]
        exact nofun


/-! ## The graph file -/

section
variable {d : Descr} {dm : Option DataMap} {F : Fail → Prop} {A : Bytes → Bytes → Prop}

theorem cutG_loadPoint (h : OkG F A) (mm : Bool) : Cut (OnBoth A Eq) F (loadPoint ty d dm mm) := by
  unfold loadPoint
  refine (cut_loadPointGraph h d).onG.bind fun x => ?_
  obtain ⟨origin, pid, lists⟩ := x
  cases mm
  · exact Cut.bind (Cut.onD (.eq _)) fun _ => .pure _
  · exact Cut.bind (Cut.onD (.eq _)) fun _ => (Cut.lift _).bind fun _ => .pure _

theorem cutG_loadPoints (h : OkG F A) (o : ReloadOptions) (l n r : Nat) (still : Int) :
    Cut (OnBoth A Eq) F (loadPoints ty d dm o l n r still) := by
  induction n generalizing r still with
  | zero => exact .pure _
  | succ n ih =>
    unfold loadPoints
    refine (cutG_loadPoint h _).bind fun p => ?_
    refine (Cut.require _ _).bind fun _ => ?_
    refine (Cut.require _ _).bind fun _ => ?_
    refine (Cut.require _ _).bind fun _ => ?_
    exact (ih _ _).bind fun _ => .pure _

theorem cutG_loadLayers (h : OkG F A) (o : ReloadOptions) (n l : Nat) (still : Int) :
    Cut (OnBoth A Eq) F (loadLayers ty d dm o n l still) := by
  induction n generalizing l still with
  | zero => exact .pure _
  | succ n ih =>
    unfold loadLayers
    refine (h _).1.onG.bind fun _ => ?_
    refine (Cut.require _ _).bind fun _ => ?_
    refine (h _).1.onG.bind fun _ => ?_
    refine (cutG_loadPoints h o _ _ _ _).bind fun x => ?_
    exact (ih _ _).bind fun _ => .pure _

theorem cutG_loadIndexation (h : OkG F A) (o : ReloadOptions) :
    Cut (OnBoth A Eq) F (loadIndexation P ty d dm o) := by
  unfold loadIndexation
  refine (Cut.require _ _).bind fun _ => ?_
  refine (h _).1.onG.bind fun _ => ?_
  refine (Cut.require _ _).bind fun _ => ?_
  refine (cutG_loadLayers h o _ _ _).bind fun recs => ?_
  refine (Cut.lift _).bind fun _ => ?_
  refine (h _).1.onG.bind fun _ => ?_
  refine (h _).1.onG.bind fun _ => ?_
  refine (h _).1.onG.bind fun _ => ?_
  exact (Cut.lift _).bind fun _ => .pure _

end

/-- the map depends on the header of the graph file only -/
theorem fromDump_header {fs fs' : Dir} {base : String} {g g1 g' g1' : Bytes} {d : Descr}
    (hg : fs (graphName base) = some g) (hg' : fs' (graphName base) = some g1)
    (hd : fs' (dataName base) = fs (dataName base)) (h : loadDescr g = .ok (d, g'))
    (h1 : loadDescr g1 = .ok (d, g1')) : DataMap.fromDump ty fs' base = DataMap.fromDump ty fs base := by
  unfold DataMap.fromDump
  rw [hg, hg', hd]
  simp only [h, h1]

/-- **C103 is false** (graph file, memory map) Whatever the files, if `load_hnsw` returns an index, with or
without a map, and the graph file is cut: in its header there is a panic; after it, the index does not change,
or `Err` is returned, or there is a panic; the process does not exit and nothing is read out of bounds. -/
theorem C103_cut_graph_mapped {io : HnswIo} {fs fs' : Dir} {g b g1 : Bytes}
    {x : Loaded T} (hg : fs (io.base ++ ".hnsw.graph") = some g) (hb : fs (io.base ++ ".hnsw.data") = some b)
    (hx : (io.loadHnsw P ty defScale dist fs).2 = .ok x)
    (hg' : fs' (io.base ++ ".hnsw.graph") = some g1) (hb' : fs' (io.base ++ ".hnsw.data") = some b)
    (hp : g1 <+: g) :
    ∃ n, n ≤ g.length ∧ (g1.length < n → (io.loadHnsw P ty defScale dist fs').2 = .error .panic) ∧
      (n ≤ g1.length → (io.loadHnsw P ty defScale dist fs').2 = .error .err ∨
        (io.loadHnsw P ty defScale dist fs').2 = .error .panic ∨
        (io.loadHnsw P ty defScale dist fs').2 = .ok x) := by
  have hg : fs (graphName io.base) = some g := hg
  have hb : fs (dataName io.base) = some b := hb
  have hg' : fs' (graphName io.base) = some g1 := hg'
  have hb' : fs' (dataName io.base) = some b := hb'
  obtain ⟨d, g', s, io1, idx, m, r, h1, h2, h3, h4, h5, rfl⟩ := load_steps hg hb hx
  obtain ⟨t, rfl⟩ := hp
  refine ⟨(g1 ++ t).length - g'.length, Nat.sub_le _ _, fun hl => ?_, fun _ => ?_⟩
  · cases h6 : loadDescr g1 with
    | error e => rw [(C103_header_refuted io fs' hg' hb' h6).1]
    | ok y =>
      obtain ⟨d', r1⟩ := y
      have := ext_loadDescr.ok h6 t
      rw [h1] at this
      injection this with this
      injection this with _ this
      have h7 := congrArg List.length this
      simp only [List.length_append] at h7 hl
      omega
  · cases h6 : loadDescr g1 with
    | error e => exact Or.inr (Or.inl (by rw [(C103_header_refuted io fs' hg' hb' h6).1]))
    | ok y =>
      obtain ⟨d', r1⟩ := y
      have := ext_loadDescr.ok h6 t
      rw [h1] at this
      injection this with this
      injection this with hd1 hg1
      subst hd1 hg1
      have hm' : io.mapData ty fs' = io.mapData ty fs := by
        unfold HnswIo.mapData
        rw [fromDump_header hg hg' (hb'.trans hb.symm) h1 h6]
      have hi : io.init fs' = .ok (d, (r1, b)) := by
        unfold HnswIo.init
        rw [hg', hb']
        simp only [h6]
      unfold HnswIo.loadHnsw
      rw [hi]
      simp only
      have hcut : Cut (OnBoth CutOf Eq) (fun e => e = .err ∨ e = .panic) (loadDataHeader d) := by
        unfold loadDataHeader
        refine (Cut.eq _).onD.bind fun _ => ?_
        refine (Cut.require _ _).bind fun _ => ?_
        exact (Cut.eq _).onD.bind fun _ => Cut.require _ _
      rcases hcut (r1 ++ t, b) (r1, b) () s ⟨⟨t, rfl⟩, rfl⟩ h2 with ⟨e, rfl | rfl, h8⟩ | ⟨s', h8, hR⟩
      · exact Or.inl (by rw [h8])
      · exact Or.inr (Or.inl (by rw [h8]))
      · rw [h8]
        simp only [h3, hm', h4]
        have hcut := cutG_loadIndexation (P := P) (ty := ty) (d := d) (dm := io1.datamap)
          (F := fun e => e = .err ∨ e = .panic) (A := CutOf)
          (fun n => ⟨Cut.readNat (Or.inl rfl) n, Cut.readNat (Or.inr rfl) n⟩) io1.opts
        rcases hcut s s' (idx, m) r hR h5 with ⟨e, rfl | rfl, h9⟩ | ⟨r2, h9, -⟩
        · exact Or.inl (by rw [h9])
        · exact Or.inr (Or.inl (by rw [h9]))
        · exact Or.inr (Or.inr (by rw [h9]))

/-- how the reload of the cut files of `io4` fails if the first two points are mapped -/
def cutMapFail (n k : Nat) : Option Fail :=
  match ((HnswIo.new "a" ⟨true, 2⟩).loadHnsw (listPolicy UInt8) u8Ty exScale u8Dist (cutDir n k)).2 with
  | .error e => some e
  | .ok _ => none

/-- Complete files, and cuts of one of them: in the header of the graph, in a point, in the id of the entry
point; in the header of the data, in the vector of a mapped point, in the last vector, which is not mapped. -/
example : [(1165, 100), (50, 100), (600, 100), (1164, 100), (1165, 11), (1165, 12), (1165, 55), (1165, 99)].map
    (fun x => cutMapFail x.1 x.2) =
    [none, some .panic, some .panic, some .err, some .err, some .err, some .err, some .exit] := by
  decide +kernel

end Verif
