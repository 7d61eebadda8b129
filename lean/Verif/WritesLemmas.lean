import Verif.Writes
import Verif.ApiLemmas

set_option autoImplicit false

/-!
# Lemmas on the writes of a dump
-/

namespace Verif
variable {T T' : Type}

/-! ## The sequence of writes and the bytes -/

/-- bytes for the graph file -/
def gOf : List Wr → Bytes
  | [] => []
  | .g b :: ws => b ++ gOf ws
  | .d _ :: ws => gOf ws

/-- bytes for the data file -/
def dOf : List Wr → Bytes
  | [] => []
  | .g _ :: ws => dOf ws
  | .d b :: ws => b ++ dOf ws

theorem gOf_append (a b : List Wr) : gOf (a ++ b) = gOf a ++ gOf b := by
  induction a with
  | nil => rfl
  | cons w a ih => cases w <;> simp [gOf, ih]

theorem dOf_append (a b : List Wr) : dOf (a ++ b) = dOf a ++ dOf b := by
  induction a with
  | nil => rfl
  | cons w a ih => cases w <;> simp [dOf, ih]

theorem gOf_g (l : List Bytes) : gOf (l.map .g) = l.flatten := by
  induction l with
  | nil => rfl
  | cons b l ih => simp [gOf, ih]

theorem dOf_g (l : List Bytes) : dOf (l.map .g) = [] := by
  induction l with
  | nil => rfl
  | cons b l ih => simp [dOf, ih]

theorem gOf_d (l : List Bytes) : gOf (l.map .d) = [] := by
  induction l with
  | nil => rfl
  | cons b l ih => simp [gOf, ih]

theorem dOf_d (l : List Bytes) : dOf (l.map .d) = l.flatten := by
  induction l with
  | nil => rfl
  | cons b l ih => simp [dOf, ih]

/-- the files if no write fails -/
def Ops.out (o : Ops) : Out := ⟨gOf o.ws, dOf o.ws, o.res⟩

theorem Ops.out_seq (a b : Ops) : (a.seq b).out = a.out.seq b.out := by
  obtain ⟨ws, r⟩ := a
  cases r with
  | error e => rfl
  | ok u => simp [Ops.seq, Ops.out, Out.seq, gOf_append, dOf_append]

theorem headWrites_flatten (d : Descr) (full : Bool) : (d.headWrites full).flatten = d.headBytes full := by
  simp only [Descr.headWrites, Descr.headBytes, List.flatten_cons, List.flatten_nil, List.append_nil,
    List.append_assoc]

theorem tailWrites_flatten (d : Descr) : d.tailWrites.flatten = d.tailBytes := by
  simp only [Descr.tailWrites, Descr.tailBytes, strWrites, dumpStr, List.flatten_append, List.flatten_cons,
    List.flatten_nil, List.append_nil, List.append_assoc]

theorem descrWr_out (d : Descr) (full : Bool) : (descrWr d full).out = dumpDescr d full := by
  unfold descrWr dumpDescr
  split
  · simp only [Ops.out, gOf_g, dOf_g, headWrites_flatten]
  · simp only [Ops.out, gOf_g, dOf_g, List.flatten_append, headWrites_flatten, tailWrites_flatten, Out.graph]

theorem pidWrites_flatten (p : PointId) : (pidWrites p).flatten = pidBytes p := by
  simp only [pidWrites, pidBytes, List.flatten_cons, List.flatten_nil, List.append_nil, List.cons_append,
    List.nil_append]

theorem ifPid_flatten (full : Bool) (p : PointId) :
    (if full = true then pidWrites p else []).flatten = if full = true then pidBytes p else [] := by
  split
  · exact pidWrites_flatten p
  · rfl

theorem flatten_flatMap' {α : Type} (f : α → List Bytes) (g : α → Bytes) (h : ∀ a, (f a).flatten = g a)
    (l : List α) : (l.flatMap f).flatten = l.flatMap g := by
  induction l with
  | nil => rfl
  | cons a l ih => rw [List.flatMap_cons, List.flatMap_cons, List.flatten_append, ih, h]

theorem nbWrites_flatten (full : Bool) (n : Neighbour) : (nbWrites full n).flatten = nbBytes full n := by
  simp only [nbWrites, nbBytes, List.flatten_append, List.flatten_cons, List.flatten_nil, List.append_nil,
    ifPid_flatten]

theorem listWrites_flatten (full : Bool) (ns : List Neighbour) :
    (listWrites full ns).flatten = listBytes full ns := by
  simp only [listWrites, listBytes, List.flatten_append, List.flatten_cons, List.flatten_nil, List.append_nil,
    flatten_flatMap' _ _ (nbWrites_flatten full)]

theorem pointGraphWrites_flatten (full : Bool) (s : Idx T) (p : Ref T) :
    (pointGraphWrites full s p).flatten = pointGraphBytes full s p := by
  simp only [pointGraphWrites, pointGraphBytes, List.flatten_append, List.flatten_cons, List.flatten_nil,
    List.append_nil, ifPid_flatten, flatten_flatMap' _ _ (listWrites_flatten full)]

theorem pointDataWrites_flatten (ty : Ty T) (p : Ref T) :
    (pointDataWrites ty p).flatten = pointDataBytes ty p := by
  simp only [pointDataWrites, pointDataBytes, List.flatten_cons, List.flatten_nil, List.append_nil,
    List.append_assoc]

theorem pointWr_out (ty : Ty T) (full : Bool) (s : Idx T) (p : Ref T) :
    (pointWr ty full s p).out = dumpPoint ty full s p := by
  simp only [pointWr, Ops.out, dumpPoint, gOf_append, dOf_append, gOf_g, dOf_g, gOf_d, dOf_d,
    pointGraphWrites_flatten, pointDataWrites_flatten, List.append_nil, List.nil_append]

theorem pointsWr_out (ty : Ty T) (full : Bool) (s : Idx T) (i j : Nat) (ps : List (Ref T)) :
    (pointsWr ty full s i j ps).out = dumpPoints ty full s i j ps := by
  induction ps generalizing j with
  | nil => rfl
  | cons p ps ih =>
    unfold pointsWr dumpPoints
    split
    · rw [Ops.out_seq, pointWr_out, ih]
    · rfl

theorem layersWr_out (ty : Ty T) (full : Bool) (s : Idx T) (i : Nat) (ls : List (List (Ref T))) :
    (layersWr ty full s i ls).out = dumpLayers ty full s i ls := by
  induction ls generalizing i with
  | nil => rfl
  | cons l ls ih =>
    unfold layersWr dumpLayers
    rw [Ops.out_seq, Ops.out_seq, pointsWr_out, ih]
    simp only [Ops.out, gOf, dOf, List.append_nil, Out.graph]

theorem entryWr_out (full : Bool) (s : Idx T) : (entryWr full s).out = dumpEntry full s := by
  unfold entryWr dumpEntry
  cases s.entry with
  | none => rfl
  | some e =>
    simp only [Ops.out, gOf_g, dOf_g, List.flatten_append, List.flatten_cons, List.flatten_nil,
      List.append_nil, ifPid_flatten, Out.graph]

theorem idxWr_out (ty : Ty T) (full : Bool) (s : Idx T) : (idxWr ty full s).out = dumpIdx ty full s := by
  unfold idxWr dumpIdx
  rw [Ops.out_seq, Ops.out_seq, layersWr_out, entryWr_out]
  simp only [Ops.out, gOf, dOf, List.append_nil, Out.graph]

/-- the writes of a dump make the bytes of `Hnsw.dump` -/
theorem ops_out (ty : Ty T) (h : Hnsw T) (full : Bool) : (h.ops ty full).out = h.dump ty full := by
  unfold Hnsw.ops Hnsw.dump
  rw [Ops.out_seq, Ops.out_seq, descrWr_out, idxWr_out]
  simp only [Ops.out, gOf, dOf, List.append_nil, Out.data, dataHeader]

/-! ## Buffers -/

/-- all that was given to a writer and not lost -/
def Buf.all (s : Buf) : Bytes := s.file ++ s.buf

theorem Flush.all {s s' : Buf} {ok : Bool} (h : Flush s ok s') : s'.all = s.all := by
  cases h <;> simp [Buf.all]

theorem Flush.done {s s' : Buf} (h : Flush s true s') : s'.file = s.all := by
  cases h; rfl

theorem Dropped.all {s s' : Buf} (h : Dropped s s') : s'.all = s.all := by
  obtain ⟨ok, h⟩ := h
  exact h.all

theorem WriteAll.prefix {cap : Nat} (hc : 0 < cap) {s s' : Buf} {b : Bytes} {ok : Bool}
    (h : WriteAll cap s b ok s') : s'.all <+: s.all ++ b ∧ (ok = true → s'.all = s.all ++ b) := by
  cases h with
  | copy _ h => simp [Buf.all]
  | noRoom _ _ h hf => rw [hf.all]; simp
  | fill _ h hb => simp [Buf.all]
  | flushed s' _ h hf hb =>
    have := hf.all
    simp only [Buf.all] at this ⊢
    rw [← List.append_assoc, this]
    simp
  | direct s1 w r _ h hb hok =>
    have h1 : s1.buf = [] ∧ s1.all = s.all := by
      rcases h with ⟨_, hf⟩ | ⟨hl, rfl⟩
      · refine ⟨?_, hf.all⟩
        cases hf; rfl
      · refine ⟨?_, rfl⟩
        rw [hl] at hb
        exact List.eq_nil_of_length_eq_zero (by omega)
    obtain ⟨h1, h2⟩ := h1
    have h3 : s1.file = s.all := by rw [← h2]; simp [Buf.all, h1]
    simp only [Buf.all, h1, List.append_nil, h3]
    refine ⟨by rw [List.prefix_append_right_inj]; exact List.prefix_append _ _, fun ho => ?_⟩
    rw [hok ho, List.append_nil]

theorem Runs.prefix {cap : Nat} (hc : 0 < cap) {g d g' d' : Buf} {ws : List Wr} {e : Ending}
    (h : Runs cap g d ws e g' d') :
    g'.all <+: g.all ++ gOf ws ∧ d'.all <+: d.all ++ dOf ws ∧
      (e = .done → g'.all = g.all ++ gOf ws ∧ d'.all = d.all ++ dOf ws) := by
  induction h with
  | nil g d => simp [gOf, dOf]
  | kill g d ws => simp
  | g h hr ih =>
    rw [(h.prefix hc).2 rfl] at ih
    simpa [gOf, dOf, List.append_assoc] using ih
  | d h hr ih =>
    rw [(h.prefix hc).2 rfl] at ih
    simpa [gOf, dOf, List.append_assoc] using ih
  | gStop h he =>
    refine ⟨?_, by simp, fun h0 => absurd h0 he⟩
    refine (h.prefix hc).1.trans ?_
    simp only [gOf, ← List.append_assoc]
    exact List.prefix_append _ _
  | dStop h he =>
    refine ⟨by simp, ?_, fun h0 => absurd h0 he⟩
    refine (h.prefix hc).1.trans ?_
    simp only [dOf, ← List.append_assoc]
    exact List.prefix_append _ _

theorem Finish.prefix {res : Except Fail Unit} {name : String} {e : Ending} {g d g' d' : Buf}
    {r : Option (Except Fail String)} (h : Finish res name e g d g' d' r) :
    g'.file <+: g.all ∧ d'.file <+: d.all := by
  have hf : ∀ {a b : Buf}, b.all = a.all → b.file <+: a.all := fun {a b} h => by
    rw [← h]; exact List.prefix_append _ _
  cases h with
  | killed => exact ⟨hf rfl, hf rfl⟩
  | killedLate he hd hg => exact ⟨hf hg.all, hf hd.all⟩
  | panic h hd hg => exact ⟨hf hg.all, hf hd.all⟩
  | flushData he h1 hd hg => exact ⟨hf hg.all, hf (hd.all.trans h1.all)⟩
  | flushGraph he hd h1 hg => exact ⟨hf (hg.all.trans h1.all), hf hd.all⟩
  | err he hd hg => exact ⟨hf hg.all, hf hd.all⟩
  | ok h hd hg => exact ⟨hf hg.all, hf hd.all⟩

theorem Finish.is_ok {res : Except Fail Unit} {name n : String} {e : Ending} {g d g' d' : Buf}
    (h : Finish res name e g d g' d' (some (.ok n))) :
    n = name ∧ res = .ok () ∧ e = .done ∧ g'.file = g.all ∧ d'.file = d.all := by
  cases h with
  | ok h hd hg => exact ⟨rfl, h, rfl, hg.done, hd.done⟩

/-- all the writes may succeed -/
theorem WriteAll.can (cap : Nat) (s : Buf) (b : Bytes) :
    ∃ s', WriteAll cap s b true s' := by
  by_cases h1 : b.length < cap - s.buf.length
  · exact ⟨_, .copy s b h1⟩
  · by_cases h2 : cap - s.buf.length < b.length
    · by_cases h3 : b.length < cap
      · exact ⟨_, .flushed s _ b h2 (.ok s.file s.buf) h3⟩
      · have := WriteAll.direct (cap := cap) s _ b [] true (.inl ⟨by simpa using h2, .ok s.file s.buf⟩)
          (by simpa using h3) (fun _ => rfl)
        rw [List.append_nil] at this
        exact ⟨_, this⟩
    · have h4 : b.length = cap - s.buf.length := by omega
      by_cases h3 : b.length < cap
      · exact ⟨_, .fill s b h4 h3⟩
      · have := WriteAll.direct (cap := cap) s s b [] true (.inr ⟨by simpa using h4, rfl⟩)
          (by simpa using h3) (fun _ => rfl)
        rw [List.append_nil] at this
        exact ⟨_, this⟩

theorem Runs.can (cap : Nat) (ws : List Wr) (g d : Buf) : ∃ g' d', Runs cap g d ws .done g' d' := by
  induction ws generalizing g d with
  | nil => exact ⟨g, d, .nil g d⟩
  | cons w ws ih =>
    cases w with
    | g b =>
      obtain ⟨g1, h1⟩ := WriteAll.can cap g b
      obtain ⟨g', d', h⟩ := ih g1 d
      exact ⟨g', d', .g h1 h⟩
    | d b =>
      obtain ⟨d1, h1⟩ := WriteAll.can cap d b
      obtain ⟨g', d', h⟩ := ih g d1
      exact ⟨g', d', .d h1 h⟩

/-! ## Every prefix can be left -/

/-- the same write on the other file -/
def Wr.swap : Wr → Wr
  | .g b => .d b
  | .d b => .g b

theorem gOf_swap (ws : List Wr) : gOf (ws.map Wr.swap) = dOf ws := by
  induction ws with
  | nil => rfl
  | cons w ws ih => cases w <;> simp [gOf, dOf, Wr.swap, ih]

theorem swap_swap (ws : List Wr) : (ws.map Wr.swap).map Wr.swap = ws := by
  induction ws with
  | nil => rfl
  | cons w ws ih => cases w <;> simpa [Wr.swap] using ih

theorem Runs.swap {cap : Nat} {g d g' d' : Buf} {ws : List Wr} {e : Ending} (h : Runs cap g d ws e g' d') :
    Runs cap d g (ws.map Wr.swap) e d' g' := by
  induction h with
  | nil g d => exact .nil _ _
  | kill g d ws => exact .kill _ _ _
  | g h _ ih => exact .d h ih
  | d h _ ih => exact .g h ih
  | gStop h he => exact .dStop h he
  | dStop h he => exact .gStop h he

/-- a write fails after any number of bytes -/
theorem runs_stops {cap : Nat} (hc : 0 < cap) : ∀ (ws : List Wr) (g d : Buf) (n : Nat), g.file.length ≤ n →
    n ≤ (g.all ++ gOf ws).length →
    ∃ e g2 d2 g3, Runs cap g d ws e g2 d2 ∧ (e = .failed ∨ e = .done) ∧ Flush g2 false g3 ∧
      g3.file = (g.all ++ gOf ws).take n
  | [], g, d, n, h1, h2 => by
    obtain ⟨f, b⟩ := g
    simp only [gOf, List.append_nil, Buf.all, List.length_append] at h1 h2 ⊢
    refine ⟨.done, _, _, ⟨f ++ b.take (n - f.length), b.drop (n - f.length)⟩, .nil _ _, .inr rfl, ?_, ?_⟩
    · have := Flush.err f (b.take (n - f.length)) (b.drop (n - f.length))
      rwa [List.take_append_drop] at this
    · rw [List.take_append, List.take_of_length_le h1]
  | .d b :: ws, g, d, n, h1, h2 => by
    obtain ⟨d', hd⟩ := WriteAll.can cap d b
    obtain ⟨e, g2, d2, g3, a1, a2, a3, a4⟩ := runs_stops hc ws g d' n h1 h2
    exact ⟨e, g2, d2, g3, .d hd a1, a2, a3, a4⟩
  | .g b :: ws, ⟨f, u⟩, d, n, h1, h2 => by
    have stop : ∀ g2 : Buf, WriteAll cap ⟨f, u⟩ b false g2 → g2.file = (f ++ u ++ (b ++ gOf ws)).take n →
        ∃ e g2 d2 g3, Runs cap ⟨f, u⟩ d (.g b :: ws) e g2 d2 ∧ (e = .failed ∨ e = .done) ∧ Flush g2 false g3 ∧
          g3.file = (f ++ u ++ (b ++ gOf ws)).take n := fun g2 hw hf =>
      ⟨.failed, g2, d, g2, .gStop hw (by decide), .inl rfl, by
        have := Flush.err g2.file [] g2.buf
        simpa using this, hf⟩
    have go : ∀ g2 : Buf, WriteAll cap ⟨f, u⟩ b true g2 → g2.all = f ++ u ++ b → g2.file.length ≤ n →
        ∃ e g2 d2 g3, Runs cap ⟨f, u⟩ d (.g b :: ws) e g2 d2 ∧ (e = .failed ∨ e = .done) ∧ Flush g2 false g3 ∧
          g3.file = (f ++ u ++ (b ++ gOf ws)).take n := fun g2 hw ha hn => by
      have e0 : g2.all ++ gOf ws = f ++ u ++ (b ++ gOf ws) := by rw [ha, List.append_assoc]
      obtain ⟨e, g3, d2, g4, a1, a2, a3, a4⟩ := runs_stops hc ws g2 d n hn (by
        rw [e0]; simpa only [Buf.all, gOf] using h2)
      exact ⟨e, g3, d2, g4, .g hw a1, a2, a3, by rw [a4, e0]⟩
    simp only [Buf.all, gOf] at h1 h2 ⊢
    have dir : ∀ s' : Buf, (cap - u.length < b.length ∧ Flush ⟨f, u⟩ true s' ∨ b.length = cap - u.length ∧ s' = ⟨f, u⟩) →
        s'.buf = [] → s'.file = f ++ u → (f ++ u).length ≤ n → cap ≤ b.length →
        ∃ e g2 d2 g3, Runs cap ⟨f, u⟩ d (.g b :: ws) e g2 d2 ∧ (e = .failed ∨ e = .done) ∧ Flush g2 false g3 ∧
          g3.file = (f ++ u ++ (b ++ gOf ws)).take n := by
      intro s' hs hb hf hn hcap
      by_cases hlt : n ≤ (f ++ u ++ b).length
      · have hw := WriteAll.direct (cap := cap) ⟨f, u⟩ s' (b.take (n - (f ++ u).length)) (b.drop (n - (f ++ u).length)) false
          (by rw [List.take_append_drop]; exact hs) (by rw [List.take_append_drop]; exact hcap) (fun h => nomatch h)
        rw [List.take_append_drop] at hw
        refine stop _ hw ?_
        rw [hf, ← List.append_assoc (f ++ u), List.take_append_of_le_length hlt, List.take_append,
          List.take_of_length_le hn]
      · have hw := WriteAll.direct (cap := cap) ⟨f, u⟩ s' b [] true (by rw [List.append_nil]; exact hs)
          (by rw [List.append_nil]; exact hcap) (fun _ => rfl)
        rw [List.append_nil] at hw
        refine go _ hw ?_ ?_
        · simp [Buf.all, hf, hb]
        · simp only [hf, List.length_append] at hlt ⊢; omega
    by_cases hr : b.length < cap - u.length
    · exact go _ (.copy _ _ hr) (by simp [Buf.all]) h1
    by_cases hr2 : b.length = cap - u.length
    · by_cases hb : b.length < cap
      · exact go _ (.fill _ _ hr2 hb) (by simp [Buf.all]) h1
      · by_cases hu : u = []
        · exact dir ⟨f, u⟩ (.inr ⟨hr2, rfl⟩) hu (by simp [hu]) (by simpa [hu] using h1) (by omega)
        · exact absurd (List.length_pos_iff.2 hu) (by omega)
    · have hr3 : cap - u.length < b.length := by omega
      by_cases hn : n ≤ (f ++ u).length
      · refine stop ⟨f ++ u.take (n - f.length), u.drop (n - f.length)⟩ (.noRoom _ _ _ hr3 ?_) ?_
        · have := Flush.err f (u.take (n - f.length)) (u.drop (n - f.length))
          rwa [List.take_append_drop] at this
        · rw [List.take_append_of_le_length hn, List.take_append, List.take_of_length_le h1]
      · by_cases hb : b.length < cap
        · exact go _ (.flushed _ _ _ hr3 (.ok f u) hb) (by simp [Buf.all])
            (Nat.le_of_not_le hn)
        · exact dir ⟨f ++ u, []⟩ (.inl ⟨hr3, .ok f u⟩) rfl rfl (by omega) (by omega)

end Verif
