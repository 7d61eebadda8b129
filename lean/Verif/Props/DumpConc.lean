import Verif.DumpFiles

set_option autoImplicit false

/-!
# C87: dumps made during insertions
-/

namespace Verif
variable {T : Type} {P : Policy T} {ty : Ty T} {defScale : Nat → F64} {ml : Nat} {h : Hnsw T} {c : CSt T}

/-- what the executions of a dump and insertions of vectors of length `n` give -/
theorem torn_facts (L : P.Lawful) (hT : ty.Lawful) (hn : ty.noData = false)
    (hr : HReach P ty defScale ml h c) (hml : nbLayerMax ≤ ml) {n : Nat}
    (hv : ∀ p, Stored c.idx p → p.data.length = n) {jobs : List (Job T)}
    (hj : ∀ j ∈ jobs, j.data.length = n) (hl : ∀ j ∈ jobs, j.level < h.cfg.maxLayer)
    {m : DSys T} (he : DExec P h.cfg c jobs m) {d : Nat} {s : Idx T} (hd : m.dump = .done d s)
    (hs : Sizes ty { h with idx := s }) (hent : s.entry ≠ none) :
    TornOK ty h d s ∧ (d = n ∨ d = 0) ∧ (c.idx.entry ≠ none → d = n) ∧
      (∀ p, Stored s p → p.data.length = n) ∧ IdxOK h.cfg s ∧ (∀ p, Stored c.idx p → Stored s p) ∧
      (∀ p, Stored s p → Stored m.st.idx p) ∧
      (∀ p, Stored s p → ReadAt
        ⟨c, jobs.map (Job.prog P h.cfg (c.idx.points.length + jobs.length + 2)), .start⟩ m s.nb p) := by
  have hk := hr.ok L hT hn
  have hg := hk.reach.goodC L
  have hf := Exec.facts L hg hl he.exec (fun v => v.length = n) hv hj
  have := dumpOK L hg hl (fun v => v.length = n) hv hj
    (fun d => (d = n ∨ d = 0) ∧ (c.idx.entry ≠ none → d = n)) (fun s hs => by
      unfold getDataDimension
      cases hse : s.idx.entry with
      | none =>
        refine ⟨Or.inr rfl, fun hc => ?_⟩
        obtain ⟨e, he⟩ := Option.ne_none_iff_exists'.mp hc
        obtain ⟨e', he', -⟩ := hs.entry e he
        rw [hse] at he'; cases he'
      | some e => exact ⟨Or.inl (hs.data e (hs.ok.entry e hse)), fun _ => hs.data e (hs.ok.entry e hse)⟩) he
  simp only [DumpOK, hd] at this
  obtain ⟨⟨h1, h2⟩, h3, h4, h5, h6, -, h7⟩ := this
  have hlen : ∀ p, Stored s p → p.data.length = n := fun p hp => hf.data p (h6 p hp)
  refine ⟨⟨⟨⟨?_, rfl, ?_, hent, hs.ranks⟩, hs.ef, hs.dist, hs.tname, hs.vec⟩, ?_, h3⟩,
    h1, h2, hlen, h4, h5, h6, h7⟩
  · exact IdxOK.coherent (cfg := h.cfg) (IdxOK.mix h4 h4 rfl rfl (fun q => Or.inl rfl) (Or.inl rfl))
      (by rw [hk.lay]; exact Nat.min_le_left _ _) hk.conn
  · rw [hk.lay]; exact Nat.min_eq_left hml
  · obtain ⟨e, hee⟩ := Option.ne_none_iff_exists'.mp hent
    have h8 := (hs.vec e (h4.entry e hee)).2
    have h9 := hlen e (h4.entry e hee)
    rcases h1 with rfl | rfl <;> omega

/-- **C87** (number of points) The number of points written by a dump made during insertions is never
larger than the number of points it writes. -/
theorem C87_never_more (L : P.Lawful) (hT : ty.Lawful) (hn : ty.noData = false)
    (hr : HReach P ty defScale ml h c) {jobs : List (Job T)} (hl : ∀ j ∈ jobs, j.level < h.cfg.maxLayer)
    {m : DSys T} (he : DExec P h.cfg c jobs m) {d : Nat} {s : Idx T} (hd : m.dump = .done d s) :
    s.nbPoint ≤ s.points.length := by
  have := dumpOK L ((hr.ok L hT hn).reach.goodC L) hl (fun _ => True) (fun _ _ => trivial)
    (fun _ _ => trivial) (fun _ => True) (fun _ _ => trivial) he
  simp only [DumpOK, hd] at this
  exact this.2.1

theorem torn_files (ty : Ty T) (h : Hnsw T) (d : Nat) (s : Idx T) (fs : Dir) (name : String) :
    tornFiles ty h d s fs name (graphName name) = some (tornDump ty h d s true).g ∧
    tornFiles ty h d s fs name (dataName name) = some (tornDump ty h d s true).d := by
  unfold tornFiles Dir.write
  refine ⟨?_, by simp⟩
  rw [if_neg (graphName_ne_dataName name name), if_pos rfl]

theorem checkDist_torn {d : Nat} {s : Idx T} (hs : Sizes ty { h with idx := s }) {name : String}
    (hn : name = h.distName) : checkDist ty name (tornDescr ty h d s) = .ok () := by
  subst hn
  exact checkDist_same (d := tornDescr ty h d s) ty hs.named

/-- **C87** (consequence) If it is smaller, the dump says `Ok` and the reload panics. All the vectors have
the same length. -/
theorem C87_unreadable (L : P.Lawful) (hT : ty.Lawful) (hn : ty.noData = false)
    (hr : HReach P ty defScale ml h c) (hml : nbLayerMax ≤ ml) {n : Nat}
    (hv : ∀ p, Stored c.idx p → p.data.length = n) {jobs : List (Job T)}
    (hj : ∀ j ∈ jobs, j.data.length = n) (hl : ∀ j ∈ jobs, j.level < h.cfg.maxLayer)
    {m : DSys T} (he : DExec P h.cfg c jobs m) {d : Nat} {s : Idx T} (hd : m.dump = .done d s)
    (hs : Sizes ty { h with idx := s }) (hent : s.entry ≠ none) (hc : s.nbPoint < s.points.length)
    (fs : Dir) (name : String) (o : ReloadOptions) (ho : o.datamap = false) {dist : Dist T}
    (hdist : dist.name = h.distName) :
    (tornDump ty h d s true).res = .ok () ∧
    ((HnswIo.new name o).loadHnsw P ty defScale dist (tornFiles ty h d s fs name)).2 = .error .panic := by
  obtain ⟨hk, h1, -, h3, -⟩ := torn_facts L hT hn hr hml hv hj hl he hd hs hent
  obtain ⟨e, hee⟩ := Option.ne_none_iff_exists'.mp hent
  refine ⟨by rw [hk.dump hee], ?_⟩
  rw [load_torn_count (io := HnswIo.new name o) (P := P) hT hn hk hc
    (fun p hp => by rw [h3 p hp]; omega) ho (torn_files ty h d s fs name).1
    (torn_files ty h d s fs name).2 (checkDist_torn hs hdist) defScale]

/-- **C87** (partial: the number of points read before the table was locked is the one of the table; the
index was not empty) The dump says `Ok` and can be reloaded, with or without a map; the reloaded index is
well formed, has all the points the index had before and only points the index has now; its entry point is
one of them, and the lists of each point are, up to order, those this point had at one moment when the
dump had locked the table.  Missing: without the first condition the reload panics (`C87_unreadable`),
without the second one the vectors can be empty (`C87_refuted_empty`); and the moment is not the same for
all the points. -/
theorem C87_reload_partial (L : P.Lawful) (hT : ty.Lawful) (hn : ty.noData = false)
    (hr : HReach P ty defScale ml h c) (hml : nbLayerMax ≤ ml) {n : Nat}
    (hv : ∀ p, Stored c.idx p → p.data.length = n) {jobs : List (Job T)}
    (hj : ∀ j ∈ jobs, j.data.length = n) (hl : ∀ j ∈ jobs, j.level < h.cfg.maxLayer)
    {m : DSys T} (he : DExec P h.cfg c jobs m) {d : Nat} {s : Idx T} (hd : m.dump = .done d s)
    (hs : Sizes ty { h with idx := s }) (hc0 : c.idx.entry ≠ none) (hc : s.nbPoint = s.points.length)
    (fs : Dir) (name : String) (o : ReloadOptions) (ho : o.datamap = true → DistinctIds s) {dist : Dist T}
    (hdist : dist.name = h.distName) :
    (tornDump ty h d s true).res = .ok () ∧
    ∃ io x, (HnswIo.new name o).loadHnsw P ty defScale dist (tornFiles ty h d s fs name) = (io, .ok x) ∧
      x.hnsw.idx.layers = s.layers ∧ x.hnsw.idx.entry = s.entry ∧
      IdxOK h.cfg x.hnsw.idx ∧ x.hnsw.idx.nbPoint = x.hnsw.idx.points.length ∧
      (∀ p, Stored c.idx p → Stored x.hnsw.idx p) ∧ (∀ p, Stored x.hnsw.idx p → Stored m.st.idx p) ∧
      (∃ e, x.hnsw.idx.entry = some e ∧ Stored x.hnsw.idx e) ∧
      ∀ p, Stored x.hnsw.idx p → ∃ m1,
        DSteps ⟨c, jobs.map (Job.prog P h.cfg (c.idx.points.length + jobs.length + 2)), .start⟩ m1 ∧
        DSteps m1 m ∧ m1.dump.holds = true ∧
        ∀ l, (x.hnsw.idx.nb p.pid l).Perm (m1.st.idx.nb p.pid l) := by
  have hk0 := hr.ok L hT hn
  have hent : s.entry ≠ none := by
    have := dumpOK L (hk0.reach.goodC L) hl (fun _ => True) (fun _ _ => trivial)
      (fun _ _ => trivial) (fun _ => True) (fun _ _ => trivial) he
    simp only [DumpOK, hd] at this
    obtain ⟨e, hee⟩ := Option.ne_none_iff_exists'.mp hc0
    obtain ⟨e', he', -⟩ := this.2.2.2.2.2.1 e hee
    rw [he']; simp
  obtain ⟨hk, -, h2, h3, h4, h5, h6, h7⟩ := torn_facts L hT hn hr hml hv hj hl he hd hs hent
  obtain ⟨e, hee⟩ := Option.ne_none_iff_exists'.mp hent
  have hdim : d = getDataDimension s := by
    rw [h2 hc0]
    unfold getDataDimension
    rw [hee]
    exact (h3 e (h4.entry e hee)).symm
  have hdump : HDumpable ty { h with idx := s } := by
    refine ⟨⟨h4.coherent (by rw [hk0.lay]; exact Nat.min_le_left _ _) hk0.conn, hc, ?_, hent, hs.ranks⟩, hs.ef, hs.dist, hs.tname, hs.vec⟩
    rw [hk0.lay]; exact Nat.min_eq_left hml
  refine ⟨by rw [hk.dump hee], ?_⟩
  obtain ⟨f1, f2⟩ := torn_files ty h d s fs name
  subst hdim
  have hf : FilesAt ty { h with idx := s } (tornFiles ty h (getDataDimension s) s fs name) name [] [] :=
    ⟨by rw [f1, List.append_nil]; rfl, by rw [f2, List.append_nil]; rfl⟩
  obtain ⟨io', hio⟩ := load_uniform (io := HnswIo.new name o) L hT hn hdump
    (fun p hp => by rw [h3 p hp]; exact h2 hc0 ▸ rfl) (fun x => ho x) hf
    (fun _ => by simp; omega) (dist := dist)
    (checkDist_dump hs hdist) defScale
  refine ⟨io', _, hio, ?_⟩
  have hlay : (s.resort P).layers = s.layers := rfl
  have hst := stored_layers hlay
  refine ⟨rfl, rfl, ?_, hc, fun p hp => (hst p).2 (h5 p hp), fun p hp => h6 p ((hst p).1 hp),
    ⟨e, hee, (hst e).2 (h4.entry e hee)⟩, ?_⟩
  · exact h4.resort L
  · intro p hp
    obtain ⟨m1, a, b, cc, dd⟩ := h7 p ((hst p).1 hp)
    exact ⟨m1, a, b, cc, fun l => by rw [← dd]; exact L.sort_perm _⟩

/-- **C87** (dimension) If the dimension was read when the index was still empty, the dump says `Ok` and so
does the reload, which gives as many points, all of them with an empty vector. -/
theorem C87_empty_vectors (L : P.Lawful) (hT : ty.Lawful) (hn : ty.noData = false)
    (hr : HReach P ty defScale ml h c) (hml : nbLayerMax ≤ ml) {n : Nat}
    (hv : ∀ p, Stored c.idx p → p.data.length = n) {jobs : List (Job T)}
    (hj : ∀ j ∈ jobs, j.data.length = n) (hl : ∀ j ∈ jobs, j.level < h.cfg.maxLayer)
    {m : DSys T} (he : DExec P h.cfg c jobs m) {s : Idx T} (hd : m.dump = .done 0 s)
    (hs : Sizes ty { h with idx := s }) (hent : s.entry ≠ none) (hc : s.nbPoint = s.points.length)
    (fs : Dir) (name : String) (o : ReloadOptions) (ho : o.datamap = false) {dist : Dist T}
    (hdist : dist.name = h.distName) :
    (tornDump ty h 0 s true).res = .ok () ∧
    ∃ io x, (HnswIo.new name o).loadHnsw P ty defScale dist (tornFiles ty h 0 s fs name) = (io, .ok x) ∧
      x.hnsw.idx.points.map (fun p => (p.pid, p.origin, p.data)) =
        s.points.map (fun p => (p.pid, p.origin, ([] : List T))) := by
  obtain ⟨hk, -⟩ := torn_facts L hT hn hr hml hv hj hl he hd hs hent
  obtain ⟨e, hee⟩ := Option.ne_none_iff_exists'.mp hent
  refine ⟨by rw [hk.dump hee], ?_⟩
  obtain ⟨mp, hmp⟩ := load_torn (io := HnswIo.new name o) L hT hn hk hc (fun p _ => Nat.zero_le _) ho
    (torn_files ty h 0 s fs name).1 (torn_files ty h 0 s fs name).2
    (checkDist_torn hs hdist) defScale
  refine ⟨_, _, hmp, ?_⟩
  simp only [mkHnsw, reloaded, Idx.points, List.map_flatten, List.map_map]
  congr 1
  refine List.map_congr_left fun l _ => ?_
  simp only [Function.comp_apply, List.map_map]
  exact List.map_congr_left fun p _ => rfl

/-! ## Concrete executions -/

/-- two points -/
def dcItems : List ((List UInt8 × DataId) × Nat) := [(([10, 1], 7), 0), (([20, 2], 8), 1)]

/-- the state `m` in which a dump is finished, with the sizes the theorems need -/
def doneOK (p : Nat → Idx UInt8 → Bool) (m : DSys UInt8) : Bool :=
  match m.dump with
  | .done d s => p d s && decide (∀ l ∈ s.layers, l.length < 2 ^ 31) && s.entry.isSome &&
      decide (∀ p ∈ s.points, p.data.length = 2)
  | _ => false

theorem exDump_done {items : List ((List UInt8 × DataId) × Nat)} {jobs : List (Job UInt8)}
    {is : List (Option Nat)} {p : Nat → Idx UInt8 → Bool} {q : DSys UInt8 → Bool}
    (h : (exDump items jobs is).any (fun m => doneOK p m && q m) = true) :
    ∃ m d s, DExec (listPolicy UInt8) (ioH exScale 3 16 u8Dist items).cfg (ioC 3 16 u8Dist items) jobs m ∧
      m.dump = .done d s ∧ p d s = true ∧ q m = true ∧ s.entry ≠ none ∧
      Sizes u8Ty { ioH exScale 3 16 u8Dist items with idx := s } := by
  rw [Option.any_eq_true] at h
  obtain ⟨m, hm, h⟩ := h
  obtain ⟨h, hq⟩ := Bool.and_eq_true_iff.1 h
  unfold doneOK at h
  split at h
  · rename_i d s hd
    simp only [Bool.and_eq_true, decide_eq_true_eq] at h
    obtain ⟨⟨⟨h1, h2⟩, h3⟩, h4⟩ := h
    refine ⟨m, d, s, exDump_exec hm, hd, h1, hq, (fun hn => by rw [hn] at h3; cases h3), ?_⟩
    have hef : (ioH exScale 3 16 u8Dist items).cfg.efC = 10 := rfl
    have hdn : (ioH exScale 3 16 u8Dist items).distName = "anndists::dist::distances::DistL1" := rfl
    refine ⟨h2, by rw [hef]; decide, by rw [hdn]; decide, by rw [hdn]; decide +kernel, by decide +kernel, ?_⟩
    intro x hx
    have := h4 x hx
    exact ⟨by rw [Ty.encVec_length u8Ty_lawful, this]; decide, by rw [this]; decide⟩
  · cases h

/-- **C87 is false** in general: the dump reads the number of points, one insertion is made entirely, then
the dump locks the table; it says `Ok`, and the reload panics. -/
theorem C87_refuted : ∃ (h : Hnsw UInt8) (c : CSt UInt8) (j : Job UInt8) (m : DSys UInt8) (d : Nat)
    (s : Idx UInt8),
    HReach (listPolicy UInt8) u8Ty exScale 16 h c ∧ h.idx.points.length = 2 ∧ Sizes u8Ty { h with idx := s } ∧
    DExec (listPolicy UInt8) h.cfg c [j] m ∧ (∀ t ∈ m.ins, isRet t = true) ∧ m.dump = .done d s ∧
    (tornDump u8Ty h d s true).res = .ok () ∧
    ((HnswIo.new "a" .default).loadHnsw (listPolicy UInt8) u8Ty exScale u8Dist
      (tornFiles u8Ty h d s (fun _ => none) "a")).2 = .error .panic := by
  have hr := ioC_reach (maxNb := 3) (ml := 16) u8Ty_lawful rfl (by decide) u8Dist dcItems (by decide)
  obtain ⟨m, d, s, he, hd, hp, hq, hent, hs⟩ := exDump_done (items := dcItems) (jobs := [⟨[30, 3], 9, 2⟩])
    (is := [none, none] ++ List.replicate 26 (some 0) ++ List.replicate 5 none)
    (p := fun _ s => decide (s.nbPoint < s.points.length)) (q := fun m => m.ins.all isRet) (by decide +kernel)
  have := C87_unreadable (n := 2) listPolicy_lawful u8Ty_lawful rfl hr (Nat.le_refl 16)
    (by unfold Stored; decide +kernel) (by decide) (by decide +kernel) he hd hs hent (of_decide_eq_true hp)
    (fun _ => none) "a" .default rfl (dist := u8Dist) rfl
  exact ⟨_, _, _, m, d, s, hr, by decide +kernel, hs, he, List.all_eq_true.1 hq, hd, this.1, this.2⟩

/-- **C87 is false** also in this way: the dump begins when the index is empty, and reads the dimension 0;
one insertion is made; the dump goes on. It says `Ok`, so does the reload, and the vector is lost. -/
theorem C87_refuted_empty : ∃ (h : Hnsw UInt8) (c : CSt UInt8) (j : Job UInt8) (m : DSys UInt8) (d : Nat)
    (s : Idx UInt8) (io : HnswIo) (x : Loaded UInt8),
    HReach (listPolicy UInt8) u8Ty exScale 16 h c ∧ Sizes u8Ty { h with idx := s } ∧
    DExec (listPolicy UInt8) h.cfg c [j] m ∧ (∀ t ∈ m.ins, isRet t = true) ∧ m.dump = .done d s ∧
    (tornDump u8Ty h d s true).res = .ok () ∧
    (HnswIo.new "a" .default).loadHnsw (listPolicy UInt8) u8Ty exScale u8Dist
      (tornFiles u8Ty h d s (fun _ => none) "a") = (io, .ok x) ∧
    m.st.idx.points.map (fun p => (p.origin, p.data)) = [(9, [30, 3])] ∧
    x.hnsw.idx.points.map (fun p => (p.origin, p.data)) = [(9, [])] := by
  have hr := ioC_reach (maxNb := 3) (ml := 16) u8Ty_lawful rfl (by decide) u8Dist [] (by decide)
  obtain ⟨m, d, s, he, hd, hp, hq, hent, hs⟩ := exDump_done (items := []) (jobs := [⟨[30, 3], 9, 2⟩])
    (is := [none] ++ List.replicate 4 (some 0) ++ List.replicate 4 none)
    (p := fun d s => decide (d = 0 ∧ s.nbPoint = s.points.length ∧ s.points.map (·.origin) = [9]))
    (q := fun m => m.ins.all isRet &&
      decide (m.st.idx.points.map (fun p => (p.origin, p.data)) = [(9, [30, 3])])) (by decide +kernel)
  obtain ⟨rfl, hc, ho⟩ := of_decide_eq_true hp
  obtain ⟨hq1, hq2⟩ := Bool.and_eq_true_iff.1 hq
  obtain ⟨h1, io, x, hx, hpts⟩ := C87_empty_vectors (n := 2) listPolicy_lawful u8Ty_lawful rfl hr (Nat.le_refl 16)
    (by unfold Stored; decide +kernel) (by decide) (by decide +kernel) he hd hs hent hc
    (fun _ => none) "a" .default rfl (dist := u8Dist) rfl
  refine ⟨_, _, _, m, 0, s, io, x, hr, hs, he, List.all_eq_true.1 hq1, hd, h1, hx, of_decide_eq_true hq2, ?_⟩
  have h2 := congrArg (List.map fun y : PointId × DataId × List UInt8 => y.2) hpts
  simp only [List.map_map, Function.comp_def] at h2
  rw [h2]
  have h3 := congrArg (List.map fun y : DataId => (y, ([] : List UInt8))) ho
  simpa [Function.comp_def] using h3

/-- **C87** (not a snapshot) Even if the reload succeeds, the index it gives can be one that no index at
rest is: the entry point is not on the highest layer in use, as the dump has a point whose insertion had not
yet changed the entry point. -/
theorem C87_entry_refuted : ∃ (h : Hnsw UInt8) (c : CSt UInt8) (j : Job UInt8) (m : DSys UInt8) (d : Nat)
    (s : Idx UInt8) (io : HnswIo) (x : Loaded UInt8),
    HReach (listPolicy UInt8) u8Ty exScale 16 h c ∧ TopEntry h.idx ∧ Sizes u8Ty { h with idx := s } ∧
    DExec (listPolicy UInt8) h.cfg c [j] m ∧ (∀ t ∈ m.ins, isRet t = true) ∧ m.dump = .done d s ∧
    (tornDump u8Ty h d s true).res = .ok () ∧
    (HnswIo.new "a" .default).loadHnsw (listPolicy UInt8) u8Ty exScale u8Dist
      (tornFiles u8Ty h d s (fun _ => none) "a") = (io, .ok x) ∧ ¬ TopEntry x.hnsw.idx := by
  have hr := ioC_reach (maxNb := 3) (ml := 16) u8Ty_lawful rfl (by decide) u8Dist dcItems (by decide)
  obtain ⟨m, d, s, he, hd, hp, hq, hent, hs⟩ := exDump_done (items := dcItems) (jobs := [⟨[30, 3], 9, 2⟩])
    (is := List.replicate 2 (some 0) ++ List.replicate 7 none ++ List.replicate 24 (some 0))
    (p := fun _ s => decide (s.nbPoint = s.points.length) && s.entry.any (fun e => e.pid.layer == 1) &&
      decide (⟨⟨2, 0⟩, 9, [30, 3]⟩ ∈ s.points))
    (q := fun m => m.ins.all isRet) (by decide +kernel)
  simp only [Bool.and_eq_true, decide_eq_true_eq] at hp
  obtain ⟨⟨hc, hl⟩, hm⟩ := hp
  obtain ⟨h1, io, x, hx, hlay, hen, -⟩ := C87_reload_partial (n := 2) listPolicy_lawful u8Ty_lawful rfl hr
    (Nat.le_refl 16) (by unfold Stored; decide +kernel) (by decide) (by decide +kernel) he hd hs
    (by decide +kernel) hc (fun _ => none) "a" .default (fun h => by cases h) (dist := u8Dist) rfl
  refine ⟨_, _, _, m, d, s, io, x, hr, ?_, hs, he, List.all_eq_true.1 hq, hd, h1, hx, ?_⟩
  · refine ⟨⟨⟨1, 0⟩, 8, [20, 2]⟩, by decide +kernel, by unfold Stored; decide +kernel, ?_⟩
    unfold Stored; decide +kernel
  · rintro ⟨e, he, -, htop⟩
    rw [hen] at he
    rw [he] at hl
    have := htop ⟨⟨2, 0⟩, 9, [30, 3]⟩ ((stored_layers hlay _).2 hm)
    simp at hl this
    omega

-- a dump that starts before an insertion and ends after it, and can be reloaded
example : ∃ m d s, DExec (listPolicy UInt8) (ioH exScale 3 16 u8Dist dcItems).cfg (ioC 3 16 u8Dist dcItems)
      [⟨[30, 3], 9, 0⟩] m ∧ m.dump = .done d s ∧ s.nbPoint = 3 ∧ (∀ t ∈ m.ins, isRet t = true) ∧
      ∃ io x, (HnswIo.new "a" .default).loadHnsw (listPolicy UInt8) u8Ty exScale u8Dist
        (tornFiles u8Ty (ioH exScale 3 16 u8Dist dcItems) d s (fun _ => none) "a") = (io, .ok x) := by
  have hr := ioC_reach (maxNb := 3) (ml := 16) u8Ty_lawful rfl (by decide) u8Dist dcItems (by decide)
  obtain ⟨m, d, s, he, hd, hp, hq, hent, hs⟩ := exDump_done (items := dcItems) (jobs := [⟨[30, 3], 9, 0⟩])
    (is := none :: List.replicate 5 (some 0) ++ List.replicate 4 none ++ List.replicate 11 (some 0) ++
      List.replicate 2 none)
    (p := fun _ s => decide (s.nbPoint = 3 ∧ s.nbPoint = s.points.length))
    (q := fun m => m.ins.all isRet) (by decide +kernel)
  obtain ⟨h3, hc⟩ := of_decide_eq_true hp
  obtain ⟨-, io, x, hx, -⟩ := C87_reload_partial (n := 2) listPolicy_lawful u8Ty_lawful rfl hr
    (Nat.le_refl 16) (by unfold Stored; decide +kernel) (by decide) (by decide +kernel) he hd hs
    (by decide +kernel) hc (fun _ => none) "a" .default (fun h => by cases h) (dist := u8Dist) rfl
  exact ⟨m, d, s, he, hd, h3, List.all_eq_true.1 hq, io, x, hx⟩

end Verif
