import Verif.FailedLemmas
import Verif.IoExamples
import Verif.Props.Files

set_option autoImplicit false

/-!
# Dumps whose writes fail, or that are interrupted (C88)
-/

namespace Verif
variable {T T' : Type} {P : Policy T} {ty : Ty T} {defScale : Nat → F64}

/-- errors of a dump that are not errors of a write -/
def Ops.Plain (o : Ops) : Prop := o.res = .ok () ∨ o.res = .error .err ∨ o.res = .error .panic

theorem Ops.Plain.seq {a b : Ops} (ha : a.Plain) (hb : b.Plain) : (a.seq b).Plain := by
  obtain ⟨ws, r⟩ := a
  unfold Ops.seq
  rcases ha with h | h | h <;> simp only at h <;> subst h
  · exact hb
  · exact .inr (.inl rfl)
  · exact .inr (.inr rfl)

theorem plain_points (ty : Ty T) (full : Bool) (s : Idx T) (i j : Nat) (ps : List (Ref T)) :
    (pointsWr ty full s i j ps).Plain := by
  induction ps generalizing j with
  | nil => exact .inl rfl
  | cons p ps ih =>
    unfold pointsWr
    split
    · exact Ops.Plain.seq (.inl rfl) (ih _)
    · exact .inr (.inr rfl)

theorem plain_layers (ty : Ty T) (full : Bool) (s : Idx T) (i : Nat) (ls : List (List (Ref T))) :
    (layersWr ty full s i ls).Plain := by
  induction ls generalizing i with
  | nil => exact .inl rfl
  | cons l ls ih =>
    unfold layersWr
    exact Ops.Plain.seq (.inl rfl) (Ops.Plain.seq (plain_points ..) (ih _))

theorem plain_ops (ty : Ty T) (h : Hnsw T) (full : Bool) : (h.ops ty full).Plain := by
  refine Ops.Plain.seq ?_ (Ops.Plain.seq (.inl rfl)
    (Ops.Plain.seq (.inl rfl) (Ops.Plain.seq (plain_layers ..) ?_)))
  · unfold descrWr
    split
    · exact .inr (.inl rfl)
    · exact .inl rfl
  · unfold entryWr
    cases h.idx.entry with
    | none => exact .inr (.inl rfl)
    | some e => exact .inl rfl

theorem ops_parts (ty : Ty T) (h : Hnsw T) :
    gOf (h.ops ty true).ws = (h.dump ty true).g ∧ dOf (h.ops ty true).ws = (h.dump ty true).d ∧
      (h.ops ty true).res = (h.dump ty true).res := by
  rw [← ops_out]
  exact ⟨rfl, rfl, rfl⟩

/-- **C88** If `file_dump` returns `Ok`, then whatever happened to the writes, the directory is the one of a
dump without any failure: both files are complete, nothing remains in a buffer. -/
theorem C88_ok_complete {h : Hnsw T} {cap : Nat} (hc : 0 < cap) {fs fs' : Dir} {base name : String}
    {draws : List Nat} (hd : DumpsTo ty h cap fs base draws fs' (some (.ok name))) :
    fileDump ty h fs base draws = some (fs', .ok name) := by
  cases hd with
  | run hn hr hf =>
    obtain ⟨rfl, h1, h2, h3, h4⟩ := hf.is_ok
    obtain ⟨-, -, h5⟩ := hr.prefix hc
    obtain ⟨h6, h7⟩ := h5 h2
    obtain ⟨e1, e2, e3⟩ := ops_parts ty h
    have hg : gOf (h.ops ty true).ws = (Buf.all ⟨[], []⟩) ++ gOf (h.ops ty true).ws := rfl
    have hdd : dOf (h.ops ty true).ws = (Buf.all ⟨[], []⟩) ++ dOf (h.ops ty true).ws := rfl
    unfold fileDump
    rw [hn, h3, h4, h6, h7, ← hg, ← hdd, e1, e2]
    simp only [Option.map_some]
    rw [← e3, h1]

/-- **C88** Whatever fails and whenever the process is killed, other files are untouched, and each of the
two files is as it was before or holds a prefix of what it should; the data file is opened after the graph
file, and nothing is written before both are. -/
theorem C88_prefix {h : Hnsw T} {cap : Nat} (hc : 0 < cap) {fs fs' : Dir} {base : String}
    {draws : List Nat} {r : Option (Except Fail String)} (hd : DumpsTo ty h cap fs base draws fs' r) :
    fs' = fs ∨ ∃ name, dumpName fs base (!h.mapped) draws = some name ∧
      (∀ n, n ≠ name ++ ".hnsw.graph" → n ≠ name ++ ".hnsw.data" → fs' n = fs n) ∧
      ∃ g, fs' (name ++ ".hnsw.graph") = some g ∧ g <+: (h.dump ty true).g ∧
        (g = [] ∧ fs' (name ++ ".hnsw.data") = fs (name ++ ".hnsw.data") ∨
          ∃ d, fs' (name ++ ".hnsw.data") = some d ∧ d <+: (h.dump ty true).d) := by
  have hopen : ∀ {name : String}, dumpName fs base (!h.mapped) draws = some name →
      ∃ name', dumpName fs base (!h.mapped) draws = some name' ∧
      (∀ n, n ≠ name' ++ ".hnsw.graph" → n ≠ name' ++ ".hnsw.data" →
        (fs.write (graphName name) []) n = fs n) ∧
      ∃ g, (fs.write (graphName name) []) (name' ++ ".hnsw.graph") = some g ∧ g <+: (h.dump ty true).g ∧
        (g = [] ∧ (fs.write (graphName name) []) (name' ++ ".hnsw.data") = fs (name' ++ ".hnsw.data") ∨
          ∃ d, (fs.write (graphName name) []) (name' ++ ".hnsw.data") = some d ∧
            d <+: (h.dump ty true).d) := by
    intro name hn
    refine ⟨name, hn, fun n h1 _ => write_ne _ _ h1, [], write_get _ _ _, List.nil_prefix, .inl ⟨rfl, ?_⟩⟩
    exact write_ne _ _ (graphName_ne_dataName name name).symm
  cases hd with
  | killed => exact .inl rfl
  | noGraph hn => exact .inl rfl
  | killedOpen hn => exact .inr (hopen hn)
  | noData hn => exact .inr (hopen hn)
  | run hn hr hf =>
    rename_i name e g d g' d'
    obtain ⟨e1, e2, -⟩ := ops_parts ty h
    obtain ⟨h1, h2, -⟩ := hr.prefix hc
    obtain ⟨h3, h4⟩ := hf.prefix
    have hg : gOf (h.ops ty true).ws = (Buf.all ⟨[], []⟩) ++ gOf (h.ops ty true).ws := rfl
    have hdd : dOf (h.ops ty true).ws = (Buf.all ⟨[], []⟩) ++ dOf (h.ops ty true).ws := rfl
    rw [← hg, e1] at h1
    rw [← hdd, e2] at h2
    refine .inr ⟨name, hn, fun n h5 h6 => ?_, g'.file, ?_, h3.trans h1, .inr ⟨d'.file, ?_, h4.trans h2⟩⟩
    · rw [write_ne (n := dataName name) _ _ h6, write_ne (n := graphName name) _ _ h5]
    · show Dir.write _ _ _ (graphName name) = _
      rw [write_ne _ _ (graphName_ne_dataName name name), write_get]
    · exact write_get _ _ _

/-- **C88** What a dump leaves, completely done or not, is reloaded with `Ok`, by either function, with any
options, element type and distance, only if both files are complete files of a dump that succeeds, or if the
dump had not changed anything. -/
theorem C88_reload (L : P.Lawful) (hT : ty.Lawful) (hn : ty.noData = false) {ml : Nat} {h : Hnsw T}
    {c : CSt T} (hr : HReach P ty defScale ml h c) (hs : Sizes ty h) {cap : Nat} (hc : 0 < cap)
    {fs fs' : Dir} {io : HnswIo} {base : String} {draws : List Nat} {r : Option (Except Fail String)}
    (hd : DumpsTo ty h cap fs base draws fs' r)
    (hname : dumpName fs base (!h.mapped) draws = some io.base)
    {P' : Policy T'} {ty' : Ty T'} {defScale' : Nat → F64} {dist : Dist T'} {x : Loaded T'}
    (hx : (io.loadHnsw P' ty' defScale' dist fs').2 = .ok x ∨
      io.loadHnswWithDist P' ty' defScale' dist fs' = .ok x) :
    fs' = fs ∨ fileDump ty h fs base draws = some (fs', .ok io.base) := by
  have hx : LoadsOk P' ty' defScale' dist io fs' x := hx
  have hk := hr.ok L hT hn
  rcases C88_prefix hc hd with h0 | ⟨name, hn', hoth, g, hg, hpg, hdat⟩
  · exact .inl h0
  rw [hname] at hn'
  injection hn' with hn'
  subst hn'
  rcases hdat with ⟨h1, -⟩ | ⟨d, hdd, hpd⟩
  · subst h1
    exfalso
    have h2 := hx.header (tg := (h.descr ty true).headBytes true ++ (h.descr ty true).tailBytes) hg
      (parses_loadDescr (full := true) (d := h.descr ty true) hs.dist hs.tname) (List.nil_append _)
    exact tailBytes_ne _ (List.append_eq_nil_iff.mp h2).2
  · obtain ⟨tg, hgt⟩ := hpg
    obtain ⟨td, hdt⟩ := hpd
    have hres := hx.not_failed L hk hs hg hdd hgt hdt
    obtain ⟨h1, h2⟩ := hx.dumped (hk.dumped L hs hres) hg hdd hgt hdt
    subst h1 h2
    rw [List.append_nil] at hgt hdt
    subst hgt hdt
    right
    unfold fileDump
    rw [hname]
    simp only [Option.map_some, hres, Option.some.injEq, Prod.mk.injEq, and_true]
    funext n
    by_cases h1 : n = dataName io.base
    · subst h1
      rw [write_get]
      exact hdd.symm
    · rw [write_ne _ _ h1]
      by_cases h2 : n = graphName io.base
      · subst h2
        rw [write_get]
        exact hg.symm
      · rw [write_ne _ _ h2]
        exact (hoth n h2 h1).symm

/-- **C88** In particular the files left by a dump that fails by itself (fewer than 16 layers, or no entry
point) are never reloaded. -/
theorem C88_failed (L : P.Lawful) (hT : ty.Lawful) (hn : ty.noData = false) {ml : Nat} {h : Hnsw T}
    {c : CSt T} (hr : HReach P ty defScale ml h c) (hs : Sizes ty h)
    {fs fs' : Dir} {io : HnswIo} {base : String} {draws : List Nat} {e : Fail}
    (hd : fileDump ty h fs base draws = some (fs', .error e))
    (hname : dumpName fs base (!h.mapped) draws = some io.base)
    (P' : Policy T') (ty' : Ty T') (defScale' : Nat → F64) (dist : Dist T') (x : Loaded T') :
    (io.loadHnsw P' ty' defScale' dist fs').2 ≠ .ok x ∧
      io.loadHnswWithDist P' ty' defScale' dist fs' ≠ .ok x := by
  have key : ¬ LoadsOk P' ty' defScale' dist io fs' x := by
    intro hx
    unfold fileDump at hd
    rw [hname] at hd
    simp only [Option.map_some, Option.some.injEq, Prod.mk.injEq] at hd
    obtain ⟨h1, h2⟩ := hd
    have hg : fs' (graphName io.base) = some (h.dump ty true).g := by
      rw [← h1, write_ne _ _ (graphName_ne_dataName io.base io.base), write_get]
    have hdd : fs' (dataName io.base) = some (h.dump ty true).d := by
      rw [← h1, write_get]
    have := hx.not_failed L (hr.ok L hT hn) hs hg hdd (List.append_nil _) (List.append_nil _)
    rw [this] at h2
    cases h2
  exact ⟨fun h => key (.inl h), fun h => key (.inr h)⟩

/-- The dump without failure is one of the possible executions, with its answer. -/
theorem C88_possible {h : Hnsw T} (cap : Nat) (hc : 0 < cap) {fs fs' : Dir} {base : String}
    {draws : List Nat} {r : Except Fail String} (hd : fileDump ty h fs base draws = some (fs', r)) :
    DumpsTo ty h cap fs base draws fs' (some r) := by
  unfold fileDump at hd
  rw [Option.map_eq_some_iff] at hd
  obtain ⟨name, hn, hd⟩ := hd
  simp only [Prod.mk.injEq] at hd
  obtain ⟨h1, h2⟩ := hd
  obtain ⟨g, d, hr⟩ := Runs.can cap (h.ops ty true).ws ⟨[], []⟩ ⟨[], []⟩
  obtain ⟨-, -, h5⟩ := hr.prefix hc
  obtain ⟨h6, h7⟩ := h5 rfl
  obtain ⟨e1, e2, e3⟩ := ops_parts ty h
  have hg : gOf (h.ops ty true).ws = (Buf.all ⟨[], []⟩) ++ gOf (h.ops ty true).ws := rfl
  have hdd : dOf (h.ops ty true).ws = (Buf.all ⟨[], []⟩) ++ dOf (h.ops ty true).ws := rfl
  rw [← hg, e1] at h6
  rw [← hdd, e2] at h7
  have hfin : Finish (h.ops ty true).res name .done g d ⟨g.all, []⟩ ⟨d.all, []⟩ (some r) := by
    rw [← e3] at h2
    rcases plain_ops ty h true with hp | hp | hp
    · rw [hp] at h2; subst h2
      exact .ok hp (.ok ..) (.ok ..)
    · rw [hp] at h2; subst h2
      exact .err (.inr ⟨rfl, hp⟩) (.ok ..) (.ok ..)
    · rw [hp] at h2; subst h2
      exact .panic hp ⟨true, .ok ..⟩ ⟨true, .ok ..⟩
  have := DumpsTo.run (ty := ty) (base := base) (fs := fs) hn hr hfin
  simp only [h6, h7] at this
  rwa [h1] at this

/-- **C88** (what can happen) Every length is possible: a dump that would succeed may, if writes fail, leave exactly the first
`n` bytes of the graph file, or of the data file, whatever `n`; it then returns `Err` or is killed. -/
theorem C88_every_prefix {h : Hnsw T} (cap : Nat) (hc : 0 < cap) {fs fs1 : Dir} {base name : String}
    {draws : List Nat} (hd : fileDump ty h fs base draws = some (fs1, .ok name))
    (r : Option (Except Fail String)) (hr : r = none ∨ r = some (.error .err)) (n : Nat) :
    (n ≤ (h.dump ty true).g.length → ∃ fs', DumpsTo ty h cap fs base draws fs' r ∧
      fs' (name ++ ".hnsw.graph") = some ((h.dump ty true).g.take n)) ∧
    (n ≤ (h.dump ty true).d.length → ∃ fs', DumpsTo ty h cap fs base draws fs' r ∧
      fs' (name ++ ".hnsw.data") = some ((h.dump ty true).d.take n)) := by
  unfold fileDump at hd
  rw [Option.map_eq_some_iff] at hd
  obtain ⟨nm, hn, hd⟩ := hd
  simp only [Prod.mk.injEq] at hd
  obtain ⟨-, h2⟩ := hd
  obtain ⟨e1, e2, e3⟩ := ops_parts ty h
  have hres : (h.ops ty true).res = .ok () ∧ nm = name := by
    rw [← e3] at h2
    rcases plain_ops ty h true with hp | hp | hp <;> rw [hp] at h2
    · exact ⟨hp, Except.ok.inj h2⟩
    · cases h2
    · cases h2
  obtain ⟨hres, rfl⟩ := hres
  have hret : ∀ e, e = .failed ∨ e = .done → Returns (h.ops ty true).res e := fun e he =>
    he.imp id fun he => ⟨he, by rw [hres]; exact fun h => nomatch h⟩
  have hne : ∀ e : Ending, e = .failed ∨ e = .done → e ≠ .killed := by
    rintro e (rfl | rfl) <;> decide
  have self : ∀ b : Buf, Dropped b b := fun b => ⟨false, by simpa using Flush.err b.file [] b.buf⟩
  constructor
  · intro hle
    obtain ⟨e, g2, d2, g3, a1, a2, a3, a4⟩ := runs_stops hc (h.ops ty true).ws ⟨[], []⟩ ⟨[], []⟩ n (Nat.zero_le _)
      (by rw [e1]; exact hle)
    have hfin : Finish (h.ops ty true).res nm e g2 d2 g3 ⟨d2.file ++ d2.buf, []⟩ r := by
      rcases hr with rfl | rfl
      · exact .killedLate (hne e a2) ⟨true, .ok ..⟩ ⟨false, a3⟩
      · exact .flushGraph (hret e a2) (.ok ..) a3 (self g3)
    refine ⟨_, .run hn a1 hfin, ?_⟩
    have : graphName nm ≠ dataName nm := graphName_ne_dataName nm nm
    show (Dir.write _ _ _) (graphName nm) = _
    simp only [Dir.write, if_neg this, if_true]
    rw [a4, e1]
    rfl
  · intro hle
    obtain ⟨e, d2, g2, d3, a1, a2, a3, a4⟩ := runs_stops hc ((h.ops ty true).ws.map Wr.swap) ⟨[], []⟩ ⟨[], []⟩ n
      (Nat.zero_le _) (by rw [gOf_swap, e2]; exact hle)
    have a1' := a1.swap
    rw [swap_swap] at a1'
    have hfin : Finish (h.ops ty true).res nm e g2 d2 ⟨g2.file ++ g2.buf, []⟩ d3 r := by
      rcases hr with rfl | rfl
      · exact .killedLate (hne e a2) ⟨false, a3⟩ ⟨true, .ok ..⟩
      · exact .flushData (hret e a2) a3 (self d3) ⟨true, .ok ..⟩
    refine ⟨_, .run hn a1' hfin, ?_⟩
    show (Dir.write _ _ _) (dataName nm) = _
    simp only [Dir.write, if_true]
    rw [a4, gOf_swap, e2]
    rfl

/-- the hypothesis is met: the dump of `io4` succeeds; its graph file has more than 300 bytes, any number of which may be left
by a failure -/
example : ∃ fs1, fileDump u8Ty io4 (fun _ => none) "a" [] = some (fs1, .ok "a") ∧ 300 < (io4.dump u8Ty true).g.length := by
  have h1 : ((fileDump u8Ty io4 (fun _ => none) "a" []).any fun x => x.2.toOption == some "a") = true := by decide +kernel
  cases hf : fileDump u8Ty io4 (fun _ => none) "a" [] with
  | none => rw [hf] at h1; cases h1
  | some q =>
    obtain ⟨fs1, r⟩ := q
    rw [hf] at h1
    cases r with
    | error e => cases h1
    | ok n => simp [Except.toOption] at h1; exact ⟨fs1, by rw [h1], by decide +kernel⟩

/-- a dump over a previous one, killed just after the files are opened: both are empty -/
example : DumpsTo u8Ty io4 8192 (fun _ => some [1, 2, 3]) "a" []
    (Dir.write (Dir.write (fun _ => some [1, 2, 3]) "a.hnsw.graph" []) "a.hnsw.data" []) none :=
  .run (name := "a") rfl (.kill _ _ _) (.killed _ _)

/-- the disk is full: the magic of the header is in the graph file, the rest is lost -/
example : DumpsTo u8Ty io4 4 (fun _ => none) "a" []
    (Dir.write (Dir.write (fun _ => none) "a.hnsw.graph" [0x79, 0x67, 0x2a, 0]) "a.hnsw.data" [])
    (some (.error .err)) := by
  refine .run (name := "a") (e := .failed) (g := ⟨[0x79, 0x67, 0x2a, 0], [1, 3]⟩) (d := ⟨[], []⟩)
    (g' := ⟨[0x79, 0x67, 0x2a, 0], [1, 3]⟩) (d' := ⟨[], []⟩) rfl ?_ ?_
  · refine .g (g' := ⟨[0x79, 0x67, 0x2a, 0], []⟩)
      (.direct _ ⟨[], []⟩ [0x79, 0x67, 0x2a, 0] [] true (.inr ⟨rfl, rfl⟩) (by decide) (fun _ => rfl)) ?_
    refine .g (b := [1]) (.copy ⟨[0x79, 0x67, 0x2a, 0], []⟩ [1] (by decide)) ?_
    refine .g (b := [3]) (.copy ⟨[0x79, 0x67, 0x2a, 0], [1]⟩ [3] (by decide)) ?_
    exact .gStop (.noRoom _ _ _ (by decide +kernel) (.err [0x79, 0x67, 0x2a, 0] [] [1, 3])) (by decide)
  · exact .flushGraph (.inl rfl) (.ok [] []) (.err _ [] _) ⟨false, .err _ [] _⟩

/-- the hypotheses of `C88_reload` are met, with a reload that succeeds -/
example : ∃ fs' x c, HReach (listPolicy UInt8) u8Ty exScale 16 io4 c ∧
    DumpsTo u8Ty io4 8192 (fun _ => none) "a" [] fs' (some (.ok "a")) ∧
    ((HnswIo.new "a" .default).loadHnsw (listPolicy UInt8) u8Ty exScale u8Dist fs').2 = .ok x := by
  obtain ⟨c, hr⟩ := io4_reach
  have h1 : (match fileDump u8Ty io4 (fun _ => none) "a" [] with
     | some (fs1, .ok n) => decide (n = "a") && ((HnswIo.new "a" .default).loadHnsw (listPolicy UInt8) u8Ty
            exScale u8Dist fs1).2.toOption.isSome
     | _ => false) = true := by decide +kernel
  cases hfd : fileDump u8Ty io4 (fun _ => none) "a" [] with
  | none => rw [hfd] at h1; cases h1
  | some q =>
    obtain ⟨fs1, rr⟩ := q
    rw [hfd] at h1
    cases rr with
    | error e => cases h1
    | ok n =>
      simp only [Bool.and_eq_true, decide_eq_true_eq] at h1
      obtain ⟨rfl, h2⟩ := h1
      cases hl : ((HnswIo.new "a" .default).loadHnsw (listPolicy UInt8) u8Ty exScale u8Dist fs1).2 with
      | error e => rw [hl] at h2; cases h2
      | ok x => exact ⟨fs1, x, c, hr, C88_possible 8192 (by decide) hfd, hl⟩

end Verif
