import Verif.Props.DumpConc
import Verif.Props.AnyConc
import Verif.Props.Writes

set_option autoImplicit false

/-!
# Dumps made during insertions whose writes fail, or that are interrupted (C127)

The bytes written by such a dump up to its interruption are the first ones of those it would have written
had it gone on, so the state `s` it sees (`DumpSt.done`) is that of an execution in which it ends.
-/

namespace Verif
variable {T T' : Type} {P : Policy T} {ty : Ty T} {defScale : Nat → F64} {ml : Nat} {h : Hnsw T} {c : CSt T}

/-- the shape of such a dump is refused if the number of points is too small -/
theorem fails_skel_count {d : Nat} {s : Idx T} (hd : TornOK ty h d s) (hc : s.nbPoint < s.points.length)
    {e : Ref T} : Fails2 (skelIndexation (tornDescr ty h d s)) (idxGraphBytes s e)
      (s.points.flatMap (pointDataBytes ty)) .panic := by
  have htot := hd.total
  have has : asI64 (tornDescr ty h d s).nbPoint.toNat = s.nbPoint := by
    unfold asI64; rw [hd.nbPoint_eq, if_pos (by omega)]
  have hlen : (UInt8.ofNat s.layers.length).toNat = s.layers.length := hd.dumpable.idx.lens_byte
  unfold skelIndexation idxGraphBytes
  refine Fails2.rightG (parses_byte .err _).onG ?_
  refine Fails2.right0 (Parses2.require ?_) ?_
  · rw [hlen]; have := hd.lens; simpa using this
  rw [hlen, has]
  have hvl : ∀ (ps : List (Ref T)) (st : Int), (∀ p ∈ ps, Stored s p) →
      VecsLoad ty skelTy (tornDescr ty h d s) none (fun _ => []) .default st ps := by
    intro ps
    induction ps with
    | nil => intro st _; trivial
    | cons p ps ih =>
      intro st hs
      refine ⟨⟨(hd.dumpable.vec p (hs p (by simp))).1, ?_⟩, ih _ fun q hq => hs q (by simp [hq])⟩
      have hmm : pointUseMmap ReloadOptions.default st = false := rfl
      rw [hmm]
      rfl
  have := fails_count_layers (i := 0) (s := s) (ls := s.layers) (still := s.nbPoint)
    (ds := tornDescr ty h d s) rfl hd.nbLayer (ty' := skelTy) (dm := none) (o := .default)
    (fun l hl => ⟨by have : l.length < 2 ^ 31 := hd.dumpable.idx.ranks l hl
                     omega,
      fun p hp => by
        obtain ⟨a, b, c⟩ := hd.dumpable.idx.fits (p := p) (List.mem_flatten.mpr ⟨l, hl, hp⟩)
        exact ⟨a, b, c⟩⟩)
    (fun k l hk r p hp => by rw [hd.dumpable.idx.ids (k := k) (l := l) hk hp]; simp)
    (by unfold Idx.points at hc; omega) (by omega) (hvl s.layers.flatten s.nbPoint fun p hp => hp)
  have := Fails2.left (g' := leBytes 8 e.origin.toNat ++ pidBytes e.pid) (d' := []) this
    (f := fun _ => do
      let _ ← onG (readNat .err 8)
      let _ ← onG (readNat .err 1)
      let _ ← onG (readNat .err 4)
      (Pure.pure () : Rd Two Unit))
  rw [List.append_nil] at this
  exact this

/-- prefixes of the files of a dump made during insertions: a reload succeeds only if nothing is missing and
the number of points is right -/
theorem LoadsOk.torn {P' : Policy T'} {ty' : Ty T'} {defScale' : Nat → F64} {dist : Dist T'} {io : HnswIo}
    {fs : Dir} {x : Loaded T'} (hx : LoadsOk P' ty' defScale' dist io fs x) {d : Nat} {s : Idx T}
    (hk : TornOK ty h d s) {g dd tg td : Bytes}
    (hg : fs (graphName io.base) = some g) (hdat : fs (dataName io.base) = some dd)
    (hgt : g ++ tg = (tornDump ty h d s true).g) (hdt : dd ++ td = (tornDump ty h d s true).d) :
    tg = [] ∧ td = [] ∧ s.nbPoint = s.points.length := by
  obtain ⟨e, he⟩ := Option.ne_none_iff_exists'.mp hk.dumpable.idx.entry
  have he : s.entry = some e := he
  rw [hk.dump he] at hgt hdt
  rcases Nat.lt_or_ge s.nbPoint s.points.length with hlt | hge
  · exfalso
    obtain ⟨g0, d0, ds0, g', g2, d2, v, h1, h2, h3, h4, h5⟩ := hx.steps
    rw [hg] at h1; rw [hdat] at h2
    injection h1 with h1; injection h2 with h2
    subst h1 h2
    have e1 := ext_loadDescr.ok h3 tg
    rw [hgt, hk.parses_descr] at e1
    injection e1 with e1; injection e1 with e1 e2
    subst e1
    have e3 := (ext_loadDataHeader _).ok h4 tg td
    rw [← e2, hdt] at e3
    have hp := parses_header hk.dim_eq hk.dim (idxGraphBytes s e) (s.points.flatMap (pointDataBytes ty))
    rw [List.nil_append] at hp
    rw [hp] at e3
    injection e3 with e3; injection e3 with _ e4; injection e4 with e4 e5
    have e6 := (ext_skel _).ok h5 tg td
    have hq := fails_skel_count hk hlt (e := e) [] []
    rw [List.append_nil, List.append_nil] at hq
    rw [← e4, ← e5, hq] at e6
    cases e6
  · have hc : s.nbPoint = s.points.length := Nat.le_antisymm hk.count hge
    have hdd : Dumpable h.cfg s := by
      have := hk.dumpable.idx
      simp only [← hc] at this
      exact this
    obtain ⟨h1, h2⟩ := hx.whole hg hdat hk.parses_descr (parses_header hk.dim_eq hk.dim)
      (parses_skel (ty := ty) (d := tornDescr ty h d s) rfl hk.nbLayer hdd he hk.nbPoint_eq
        (fun p hp => (hk.dumpable.vec p hp).1)) hgt hdt
    exact ⟨h1, h2, hc⟩

/-- the same with the operations on the files -/
theorem LoadsOk.torn_files {P' : Policy T'} {ty' : Ty T'} {defScale' : Nat → F64} {dist : Dist T'} {io : HnswIo}
    {fs fs' : Dir} {x : Loaded T'} (hx : LoadsOk P' ty' defScale' dist io fs' x) {s : Idx T}
    (hk : TornOK ty h (getDataDimension s) s) (hs : Sizes ty { h with idx := s })
    {cap : Nat} (hc : 0 < cap) {base : String} {draws : List Nat} {r : Option (Except Fail String)}
    (hd : DumpsTo ty { h with idx := s } cap fs base draws fs' r)
    (hname : dumpName fs base (!h.mapped) draws = some io.base) :
    fs' = fs ∨ s.nbPoint = s.points.length ∧
      fileDump ty { h with idx := s } fs base draws = some (fs', .ok io.base) := by
  rcases C88_prefix hc hd with h0 | ⟨name, hn', hoth, g, hg, hpg, hdat⟩
  · exact .inl h0
  simp only [hname] at hn'
  injection hn' with hn'
  subst hn'
  rcases hdat with ⟨h1, -⟩ | ⟨d, hdd, hpd⟩
  · subst h1
    exfalso
    have h2 := hx.header (tg := _) hg
      (parses_loadDescr (full := true) (d := Hnsw.descr ty { h with idx := s } true) hs.dist hs.tname)
      (List.nil_append _)
    exact tailBytes_ne _ (List.append_eq_nil_iff.mp h2).2
  · obtain ⟨tg, hgt⟩ := hpg
    obtain ⟨td, hdt⟩ := hpd
    obtain ⟨e, hee⟩ := Option.ne_none_iff_exists'.mp hk.dumpable.idx.entry
    have hres : (Hnsw.dump ty { h with idx := s } true).res = .ok () := by
      show (tornDump ty h (getDataDimension s) s true).res = .ok ()
      rw [hk.dump hee]
    obtain ⟨h1, h2, h3⟩ := hx.torn hk hg hdd hgt hdt
    subst h1 h2
    rw [List.append_nil] at hgt hdt
    subst hgt hdt
    refine .inr ⟨h3, ?_⟩
    unfold fileDump
    simp only [hname, Option.map_some, hres, Option.some.injEq, Prod.mk.injEq, and_true]
    funext n
    by_cases h1 : n = dataName io.base
    · subst h1
      rw [write_get]
      exact hdd.symm
    · rw [write_ne _ _ h1]
      by_cases h2 : n = graphName io.base
      · subst h2
        rw [write_get]
        exact hg.symm
      · rw [write_ne _ _ h2]
        exact (hoth n h2 h1).symm

/-- **C127** A dump is made while vectors are inserted in an index that is not empty, any write may fail and the
process may be killed. If the files it leaves can be reloaded, by any of the two functions, with any type and any
options, then they are the previous ones, or all the bytes were written, the dump says `Ok` if it was not killed,
and the number of points it read before the table was locked is that of the table. -/
theorem C127_reload (L : P.Lawful) (hT : ty.Lawful) (hn : ty.noData = false)
    (hr : HReach P ty defScale ml h c) (hml : nbLayerMax ≤ ml) {n : Nat}
    (hv : ∀ p, Stored c.idx p → p.data.length = n) {jobs : List (Job T)}
    (hj : ∀ j ∈ jobs, j.data.length = n) (hl : ∀ j ∈ jobs, j.level < h.cfg.maxLayer)
    {m : DSys T} (he : DExec P h.cfg c jobs m) {d : Nat} {s : Idx T} (hd : m.dump = .done d s)
    (hs : Sizes ty { h with idx := s }) (hc0 : c.idx.points ≠ [])
    {cap : Nat} (hc : 0 < cap) {fs fs' : Dir} {io : HnswIo} {base : String} {draws : List Nat}
    {r : Option (Except Fail String)} (hw : DumpsTo ty { h with idx := s } cap fs base draws fs' r)
    (hname : dumpName fs base (!h.mapped) draws = some io.base)
    {P' : Policy T'} {ty' : Ty T'} {defScale' : Nat → F64} {dist : Dist T'} {x : Loaded T'}
    (hx : (io.loadHnsw P' ty' defScale' dist fs').2 = .ok x ∨
      io.loadHnswWithDist P' ty' defScale' dist fs' = .ok x) :
    fs' = fs ∨ s.nbPoint = s.points.length ∧
      fileDump ty { h with idx := s } fs base draws = some (fs', .ok io.base) := by
  have hk0 := hr.ok L hT hn
  have hce : c.idx.entry ≠ none := (hk0.reach.goodC L).good.entry hc0
  have hent : s.entry ≠ none := by
    have := dumpOK L (hk0.reach.goodC L) hl (fun _ => True) (fun _ _ => trivial)
      (fun _ _ => trivial) (fun _ => True) (fun _ _ => trivial) he
    simp only [DumpOK, hd] at this
    obtain ⟨e, hee⟩ := Option.ne_none_iff_exists'.mp hce
    obtain ⟨e', he', -⟩ := this.2.2.2.2.2.1 e hee
    rw [he']; simp
  obtain ⟨hk, -, h2, h3, h4, -⟩ := torn_facts L hT hn hr hml hv hj hl he hd hs hent
  obtain ⟨e, hee⟩ := Option.ne_none_iff_exists'.mp hent
  have hdim : d = getDataDimension s := by
    rw [h2 hce]
    unfold getDataDimension
    rw [hee]
    exact (h3 e (h4.entry e hee)).symm
  subst hdim
  exact LoadsOk.torn_files hx hk hs hc hw hname

/-- **C127** (partial: no link of the files is a NaN, vectors of one length, and the header of the files said 16
layers) The same for an index reloaded from any files. -/
theorem C127_resumed_partial {dist0 : Dist T} {io0 : HnswIo} {fs0 : Dir} {x0 : Loaded T} {c0 : CSt T}
    (L : P.Lawful) (hx0 : LoadsOk P ty defScale dist0 io0 fs0 x0) (hN : NumLinks x0.hnsw.idx)
    (hr : Resumed P x0.hnsw c0) (hh : Continued x0.hnsw c0 h) (h16 : x0.hnsw.cfg.maxLayer = 16) {n : Nat}
    (hv : ∀ p ∈ c0.idx.points, p.data.length = n) {jobs : List (Job T)} (hj : ∀ j ∈ jobs, j.data.length = n)
    (hl : ∀ j ∈ jobs, j.level < x0.hnsw.idx.layers.length) {m : DSys T} (he : DExec P h.cfg c0 jobs m) {d : Nat}
    {s : Idx T} (hd : m.dump = .done d s) (hs : Sizes ty { h with idx := s })
    {cap : Nat} (hc : 0 < cap) {fs fs' : Dir} {io : HnswIo} {base : String} {draws : List Nat}
    {r : Option (Except Fail String)} (hw : DumpsTo ty { h with idx := s } cap fs base draws fs' r)
    (hname : dumpName fs base (!h.mapped) draws = some io.base)
    {P' : Policy T'} {ty' : Ty T'} {defScale' : Nat → F64} {dist : Dist T'} {x : Loaded T'}
    (hx : (io.loadHnsw P' ty' defScale' dist fs').2 = .ok x ∨
      io.loadHnswWithDist P' ty' defScale' dist fs' = .ok x) :
    fs' = fs ∨ s.nbPoint = s.points.length ∧
      fileDump ty { h with idx := s } fs base draws = some (fs', .ok io.base) := by
  have hk := hh.tornOK L hx0 hN hr hv hj hl he hd hs h16
  obtain ⟨h1, h2, h3, h4, h5, -⟩ := hh.torn L hx0 hN hr hv hj hl he hd
  obtain ⟨e, hee⟩ := Option.ne_none_iff_exists'.mp h4
  have hdim : d = getDataDimension s := by
    unfold getDataDimension
    rw [hee, h1]
    exact (h5 e (h3.entry e hee)).symm
  subst hdim
  exact LoadsOk.torn_files hx hk hs hc hw hname

-- a dump that starts before an insertion and ends after it; all the writes succeed and the files can be reloaded
example : ∃ m d s fs', DExec (listPolicy UInt8) (ioH exScale 3 16 u8Dist dcItems).cfg (ioC 3 16 u8Dist dcItems)
      [⟨[30, 3], 9, 0⟩] m ∧ m.dump = .done d s ∧
      Sizes u8Ty { ioH exScale 3 16 u8Dist dcItems with idx := s } ∧ s.nbPoint = 3 ∧
      DumpsTo u8Ty { ioH exScale 3 16 u8Dist dcItems with idx := s } 8192 (fun _ => none) "a" [] fs'
        (some (.ok "a")) ∧
      ∃ x, ((HnswIo.new "a" .default).loadHnsw (listPolicy UInt8) u8Ty exScale u8Dist fs').2 = .ok x := by
  have hr := ioC_reach (maxNb := 3) (ml := 16) u8Ty_lawful rfl (by decide) u8Dist dcItems (by decide)
  obtain ⟨m, d, s, he, hd, hp, hq, hent, hs⟩ := exDump_done (items := dcItems) (jobs := [⟨[30, 3], 9, 0⟩])
    (is := none :: List.replicate 5 (some 0) ++ List.replicate 4 none ++ List.replicate 11 (some 0) ++
      List.replicate 2 none)
    (p := fun d s => decide (s.nbPoint = 3 ∧ s.nbPoint = s.points.length ∧ d = getDataDimension s))
    (q := fun m => m.ins.all isRet) (by decide +kernel)
  obtain ⟨h3, hc, hdim⟩ := of_decide_eq_true hp
  obtain ⟨hok, io, x, hx, -⟩ := C87_reload_partial (n := 2) listPolicy_lawful u8Ty_lawful rfl hr
    (Nat.le_refl 16) (by unfold Stored; decide +kernel) (by decide) (by decide +kernel) he hd hs
    (by decide +kernel) hc (fun _ => none) "a" .default (fun h => by cases h) (dist := u8Dist) rfl
  subst hdim
  refine ⟨m, _, s, _, he, hd, hs, h3, C88_possible 8192 (by decide) ?_, x, by rw [hx]⟩
  have hok : (Hnsw.dump u8Ty { ioH exScale 3 16 u8Dist dcItems with idx := s } true).res = .ok () := hok
  unfold fileDump
  have hname : dumpName (fun _ => none) "a" (!(ioH exScale 3 16 u8Dist dcItems).mapped) [] = some "a" := rfl
  simp only [hname, Option.map_some, hok]
  rfl

/-- the dump is made in the middle of an insertion in the index of the damaged file; all the writes succeed and the files can
be reloaded -/
example : ∃ x m d s fs', LoadsOk (listPolicy UInt8) u8Ty exScale u8Dist (HnswIo.new "a" .default) (damaged 137 0) x ∧
    NumLinks x.hnsw.idx ∧ Continued x.hnsw (CSt.ofIdx x.hnsw.idx) x.hnsw ∧ x.hnsw.cfg.maxLayer = 16 ∧
    DExec (listPolicy UInt8) x.hnsw.cfg (CSt.ofIdx x.hnsw.idx) [dmJob] m ∧ m.dump = .done d s ∧
    Sizes u8Ty { x.hnsw with idx := s } ∧
    DumpsTo u8Ty { x.hnsw with idx := s } 8192 (fun _ => none) "b" [] fs' (some (.ok "b")) ∧
    ∃ y, ((HnswIo.new "b" .default).loadHnsw (listPolicy UInt8) u8Ty exScale u8Dist fs').2 = .ok y := by
  obtain ⟨x, m, d, s, h1, h2, h3, h4, h5, h6, h7, h8, h9, h10, h11, h12⟩ :=
    dm_dump (is := List.replicate 3 (some 0) ++ List.replicate 6 none ++ List.replicate 18 (some 0) ++ List.replicate 3 none)
      (n := 5) (k := 5) (by decide +kernel)
  obtain ⟨r1, io, y, r2, r3, -⟩ := C125_reload_partial (n := 2) listPolicy_lawful u8Ty_lawful rfl h1 h2 .start h3 h4 h6
    (by decide) h5 h7 h8 h9 (by omega) (fun _ => none) "b" .default (fun h => by cases h) h12
  obtain ⟨g1, -, g3, g4, g5, -⟩ := h3.torn listPolicy_lawful h1 h2 .start (n := 2) h6 (by decide) h5 h7 h8
  have hdim : d = getDataDimension s := by
    obtain ⟨e, hee⟩ := Option.ne_none_iff_exists'.mp g4
    unfold getDataDimension
    rw [hee, g1]
    exact (g5 e (g3.entry e hee)).symm
  subst hdim
  refine ⟨x, m, _, s, _, h1, h2, h3, h4, h7, h8, h9, C88_possible 8192 (by decide) ?_, y, by rw [r2]⟩
  have hok : (Hnsw.dump u8Ty { x.hnsw with idx := s } true).res = .ok () := r1
  unfold fileDump
  have hname : dumpName (fun _ => none) "b" (!x.hnsw.mapped) [] = some "b" := by
    cases x.hnsw.mapped <;> rfl
  simp only [hname, Option.map_some, hok]
  rfl

end Verif
