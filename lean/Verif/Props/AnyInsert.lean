import Verif.Inherit
import Verif.Props.AnyBytes

set_option autoImplicit false

/-!
# C111: insertions in an index that was reloaded from any files

`Resumed P x.hnsw c` (Verif/Inherit.lean): `c` is reached from the index `x.hnsw` by any number of batches of
concurrent insertions at levels that the reloaded table has (`x.hnsw.idx.layers.length`, which the files decide).
-/

namespace Verif
variable {T : Type} {P : Policy T} {ty : Ty T} {defScale : Nat → F64} {dist : Dist T} {io : HnswIo} {fs : Dir}
  {x : Loaded T} {c0 c : CSt T} {ext kp : Bool} {jobs : List (Job T)} {ts : List (Prog (CSt T) Unit)}

/-- **C111** (partial: levels that the reloaded table has; the order and the length of lists that have no NaN in the files)
At any moment of any schedule of insertions in a reloaded index, whatever the files: the points of the files are still
there, each at its place, the entry point is a point of the index, links lead to points of the index. A link that was
not in the files is not a self link and has the distance of its two ends, legal. No point is twice in a list, unless
the files say so. A list that has no NaN in the files is sorted, does not grow beyond the bound, or beyond the length it
has in the files, and a link of the files is dropped from it only for nearer ones. -/
theorem C111_links_partial (L : P.Lawful) (hx : LoadsOk P ty defScale dist io fs x)
    (h : Resumed P x.hnsw c0) (hl : ∀ j ∈ jobs, j.level < x.hnsw.idx.layers.length)
    (he : Exec P (x.hnsw.cfg.withFlags ext kp) c0 jobs c ts) :
    (∀ o ∈ x.hnsw.idx.points, o ∈ c.idx.points) ∧
    (∀ l r (p : Ref T), (c.idx.layer l)[r]? = some p → p.pid = ⟨l, r⟩) ∧
    (∃ e, c.idx.entry = some e ∧ e ∈ c.idx.points) ∧
    ∀ p l, (∀ e ∈ c.idx.nb p l, e.pt ∈ c.idx.points ∧ (e ∈ x.hnsw.idx.nb p l ∨
        e.pt.pid ≠ p ∧ e.dist.Legal ∧ ∃ o ∈ c.idx.points, o.pid = p ∧
          (e.dist = dist.eval o.data e.pt.data ∨ e.dist = dist.eval e.pt.data o.data))) ∧
      (c.idx.nb p l).Pairwise (fun a b => a.pt.pid ≠ b.pt.pid ∨ a ∈ x.hnsw.idx.nb p l ∧ b ∈ x.hnsw.idx.nb p l) ∧
      ((∀ e ∈ x.hnsw.idx.nb p l, e.dist.isNaN = false) →
        (c.idx.nb p l).Pairwise (fun a b => a.dist.key ≤ b.dist.key) ∧
        Improves (degreeBound x.hnsw.cfg l) (x.hnsw.idx.nb p l) (c.idx.nb p l)) := by
  obtain ⟨hg, ho, hs, hI⟩ := h.good L hx
  have hg' : GoodCB (Base.of x.hnsw.idx) ((x.hnsw.cfg.layersOf x.hnsw.idx).withFlags ext kp) c0 :=
    (goodC_flags (e := ext) (k := kp)).2 hg
  have he' : Exec P ((x.hnsw.cfg.layersOf x.hnsw.idx).withFlags ext kp) c0 jobs c ts :=
    (exec_layersOf (cfg := x.hnsw.cfg.withFlags ext kp) (s := x.hnsw.idx)).2 he
  obtain ⟨ph, hS⟩ := Exec.invB L hg' ho hl he' (fun _ => True) (by simp) (by simp)
  obtain ⟨ph0, hS0⟩ := Exec.invB L hg' ho hl (.refl _) (fun _ => True) (by simp) (by simp)
  have hm := Exec.stored_monoB L hg' ho hl he'
  have hok := hS.env.inv.okB
  have hev : ((x.hnsw.cfg.layersOf x.hnsw.idx).withFlags ext kp).eval = dist.eval := hx.eval
  refine ⟨fun o h => hm o (hs o h), hok.tab.ids, ?_, fun p l => ⟨fun e hel => ⟨hok.stored p l e hel, ?_⟩,
    hok.nodup p l, fun hn => ?_⟩⟩
  rotate_left
  rotate_left
  · have hw : ¬ (Base.of x.hnsw.idx).wild p l := by
      rintro ⟨e, he, hd⟩
      rw [hn e he] at hd
      cases hd
    exact ⟨(hok.sorted p l).resolve_left hw,
      ((hI p l).resolve_left hw).trans ((steps_improves L (by omega) ho he' hS0 p l).resolve_left hw)⟩
  · obtain ⟨d, b, dm, o, s1, m, s2, hld, -⟩ := hx.parts
    obtain ⟨-, -, ⟨e0, -, he0⟩, -⟩ := loadIndexation_ok L hld
    obtain ⟨e1, he1⟩ := Option.ne_none_iff_exists'.1 (hg.entry (List.ne_nil_of_mem (hs _ he0)))
    obtain ⟨e2, he2, -⟩ := hS.entry e1 he1
    exact ⟨e2, he2, hok.entry e2 he2⟩
  · by_cases hb : e ∈ x.hnsw.idx.nb p l
    · exact Or.inl hb
    · obtain ⟨o, hos, hop⟩ := hok.owner p l (List.ne_nil_of_mem hel)
      subst hop
      have := (hok.dist o hos l e hel).resolve_right hb
      rw [hev] at this
      exact Or.inr ⟨(hok.noSelf o.pid l e hel).resolve_right hb, (hok.legal o.pid l e hel).resolve_right hb,
        o, hos, rfl, this⟩

/-- **C111** (exactly once) When all the threads are done, some of them having panicked or not, the index has its old
points, at their place, and the submitted items, each once and in the layer of its level; the counter is exact. -/
theorem C111_exactly_once_partial (L : P.Lawful) (hx : LoadsOk P ty defScale dist io fs x)
    (h : Resumed P x.hnsw c0) (hl : ∀ j ∈ jobs, j.level < x.hnsw.idx.layers.length)
    (he : Exec P (x.hnsw.cfg.withFlags ext kp) c0 jobs c ts) (hf : ∀ t ∈ ts, t.Finished) :
    Resumed P x.hnsw c ∧ (∀ o ∈ c0.idx.points, o ∈ c.idx.points) ∧
    (c.idx.points.map fun p => (p.data, p.origin, p.pid.layer)).Perm
      ((c0.idx.points.map fun p => (p.data, p.origin, p.pid.layer)) ++
        jobs.map fun j => (j.data, j.id, j.level)) ∧
    getNbPoint c.idx = c.idx.points.length ∧ getNbPoint c.idx = getNbPoint c0.idx + jobs.length := by
  obtain ⟨hg, ho, hs, -⟩ := h.good L hx
  have hg' : GoodCB (Base.of x.hnsw.idx) ((x.hnsw.cfg.layersOf x.hnsw.idx).withFlags ext kp) c0 :=
    (goodC_flags (e := ext) (k := kp)).2 hg
  have he' : Exec P ((x.hnsw.cfg.layersOf x.hnsw.idx).withFlags ext kp) c0 jobs c ts :=
    (exec_layersOf (cfg := x.hnsw.cfg.withFlags ext kp) (s := x.hnsw.idx)).2 he
  have hm := Exec.stored_monoB L hg' ho hl he'
  obtain ⟨-, refs, hlen, href, hperm, -⟩ := Exec.finishedB L hg' ho hl he' hf
  have hgc := Exec.goodCB L hg' ho hl he' hf
  refine ⟨.batch ext kp jobs h hl he hf, fun o h => hm o h, ?_, hgc.count, ?_⟩
  · refine (hperm.map _).trans ?_
    rw [List.map_append]
    refine List.Perm.append_left _ ?_
    have : refs.map (fun p => (p.data, p.origin, p.pid.layer)) = jobs.map fun j => (j.data, j.id, j.level) := by
      apply List.ext_getElem?
      intro i
      rw [List.getElem?_map, List.getElem?_map]
      by_cases hi : i < jobs.length
      · have hr : i < refs.length := by omega
        obtain ⟨h1, h2, h3⟩ := href i _ _ (List.getElem?_eq_getElem hi) (List.getElem?_eq_getElem hr)
        rw [List.getElem?_eq_getElem hi, List.getElem?_eq_getElem hr]
        simp only [Option.map_some, h1, h2, h3]
      · rw [List.getElem?_eq_none (by omega), List.getElem?_eq_none (by omega)]
        rfl
    rw [this]
  · have h1 := hperm.length_eq
    rw [List.length_append, hlen] at h1
    unfold getNbPoint
    rw [hgc.count, hg.count, h1]

/-- **C111** (no panic) The loops of the insertions end, whatever the files and the distance. If no link of the files is a
NaN (`C111_nan_refuted`: this is needed) and the distance is legal on the vectors of the index and of the insertions, no
insertion panics, whatever the distances that the files pretend. -/
theorem C111_no_panic_partial (L : P.Lawful) (hx : LoadsOk P ty defScale dist io fs x)
    (h : Resumed P x.hnsw c0) (hl : ∀ j ∈ jobs, j.level < x.hnsw.idx.layers.length)
    (he : Exec P (x.hnsw.cfg.withFlags ext kp) c0 jobs c ts) :
    .fail .fuel ∉ ts ∧
    (NumLinks x.hnsw.idx →
      (∀ a ∈ c0.idx.points.map (·.data) ++ jobs.map (·.data), ∀ b ∈ c0.idx.points.map (·.data) ++ jobs.map (·.data),
        (dist.eval a b).Legal) → ∀ e, .fail e ∉ ts) := by
  obtain ⟨hg, ho, hs, -⟩ := h.good L hx
  have hg' : GoodCB (Base.of x.hnsw.idx) ((x.hnsw.cfg.layersOf x.hnsw.idx).withFlags ext kp) c0 :=
    (goodC_flags (e := ext) (k := kp)).2 hg
  have he' : Exec P ((x.hnsw.cfg.layersOf x.hnsw.idx).withFlags ext kp) c0 jobs c ts :=
    (exec_layersOf (cfg := x.hnsw.cfg.withFlags ext kp) (s := x.hnsw.idx)).2 he
  have hev : ((x.hnsw.cfg.layersOf x.hnsw.idx).withFlags ext kp).eval = dist.eval := hx.eval
  refine ⟨fun hf => Exec.no_fuelB L hg' ho hl he' _ hf rfl, fun hN hL e hf => ?_⟩
  refine Exec.no_panicB L hg' ho hN.notWild hl he' (fun d => d ∈ c0.idx.points.map (·.data) ++ jobs.map (·.data))
    (fun v hv => List.mem_append_left _ (List.mem_map.2 ⟨v, hv, rfl⟩))
    (fun j hj => List.mem_append_right _ (List.mem_map.2 ⟨j, hj, rfl⟩)) (fun a b ha hb => ?_) _ hf e rfl
  rw [hev]
  exact hL a ha b hb

/-- **C111** (entry point) The entry point only goes up; the points inserted by calls that returned are not above it. -/
theorem C111_entry_partial (L : P.Lawful) (hx : LoadsOk P ty defScale dist io fs x)
    (h : Resumed P x.hnsw c0) (hl : ∀ j ∈ jobs, j.level < x.hnsw.idx.layers.length)
    (he : Exec P (x.hnsw.cfg.withFlags ext kp) c0 jobs c ts) (hf : ∀ t ∈ ts, t = .ret ()) :
    getMaxLevelObserved c0.idx ≤ getMaxLevelObserved c.idx ∧
    ∀ p ∈ c.idx.points, p ∉ c0.idx.points → p.pid.layer ≤ getMaxLevelObserved c.idx := by
  obtain ⟨hg, ho, hs, -⟩ := h.good L hx
  have hg' : GoodCB (Base.of x.hnsw.idx) ((x.hnsw.cfg.layersOf x.hnsw.idx).withFlags ext kp) c0 :=
    (goodC_flags (e := ext) (k := kp)).2 hg
  have he' : Exec P ((x.hnsw.cfg.layersOf x.hnsw.idx).withFlags ext kp) c0 jobs c ts :=
    (exec_layersOf (cfg := x.hnsw.cfg.withFlags ext kp) (s := x.hnsw.idx)).2 he
  obtain ⟨hlt, refs, hlen, href, hperm, hab, hup, -⟩ := Exec.finishedB L hg' ho hl he'
    (fun t ht => by rw [hf t ht]; trivial)
  constructor
  · unfold getMaxLevelObserved
    cases h0 : c0.idx.entry with
    | none => exact Nat.zero_le _
    | some e =>
      obtain ⟨e', he', hle⟩ := hup e h0
      rw [he']
      exact hle
  · intro p hp hp0
    rw [hperm.mem_iff] at hp
    obtain ⟨i, hi⟩ := List.getElem?_of_mem ((List.mem_append.1 hp).resolve_left hp0)
    have hit : i < ts.length := by
      rw [hlt, ← hlen]; exact (List.getElem?_eq_some_iff.1 hi).1
    rcases hab i p hi (by rw [List.getElem?_eq_getElem hit, hf _ (List.getElem_mem hit)]) with ⟨h0, -⟩ | ⟨e, he, hle⟩
    · exfalso
      obtain ⟨d, b, dm, o, s1, m, s2, hld, -⟩ := hx.parts
      obtain ⟨-, -, ⟨e0, -, he0⟩, -⟩ := loadIndexation_ok L hld
      have := List.length_pos_of_mem (hs _ he0)
      have hc := hg.count
      omega
    · unfold getMaxLevelObserved
      rw [he]
      exact hle

/-- **C111** (progress; partial also as `C32_progress_partial`: the points inserted concurrently have drawn the same
level, or there are two of them one of which is of level 0) As long as an insertion is not finished one of them can go on, and every execution can be completed. -/
theorem C111_progress_partial (L : P.Lawful) (hx : LoadsOk P ty defScale dist io fs x)
    (h : Resumed P x.hnsw c0) (hl : ∀ j ∈ jobs, j.level < x.hnsw.idx.layers.length)
    (hlv : (∀ j ∈ jobs, ∀ j' ∈ jobs, j.level = j'.level) ∨
      (jobs.length ≤ 2 ∧ ∃ j ∈ jobs, j.level = 0)) (he : Exec P (x.hnsw.cfg.withFlags ext kp) c0 jobs c ts) :
    ((∃ t ∈ ts, ¬ t.Finished) → ∃ y, Step (c, ts) y) ∧
    ∃ c' ts', Steps (c, ts) (c', ts') ∧ ∀ t ∈ ts', t.Finished := by
  obtain ⟨hg, ho, hs, -⟩ := h.good L hx
  have hg' : GoodCB (Base.of x.hnsw.idx) ((x.hnsw.cfg.layersOf x.hnsw.idx).withFlags ext kp) c0 :=
    (goodC_flags (e := ext) (k := kp)).2 hg
  have he' : Exec P ((x.hnsw.cfg.layersOf x.hnsw.idx).withFlags ext kp) c0 jobs c ts :=
    (exec_layersOf (cfg := x.hnsw.cfg.withFlags ext kp) (s := x.hnsw.idx)).2 he
  refine ⟨Exec.progressB L hg' ho hl hlv he', ?_⟩
  obtain ⟨c', ts', -, h2, h3⟩ := Exec.completesB L hg' ho hl hlv he'
  exact ⟨c', ts', h2, h3⟩

/-- **C111** (one call) A call of `insert` on a reloaded index never blocks; it returns if no link of the files is a NaN and
the distance is legal on the vectors involved; whatever its outcome the point is in the index and the next call can follow. -/
theorem C111_insert_partial (L : P.Lawful) (hx : LoadsOk P ty defScale dist io fs x)
    (h : Resumed P x.hnsw c0) (j : Job T) (hl : j.level < x.hnsw.idx.layers.length) :
    (∀ c, insert P (x.hnsw.cfg.withFlags ext kp) c0 (j.data, j.id) j.level ≠ .blocked c) ∧
    Resumed P x.hnsw (insert P (x.hnsw.cfg.withFlags ext kp) c0 (j.data, j.id) j.level).state ∧
    (∃ p ∈ (insert P (x.hnsw.cfg.withFlags ext kp) c0 (j.data, j.id) j.level).state.idx.points,
      p ∉ c0.idx.points ∧ p.data = j.data ∧ p.origin = j.id ∧ p.pid.layer = j.level) ∧
    (NumLinks x.hnsw.idx → (∀ a ∈ j.data :: c0.idx.points.map (·.data), ∀ b ∈ j.data :: c0.idx.points.map (·.data),
        (dist.eval a b).Legal) →
      ∃ c, insert P (x.hnsw.cfg.withFlags ext kp) c0 (j.data, j.id) j.level = .ok () c) := by
  obtain ⟨hg, ho, hs, -⟩ := h.good L hx
  have hg' : GoodCB (Base.of x.hnsw.idx) ((x.hnsw.cfg.layersOf x.hnsw.idx).withFlags ext kp) c0 :=
    (goodC_flags (e := ext) (k := kp)).2 hg
  obtain ⟨c, t, he', hf, hout⟩ := insert_execB L hg' ho (j := j) hl
  have he : Exec P (x.hnsw.cfg.withFlags ext kp) c0 [j] c [t] :=
    (exec_layersOf (cfg := x.hnsw.cfg.withFlags ext kp) (s := x.hnsw.idx)).1 he'
  have hins : insert P ((x.hnsw.cfg.layersOf x.hnsw.idx).withFlags ext kp) c0 (j.data, j.id) j.level =
      insert P (x.hnsw.cfg.withFlags ext kp) c0 (j.data, j.id) j.level := by
    unfold insert
    exact congrArg (fun f => (f (c0.idx.points.length + 3) (j.data, j.id) j.level).run c0)
      (insertP_layersOf P (x.hnsw.cfg.withFlags ext kp) x.hnsw.idx)
  rw [hins] at hout
  have hl' : ∀ j' ∈ [j], j'.level < x.hnsw.idx.layers.length := by simpa using hl
  have hf' : ∀ t' ∈ [t], t'.Finished := by simpa using hf
  have hst : (insert P (x.hnsw.cfg.withFlags ext kp) c0 (j.data, j.id) j.level).state = c := by
    rcases hout with ⟨h1, -⟩ | ⟨e, h1, -⟩ <;> rw [h1] <;> rfl
  rw [hst]
  obtain ⟨-, refs, hlen, href, hperm, -⟩ := Exec.finishedB L hg' ho hl' he' hf'
  have hnd := pids_points_nodup (Exec.goodCB L hg' ho hl' he' hf').inv.okB.tab
  refine ⟨?_, .batch ext kp [j] h hl' he hf', ?_, ?_⟩
  · intro c' hc'
    rcases hout with ⟨h1, -⟩ | ⟨e, h1, -⟩ <;> rw [h1] at hc' <;> cases hc'
  · match refs, hlen with
    | [r], _ =>
    obtain ⟨h1, h2, h3⟩ := href 0 j r rfl rfl
    refine ⟨r, hperm.mem_iff.2 (by simp), fun hr => ?_, h1, h2, h3⟩
    rw [(hperm.map (·.pid)).nodup_iff, List.map_append, List.nodup_append] at hnd
    exact hnd.2.2 _ (List.mem_map.2 ⟨r, hr, rfl⟩) r.pid (by simp) rfl
  · intro hN hL
    rcases hout with ⟨h1, -⟩ | ⟨e, h1, rfl⟩
    · exact ⟨c, h1⟩
    · refine absurd (List.mem_singleton.2 rfl) ((C111_no_panic_partial L hx h hl' he).2 hN ?_ e)
      intro a ha b hb
      refine hL a ?_ b ?_
      · rcases List.mem_append.1 ha with ha | ha
        · exact List.mem_cons_of_mem _ ha
        · simp only [List.map_cons, List.map_nil, List.mem_singleton] at ha; rw [ha]; exact List.mem_cons_self
      · rcases List.mem_append.1 hb with hb | hb
        · exact List.mem_cons_of_mem _ hb
        · simp only [List.map_cons, List.map_nil, List.mem_singleton] at hb; rw [hb]; exact List.mem_cons_self

/-- **C111** (searches at the same time) Searches that run with these insertions end; they do not panic and return something if
their distances are legal (and `ef` or `knbn` is positive if there is a filter; `knbn` is positive); what they return are
records of points of the index, all different, at most `knbn`. -/
theorem C111_search_partial (L : P.Lawful) (hx : LoadsOk P ty defScale dist io fs x)
    (h : Resumed P x.hnsw c0) (hl : ∀ j ∈ jobs, j.level < x.hnsw.idx.layers.length) {reqs : List (Req T)} {m : Mixed T}
    (he : MExec P (x.hnsw.cfg.withFlags ext kp) c0 jobs reqs m) {i : Nat} {r : Req T} (hr : reqs[i]? = some r) :
    m.srch[i]? ≠ some (.fail .fuel) ∧
    ((∀ a ∈ c0.idx.points.map (·.data) ++ jobs.map (·.data), (dist.eval r.query a).Legal) →
      r.filt = none ∨ 1 ≤ max r.ef r.knbn →
      (∀ e, m.srch[i]? ≠ some (.fail e)) ∧ (1 ≤ r.knbn → m.srch[i]? ≠ some (.ret []))) ∧
    ∀ ns, m.srch[i]? = some (.ret ns) → ns.length ≤ r.knbn ∧ (ns.map (·.pId)).Nodup ∧
      ∀ n ∈ ns, ∃ p ∈ m.st.idx.points, n = ⟨p.origin, dist.eval r.query p.data, p.pid⟩ := by
  obtain ⟨hg, ho, hs, -⟩ := h.good L hx
  have hg' : GoodCB (Base.of x.hnsw.idx) ((x.hnsw.cfg.layersOf x.hnsw.idx).withFlags ext kp) c0 :=
    (goodC_flags (e := ext) (k := kp)).2 hg
  have he' : MExec P ((x.hnsw.cfg.layersOf x.hnsw.idx).withFlags ext kp) c0 jobs reqs m :=
    (mexec_layersOf (cfg := x.hnsw.cfg.withFlags ext kp) (s := x.hnsw.idx)).2 he
  have hev : ((x.hnsw.cfg.layersOf x.hnsw.idx).withFlags ext kp).eval = dist.eval := hx.eval
  obtain ⟨d, b, dm, o, s1, mm, s2, hld, -⟩ := hx.parts
  obtain ⟨h16, -, ⟨e0, -, he0⟩, -⟩ := loadIndexation_ok L hld
  have h256 : ((x.hnsw.cfg.layersOf x.hnsw.idx).withFlags ext kp).maxLayer ≤ 256 :=
    Nat.le_trans h16 (by decide)
  obtain ⟨⟨ph, hS⟩, hlen, hU⟩ := MExec.invB L h256 hg' ho hl he'
    (fun d => d ∈ c0.idx.points.map (·.data) ++ jobs.map (·.data))
    (fun v hv => List.mem_append_left _ (List.mem_map.2 ⟨v, hv, rfl⟩))
    (fun j hj => List.mem_append_right _ (List.mem_map.2 ⟨j, hj, rfl⟩))
  have hent : c0.idx.entry ≠ none := hg.entry (List.ne_nil_of_mem (hs _ he0))
  refine ⟨?_, ?_, ?_⟩
  · intro hu
    exact (hU i r _ hr hu).2.1 rfl
  · intro hL hfl
    have hfine : Fine ((x.hnsw.cfg.layersOf x.hnsw.idx).withFlags ext kp)
        (fun d => d ∈ c0.idx.points.map (·.data) ++ jobs.map (·.data)) r.query (max r.ef r.knbn) r.filt :=
      ⟨fun d hd => by rw [hev]; exact hL d hd, hfl⟩
    exact ⟨fun e hu => (hU i r _ hr hu).2.2 hfine,
      fun hk hu => ((hU i r _ hr hu).2 m.st hS.env (Mono.refl _)).2 hent hfine hk rfl⟩
  · intro ns hu
    obtain ⟨hA, -⟩ := (hU i r _ hr hu).2 m.st hS.env (Mono.refl _)
    refine ⟨hA.len, hA.nodup, fun n hn => ?_⟩
    obtain ⟨p, hp, rfl⟩ := hA.stored n hn
    exact ⟨p, hp, by unfold answer; rw [hev]⟩

/-! ## A damaged file -/

/-- the dump of `io4` with byte 137 of the graph file cleared: the point `⟨0, 0⟩` is its own neighbour -/
def selfIdx : Option (Loaded UInt8) :=
  ((HnswIo.new "a" .default).loadHnsw (listPolicy UInt8) u8Ty exScale u8Dist (damaged 137 0)).2.toOption

theorem loadsOk_toOption {io : HnswIo} {fs : Dir} {x : Loaded UInt8}
    (h : (io.loadHnsw (listPolicy UInt8) u8Ty exScale u8Dist fs).2.toOption = some x) :
    LoadsOk (listPolicy UInt8) u8Ty exScale u8Dist io fs x := by
  revert h
  unfold LoadsOk
  cases (io.loadHnsw (listPolicy UInt8) u8Ty exScale u8Dist fs).2 with
  | error e => intro h; cases h
  | ok y => intro h; cases h; exact Or.inl rfl

/-- the links of a reloaded index can be checked point by point -/
theorem LoadsOk.num (L : P.Lawful) (hx : LoadsOk P ty defScale dist io fs x)
    (h : (x.hnsw.idx.points.all fun p => (List.range 16).all fun l =>
      (x.hnsw.idx.nb p.pid l).all fun e => !e.dist.isNaN) = true) : NumLinks x.hnsw.idx := by
  obtain ⟨d, b, dm, o, s1, m, s2, hld, -⟩ := hx.parts
  obtain ⟨-, -, -, -, -, -, h7, -⟩ := loadIndexation_ok L hld
  intro p l e he
  obtain ⟨hl, q, hq, rfl⟩ := h7 p l (List.ne_nil_of_mem he)
  have h1 := List.all_eq_true.1 (List.all_eq_true.1 (List.all_eq_true.1 h q hq) l (List.mem_range.2 hl)) e he
  simpa using h1

/-- what a list contains -/
def showNb (s : Idx UInt8) (p : PointId) (l : Nat) : List (PointId × Int) := (s.nb p l).map fun e => (e.pt.pid, e.dist.key)

/-- The hypotheses are met by the damaged file; the self link of `⟨0, 0⟩`, with its wrong distance, stays when a point is
inserted, and the new point has links of its own. -/
example : ∃ x, LoadsOk (listPolicy UInt8) u8Ty exScale u8Dist (HnswIo.new "a" .default) (damaged 137 0) x ∧
    NumLinks x.hnsw.idx ∧ x.hnsw.idx.layers.length = 16 ∧
    ∃ c, Resumed (listPolicy UInt8) x.hnsw c ∧ c.idx.points.length = 5 ∧
      (showNb x.hnsw.idx ⟨0, 0⟩ 0).map (·.1) = [⟨0, 0⟩] ∧
      (showNb c.idx ⟨0, 0⟩ 0).map (·.1) = [⟨0, 2⟩, ⟨0, 0⟩] ∧
      (showNb c.idx ⟨0, 2⟩ 0).map (·.1) = [⟨0, 0⟩] := by
  have h : ∃ x, selfIdx = some x := Option.isSome_iff_exists.1 (by decide +kernel)
  obtain ⟨x, hx⟩ := h
  have hL : LoadsOk (listPolicy UInt8) u8Ty exScale u8Dist (HnswIo.new "a" .default) (damaged 137 0) x :=
    loadsOk_toOption hx
  have hk : selfIdx.all (fun x =>
      (x.hnsw.idx.points.all fun p => (List.range 16).all fun l =>
        (x.hnsw.idx.nb p.pid l).all fun e => !e.dist.isNaN) && x.hnsw.idx.layers.length == 16 &&
      (showNb x.hnsw.idx ⟨0, 0⟩ 0).map (·.1) == [⟨0, 0⟩] &&
      (let c := (insert (listPolicy UInt8) (x.hnsw.cfg.withFlags true false) (CSt.ofIdx x.hnsw.idx) ([11, 1], 3) 0).state
       c.idx.points.length == 5 && (showNb c.idx ⟨0, 0⟩ 0).map (·.1) == [⟨0, 2⟩, ⟨0, 0⟩] &&
        (showNb c.idx ⟨0, 2⟩ 0).map (·.1) == [⟨0, 0⟩])) = true := by
    decide +kernel
  rw [hx] at hk
  simp only [Option.all_some, Bool.and_eq_true, beq_iff_eq] at hk
  obtain ⟨⟨⟨h1, h2⟩, h3⟩, ⟨h4, h5⟩, h6⟩ := hk
  have hN := hL.num listPolicy_lawful h1
  exact ⟨x, hL, hN, h2, _, (C111_insert_partial (ext := true) (kp := false) listPolicy_lawful hL .start
    ⟨[11, 1], 3, 0⟩ (by rw [h2]; decide)).2.1, h4, h3, h5, h6⟩

/-! ## Files with fewer layers than levels that can be drawn -/

/-- the dump of `io4` without its empty layers 4 to 15 -/
def shortDump : Dir := fun n =>
  match fileDump u8Ty io4 (fun _ => none) "a" [] with
  | some (fs, _) =>
    if n = "a.hnsw.graph" then
      (fs n).map fun g => g.take 90 ++ [4] ++ (g.drop 91).take (g.length - 91 - 157) ++ g.drop (g.length - 13)
    else fs n
  | none => none

/-- its reload -/
def shortIdx : Option (Loaded UInt8) :=
  ((HnswIo.new "a" .default).loadHnsw (listPolicy UInt8) u8Ty exScale u8Dist shortDump).2.toOption

/-- **C111 is false** without the restriction on levels: the files decide how many layers the table has, the generator of
levels does not know. An index of four layers is loaded without error, `get_max_level` is 16 and levels up to 15 are drawn (4.0 gives
4); the insertion of a point at level 4 panics. -/
theorem C111_levels_refuted : ∃ x, LoadsOk (listPolicy UInt8) u8Ty exScale u8Dist (HnswIo.new "a" .default) shortDump x ∧
    x.hnsw.idx.layers.length = 4 ∧ x.hnsw.cfg.maxLayer = 16 ∧
    (x.hnsw.gen.generate ⟨false, Fin.ofNat _ 0x4010000000000000⟩ 0).toOption = some 4 ∧
    (insert (listPolicy UInt8) x.hnsw.cfg (CSt.ofIdx x.hnsw.idx) ([40, 4], 11) 4 matches .panic .index _) = true := by
  have h : ∃ x, shortIdx = some x := Option.isSome_iff_exists.1 (by decide +kernel)
  obtain ⟨x, hx⟩ := h
  refine ⟨x, loadsOk_toOption hx, ?_⟩
  · have hk : shortIdx.all (fun x => x.hnsw.idx.layers.length == 4 && x.hnsw.cfg.maxLayer == 16 &&
        (x.hnsw.gen.generate ⟨false, Fin.ofNat _ 0x4010000000000000⟩ 0).toOption == some 4 &&
        (insert (listPolicy UInt8) x.hnsw.cfg (CSt.ofIdx x.hnsw.idx) ([40, 4], 11) 4 matches .panic .index _)) = true := by
      decide +kernel
    rw [hx] at hk
    simp only [Option.all_some, Bool.and_eq_true, beq_iff_eq] at hk
    exact ⟨hk.1.1.1, hk.1.1.2, hk.1.2, hk.2⟩

end Verif
