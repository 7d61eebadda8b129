import Verif.ExecLemmas
import Verif.SearchConc
import Verif.ImproveLemmas
import Verif.FailedLemmas
import Verif.AnyLemmas

set_option autoImplicit false

/-!
# Insertions in an index that was reloaded from any files

The links read from a file need not satisfy anything but what the reload checks: they lead to points of the
index. `Resumed h0 c` : `c` is reached from the reloaded index `h0` by insertions.
-/

namespace Verif
variable {T : Type} {P : Policy T} {ty : Ty T} {defScale : Nat → F64} {dist : Dist T} {io : HnswIo} {fs : Dir}
  {x : Loaded T}

/-- the state of a reloaded index: nobody is modifying it, all its points are visible -/
def CSt.ofIdx (s : Idx T) : CSt T := ⟨s, [], s.points.map (·.pid)⟩

/-- States obtained from the index `h0` by batches of concurrent insertions (some of which may have
panicked), the levels drawn being those of layers that `h0` has. -/
inductive Resumed (P : Policy T) (h0 : Hnsw T) : CSt T → Prop
  | start : Resumed P h0 (CSt.ofIdx h0.idx)
  | batch {c0 c : CSt T} (ext kp : Bool) (jobs : List (Job T)) {ts : List (Prog (CSt T) Unit)} :
      Resumed P h0 c0 → (∀ j ∈ jobs, j.level < h0.idx.layers.length) →
      Exec P (h0.cfg.withFlags ext kp) c0 jobs c ts → (∀ t ∈ ts, t.Finished) → Resumed P h0 c

/-- no link of the index has a NaN for distance -/
def NumLinks (s : Idx T) : Prop := ∀ p l, ∀ e ∈ s.nb p l, e.dist.isNaN = false

/-- the configuration with the number of layers the file has -/
def Cfg.layersOf (cfg : Cfg T) (s : Idx T) : Cfg T := { cfg with maxLayer := s.layers.length }

set_option smartUnfolding false in
theorem insertP_layersOf (P : Policy T) (cfg : Cfg T) (s : Idx T) :
    insertP P (cfg.layersOf s) = insertP P cfg := by
  with_unfolding_all rfl

set_option smartUnfolding false in
theorem searchP_layersOf (P : Policy T) (cfg : Cfg T) (s : Idx T) :
    searchP P (cfg.layersOf s) = searchP P cfg := by
  with_unfolding_all rfl

theorem exec_layersOf {cfg : Cfg T} {s : Idx T} {c0 c : CSt T} {jobs : List (Job T)}
    {ts : List (Prog (CSt T) Unit)} :
    Exec P (cfg.layersOf s) c0 jobs c ts ↔ Exec P cfg c0 jobs c ts := by
  unfold Exec
  have : (Job.prog P (cfg.layersOf s) : Nat → Job T → _) = Job.prog P cfg := by
    funext n j
    unfold Job.prog
    rw [insertP_layersOf]
  rw [this]

theorem mexec_layersOf {cfg : Cfg T} {s : Idx T} {c0 : CSt T} {jobs : List (Job T)} {reqs : List (Req T)}
    {m : Mixed T} : MExec P (cfg.layersOf s) c0 jobs reqs m ↔ MExec P cfg c0 jobs reqs m := by
  unfold MExec
  have h1 : (Job.prog P (cfg.layersOf s) : Nat → Job T → _) = Job.prog P cfg := by
    funext n j
    unfold Job.prog
    rw [insertP_layersOf]
  have h2 : (Req.prog P (cfg.layersOf s) : Nat → Req T → _) = Req.prog P cfg := by
    funext n j
    unfold Req.prog
    rw [searchP_layersOf]
  rw [h1, h2]

/-- what a reload guarantees, in parts -/
theorem LoadsOk.parts (hx : LoadsOk P ty defScale dist io fs x) :
    ∃ d b dm o s1 m s2, loadIndexation P ty d dm o s1 = .ok ((x.hnsw.idx, m), s2) ∧
      x = ⟨mkHnsw defScale dist d x.hnsw.idx b, m⟩ := by
  rcases hx with hx | hx
  · obtain ⟨g, b, d, g', s1, idx, m, s2, -, -, -, -, hl, rfl⟩ := load_ok_parts
      (io' := (io.loadHnsw P ty defScale dist fs).1) (Prod.ext rfl hx)
    exact ⟨d, _, _, _, _, _, _, hl, rfl⟩
  · unfold HnswIo.loadHnswWithDist at hx
    split at hx
    · cases hx
    · split at hx
      · cases hx
      · split at hx
        · cases hx
        · split at hx
          · cases hx
          · rename_i hl
            injection hx with hx
            subst hx
            exact ⟨_, _, _, _, _, _, _, hl, rfl⟩

theorem LoadsOk.eval (hx : LoadsOk P ty defScale dist io fs x) : x.hnsw.cfg.eval = dist.eval := by
  obtain ⟨d, b, dm, o, s1, m, s2, -, h⟩ := hx.parts
  rw [h]; rfl

theorem LoadsOk.good (L : P.Lawful) (hx : LoadsOk P ty defScale dist io fs x) :
    GoodCB (Base.of x.hnsw.idx) (x.hnsw.cfg.layersOf x.hnsw.idx) (CSt.ofIdx x.hnsw.idx) := by
  obtain ⟨d, b, dm, o, s1, m, s2, hl, -⟩ := hx.parts
  obtain ⟨h1, h2, ⟨e, he, hes⟩, h4, h5, h6, h7, -⟩ := loadIndexation_ok L hl
  generalize x.hnsw.idx = s at *
  have hst : ∀ p l, ∀ e ∈ s.nb p l, Stored s e.pt := h5
  have hN : ∀ p l, (Base.of s).wild p l ∨ ∀ e ∈ s.nb p l, e.dist.isNaN = false := by
    intro p l
    by_cases hw : (Base.of s).wild p l
    · exact Or.inl hw
    · refine Or.inr fun e he => ?_
      cases hd : e.dist.isNaN with
      | false => rfl
      | true => exact absurd ⟨e, he, hd⟩ hw
  refine ⟨⟨⟨⟨rfl, h2⟩, fun p l hne => (h7 p l hne).2, fun p l hne => Or.inr ?_, hst, fun p l e he => Or.inr he,
    fun o _ l e he => Or.inr he, hN, fun p l e he => Or.inr he, fun p l => (hN p l).imp id (h6 p l), fun p l => ?_,
    fun p l => Or.inr (Nat.le_max_right _ _), ?_⟩, ?_, ?_, ?_, ?_, fun o _ l e he => Or.inr he⟩, rfl, h4, ?_, ?_⟩
  · intro h0
    exact hne (List.length_eq_zero_iff.1 h0)
  · rw [List.pairwise_iff_getElem]
    intro i j hi hj _
    exact Or.inr ⟨List.getElem_mem hi, List.getElem_mem hj⟩
  · intro e' he'
    have he'' : s.entry = some e' := he'
    rw [he] at he''
    cases he''
    exact hes
  · intro q l e he
    exact List.mem_map.2 ⟨_, hst q l e he, rfl⟩
  · intro e' he'
    have he'' : s.entry = some e' := he'
    rw [he] at he''
    cases he''
    exact List.mem_map.2 ⟨_, hes, rfl⟩
  · intro q hq
    obtain ⟨o, ho, rfl⟩ := List.mem_map.1 hq
    exact ⟨o, ho, rfl⟩
  · intro _
    show s.entry ≠ none
    rw [he]; simp
  · intro _
    show s.entry ≠ none
    rw [he]; simp
  · intro o ho _
    exact Or.inr (Or.inl ⟨o, ho, rfl⟩)

theorem NumLinks.tame {s : Idx T} (h : NumLinks s) (p : PointId) (l : Nat) : ¬ (Base.of s).wild p l := by
  rintro ⟨e, he, hd⟩
  rw [h p l e he] at hd
  cases hd

theorem NumLinks.notWild {s : Idx T} (h : NumLinks s) : ¬ (Base.of s).Wild :=
  fun ⟨p, l, hw⟩ => h.tame p l hw

theorem LoadsOk.owned (L : P.Lawful) (hx : LoadsOk P ty defScale dist io fs x) :
    (Base.of x.hnsw.idx).Owned x.hnsw.idx := by
  obtain ⟨d, b, dm, o, s1, m, s2, hl, -⟩ := hx.parts
  obtain ⟨-, -, -, -, -, -, h7, -⟩ := loadIndexation_ok L hl
  intro p l e he
  exact (h7 p l (List.ne_nil_of_mem he)).2

/-- all there is to know about the states reached from a reloaded index -/
theorem Resumed.good (L : P.Lawful) (hx : LoadsOk P ty defScale dist io fs x)
    {c : CSt T} (h : Resumed P x.hnsw c) :
    GoodCB (Base.of x.hnsw.idx) (x.hnsw.cfg.layersOf x.hnsw.idx) c ∧ (Base.of x.hnsw.idx).Owned c.idx ∧
      (∀ o, Stored x.hnsw.idx o → Stored c.idx o) ∧
      ∀ p l, (∃ e ∈ x.hnsw.idx.nb p l, e.dist.isNaN = true) ∨ Improves (degreeBound x.hnsw.cfg l) (x.hnsw.idx.nb p l) (c.idx.nb p l) := by
  induction h with
  | start => exact ⟨hx.good L, hx.owned L, fun _ h => h, fun _ _ => Or.inr (.refl _ _)⟩
  | @batch c0 c ext kp jobs ts _ hl he hf ih =>
    obtain ⟨hg, ho, hs, hI⟩ := ih
    have hg' : GoodCB (Base.of x.hnsw.idx) ((x.hnsw.cfg.layersOf x.hnsw.idx).withFlags ext kp) c0 :=
      (goodC_flags (e := ext) (k := kp)).2 hg
    have he' : Exec P ((x.hnsw.cfg.layersOf x.hnsw.idx).withFlags ext kp) c0 jobs c ts :=
      (exec_layersOf (cfg := x.hnsw.cfg.withFlags ext kp) (s := x.hnsw.idx)).2 he
    have hm := Exec.stored_monoB L hg' ho hl he'
    refine ⟨(goodC_flags (e := ext) (k := kp)).1 (Exec.goodCB L hg' ho hl he' hf), ?_, fun o h => hm o (hs o h), ?_⟩
    · intro p l e h
      obtain ⟨o, h1, h2⟩ := ho p l e h
      exact ⟨o, hm o h1, h2⟩
    · intro p l
      rcases hI p l with hI | hI
      · exact Or.inl hI
      obtain ⟨ph, hS⟩ := Exec.invB L hg' ho hl (.refl _) (fun _ => True) (by simp) (by simp)
      exact (steps_improves L (by omega) ho he' hS p l).imp id hI.trans

end Verif
