import Verif.Together
import Verif.Props.SearchConc
import Verif.Props.IterConc
import Verif.Props.DumpConc
import Verif.Props.AccessConc
import Verif.Props.FlattenConc

set_option autoImplicit false

/-!
# C130: insertions, searches, accessors, iterations, dumps and flattenings, all at the same time
-/

namespace Verif
variable {T α : Type} {P : Policy T} {cfg : Cfg T} {nsort : NSort}

/-- **C130** (insertions) Insertions do not notice the readers: whatever searches, accessors, iterations, dumps and
flattenings run with them, the state of the index and of the insertions is one they could have reached alone. -/
theorem C130_insertions {c0 : CSt T} {jobs : List (Job T)} {tasks : List (Task T α)} (hok : ∀ t ∈ tasks, t.OK)
    {m : USys T α} (he : UExec nsort P cfg c0 jobs tasks m) : Exec P cfg c0 jobs m.st m.ins :=
  (UExec.tasks hok he).1

/-- **C130** (what can happen) The system of this property contains those of the others: all executions of insertions alone
(C29 - C33), with searches (C80), with accessors (C128), with an iteration (C108), with a dump (C87) and with a flattening
(C129) are executions of it. -/
theorem C130_contains {c0 : CSt T} {jobs : List (Job T)} :
    (∀ (tasks : List (Task T α)) c ts, Exec P cfg c0 jobs c ts → UExec nsort P cfg c0 jobs tasks
      ⟨c, ts, tasks.map (Task.reader P cfg (c0.idx.points.length + jobs.length + 2))⟩) ∧
    (∀ (reqs : List (Req T)) m, MExec P cfg c0 jobs reqs m →
      UExec nsort P cfg c0 jobs (reqs.map .search) ⟨m.st, m.ins, m.srch.map (Reader.search (α := α))⟩) ∧
    (∀ (us : List (Prog (CSt T) α)) m, GSteps (accStart P cfg c0 jobs us) m →
      UExec nsort P cfg c0 jobs (us.map .access) ⟨m.st, m.ins, m.acc.map .access⟩) ∧
    (∀ m, IExec P cfg c0 jobs m → UExec nsort P cfg c0 jobs [.iter] ⟨m.st, m.ins, [Reader.iter (α := α) m.it]⟩) ∧
    (∀ m, DExec P cfg c0 jobs m → UExec nsort P cfg c0 jobs [.dump] ⟨m.st, m.ins, [Reader.dump (α := α) m.dump]⟩) ∧
    (∀ m, FSteps nsort (flattenStart P cfg c0 jobs) m →
      UExec nsort P cfg c0 jobs [.flatten] ⟨m.st, m.ins, [Reader.flatten (α := α) m.fl]⟩) := by
  refine ⟨?_, ?_, ?_, ?_, ?_, ?_⟩
  · intro tasks c ts h
    have hn : ¬ ∃ r ∈ tasks.map (Task.reader P cfg (c0.idx.points.length + jobs.length + 2)), r.holds = true := by
      rintro ⟨r, hr, hh⟩
      obtain ⟨t, -, rfl⟩ := List.mem_map.1 hr
      cases t <;> cases hh
    have key : ∀ a b, Steps (σ := CSt T) (α := Unit) a b → ∀ c ts, b = (c, ts) →
        USteps nsort ⟨a.1, a.2, tasks.map (Task.reader P cfg (c0.idx.points.length + jobs.length + 2))⟩
          ⟨c, ts, tasks.map (Task.reader P cfg (c0.idx.points.length + jobs.length + 2))⟩ := by
      intro a b hs
      induction hs with
      | refl => rintro c ts rfl; exact .refl _
      | @step b c' _ h2 ih =>
        rintro c ts rfl
        exact .step (ih b.1 b.2 rfl) (.ins h2 fun h => absurd h hn)
    exact key _ _ h _ _ rfl
  · intro reqs m h
    have key : ∀ a b, MSteps (T := T) a b → USteps nsort ⟨a.st, a.ins, a.srch.map (Reader.search (α := α))⟩
        ⟨b.st, b.ins, b.srch.map .search⟩ := by
      intro a b hs
      induction hs with
      | refl => exact .refl _
      | step _ h2 ih =>
        refine .step ih ?_
        cases h2 with
        | ins h =>
          refine .ins h ?_
          rintro ⟨r, hr, hh⟩
          obtain ⟨t, -, rfl⟩ := List.mem_map.1 hr
          cases hh
        | srch h =>
          cases h with
          | mk i hi g u k hact hg =>
            rw [List.map_set]
            exact .read i (by rw [List.getElem?_map, List.getElem?_eq_getElem hi, hact]; rfl) (.search hg)
    have := key _ _ h
    simpa only [UExec, List.map_map, Function.comp_def, Task.reader] using this
  · intro us m h
    have key : ∀ a b, GSteps (T := T) (α := α) a b → USteps nsort ⟨a.st, a.ins, a.acc.map (Reader.access (α := α))⟩
        ⟨b.st, b.ins, b.acc.map .access⟩ := by
      intro a b hs
      induction hs with
      | refl => exact .refl _
      | step _ h2 ih =>
        refine .step ih ?_
        cases h2 with
        | ins h =>
          refine .ins h ?_
          rintro ⟨r, hr, hh⟩
          obtain ⟨t, -, rfl⟩ := List.mem_map.1 hr
          cases hh
        | acc i h =>
          obtain ⟨g, u, k, hi, hg, rfl⟩ := h
          rw [List.map_set]
          exact .read i (by rw [List.getElem?_map, hi]; rfl) (.access hg)
    have := key _ _ h
    simpa only [UExec, accStart, List.map_map, Function.comp_def, Task.reader] using this
  · intro m h
    have key : ∀ a b, ISteps (T := T) a b → USteps nsort ⟨a.st, a.ins, [Reader.iter (α := α) a.it]⟩
        ⟨b.st, b.ins, [.iter b.it]⟩ := by
      intro a b hs
      induction hs with
      | refl => exact .refl _
      | step _ h2 ih =>
        refine .step ih ?_
        rcases h2.act with ⟨h, e, hl⟩ | ⟨e1, e2, h⟩
        · rw [e]; exact .ins h fun hh => hl (holds_one hh)
        · rw [e1, e2]; exact .read 0 rfl (.iter h)
    exact key _ _ h
  · intro m h
    have key : ∀ a b, DSteps (T := T) a b → USteps nsort ⟨a.st, a.ins, [Reader.dump (α := α) a.dump]⟩
        ⟨b.st, b.ins, [.dump b.dump]⟩ := by
      intro a b hs
      induction hs with
      | refl => exact .refl _
      | step _ h2 ih =>
        refine .step ih ?_
        rcases h2.act with ⟨h, e, hl⟩ | ⟨e1, e2, h⟩
        · rw [e]; exact .ins h fun hh => hl (holds_one hh)
        · rw [e1, e2]; exact .read 0 rfl (.dump h)
    exact key _ _ h
  · intro m h
    have key : ∀ a b, FSteps (T := T) nsort a b → USteps nsort ⟨a.st, a.ins, [Reader.flatten (α := α) a.fl]⟩
        ⟨b.st, b.ins, [.flatten b.fl]⟩ := by
      intro a b hs
      induction hs with
      | refl => exact .refl _
      | step _ h2 ih =>
        refine .step ih ?_
        rcases h2.act with ⟨h, e, hl⟩ | ⟨e1, e2, h⟩
        · rw [e]; exact .ins h fun hh => hl (holds_one hh)
        · rw [e1, e2]; exact .read 0 rfl (.flatten h)
    exact key _ _ h

/-- **C130** (searches) The answers of a search that runs with all this: at most `knbn` points, none twice, each one
stored at that moment and with its distance. If no distance from the query to a stored point is a NaN, they come by
increasing distance. -/
theorem C130_search (L : P.Lawful) (hml : cfg.maxLayer ≤ 256) {c0 : CSt T} (h : ReachC P cfg c0) (ext kp : Bool)
    {jobs : List (Job T)} (hl : ∀ j ∈ jobs, j.level < cfg.maxLayer) {tasks : List (Task T α)} (hok : ∀ t ∈ tasks, t.OK)
    {m : USys T α} (he : UExec nsort P (cfg.withFlags ext kp) c0 jobs tasks m) {i : Nat} {r : Req T} {ns : List Neighbour}
    (ht : tasks[i]? = some (.search r)) (hn : m.rds[i]? = some (.search (.ret ns))) :
    ns.length ≤ r.knbn ∧ (ns.map (·.pId)).Nodup ∧
    ((∀ p ∈ m.st.idx.points, (cfg.eval r.query p.data).isNaN = false) → SortedAnswers ns ∧ ∀ n ∈ ns, n.distance.Legal) ∧
    ∀ n ∈ ns, ∃ p ∈ m.st.idx.points, n = ⟨p.origin, cfg.eval r.query p.data, p.pid⟩ := by
  have hM : MExec P (cfg.withFlags ext kp) c0 jobs [r] ⟨m.st, m.ins, [.ret ns]⟩ := (UExec.tasks hok he).2.2.2 i _ _ ht hn
  obtain ⟨h1, h2, h3, h4⟩ := C80_answers_partial L hml h ext kp hl hM (i := 0) rfl rfl
  exact ⟨h1, h2, h3, fun n hn => (h4 n hn).imp fun p hp => ⟨hp.1, hp.2.1⟩⟩

/-- **C130** (accessors) A vector returned by `get_point_data` is the one of the stored point that has the id asked for; if
the entry point was on the highest layer in use before, the points of that time are found. -/
theorem C130_point_data (L : P.Lawful) {c0 : CSt T} (h : ReachC P cfg c0) (ext kp : Bool)
    {jobs : List (Job T)} (hl : ∀ j ∈ jobs, j.level < cfg.maxLayer) {tasks : List (Task T (Option (List T)))}
    (hok : ∀ t ∈ tasks, t.OK) {m : USys T (Option (List T))} (he : UExec nsort P (cfg.withFlags ext kp) c0 jobs tasks m)
    {i l : Nat} {r : Int} {a : Option (List T)} (ht : tasks[i]? = some (.access (pointDataP l r))) (hr : 0 ≤ r)
    (ha : m.rds[i]? = some (.access (.ret a))) :
    (∀ v, a = some v → ∃ p ∈ m.st.idx.points, p.pid = ⟨l, r.toNat⟩ ∧ p.data = v) ∧
    (TopEntry c0.idx → ∀ p ∈ c0.idx.points, p.pid = ⟨l, r.toNat⟩ → a = some p.data) := by
  have hG : GSteps (accStart P (cfg.withFlags ext kp) c0 jobs [pointDataP l r]) ⟨m.st, m.ins, [.ret a]⟩ :=
    (UExec.tasks hok he).2.2.2 i _ _ ht ha
  have hu : ReadOnly (pointDataP (T := T) l r) := hok _ (List.mem_of_getElem? ht)
  exact C128_found L h ext kp hl (us := [pointDataP l r]) (by simpa using hu) (i := 0) rfl hr hG rfl

/-- **C130** (iterations; partial as C108: the points up to the level of the entry point of the moment the iterator was made)
An iteration that comes to its end has yielded points of the table as it was when the iterator was made, in order,
none twice, all those that were not above the entry point of that moment; and, if the entry point was on the highest layer in
use before, all the points of that time. -/
theorem C130_iter_partial (L : P.Lawful) {c0 : CSt T} (h : ReachC P cfg c0) (hm : 0 < cfg.maxLayer) (ext kp : Bool)
    {jobs : List (Job T)} (hl : ∀ j ∈ jobs, j.level < cfg.maxLayer) {tasks : List (Task T α)} (hok : ∀ t ∈ tasks, t.OK)
    {m : USys T α} (he : UExec nsort P (cfg.withFlags ext kp) c0 jobs tasks m) {i : Nat} {s0 : Idx T} {out : List (Ref T)}
    (ht : tasks[i]? = some .iter) (hi : m.rds[i]? = some (.iter (.ended s0 out))) :
    out <+: s0.points ∧ (out.map (·.pid)).Nodup ∧ (∀ p ∈ out, p ∈ m.st.idx.points) ∧
    (∀ e, s0.entry = some e → ∀ p ∈ s0.points, p.pid.layer ≤ e.pid.layer → p ∈ out) ∧
    (TopEntry c0.idx → ∀ p ∈ c0.idx.points, p ∈ out) := by
  have hI : IExec P (cfg.withFlags ext kp) c0 jobs ⟨m.st, m.ins, .ended s0 out⟩ := (UExec.tasks hok he).2.2.2 i _ _ ht hi
  obtain ⟨h1, h2, -, h4⟩ := C108_prefix L h hm ext kp hl hI (.inr rfl)
  exact ⟨h1, h2, h4, fun e hee p hp hle => C108_complete_partial L h hm ext kp hl hI rfl hee hp hle,
    fun htop p hp => C108_old_points L h htop ext kp hl hI rfl hp⟩

theorem WasIdx.factsB {B : Base T} (L : P.Lawful) {c0 : CSt T} (h : GoodCB B cfg c0) (hB : B.Owned c0.idx)
    {jobs : List (Job T)} (hl : ∀ j ∈ jobs, j.level < cfg.maxLayer) {s : CSt T} {ts : List (Prog (CSt T) Unit)}
    {s0 : Idx T} (hw : WasIdx P cfg c0 jobs s ts s0) :
    IdxOKB B cfg s0 ∧ (∀ p, Stored c0.idx p → Stored s0 p) ∧ ∀ p, Stored s0 p → Stored s.idx p := by
  obtain ⟨c, ts0, h1, h2, rfl⟩ := hw
  have hf := Exec.factsB L h hB hl h1 (fun _ => True) (fun _ _ => trivial) (fun _ _ => trivial)
  refine ⟨hf.ok, hf.old, ?_⟩
  have key : ∀ {a b : CSt T × List (Prog (CSt T) Unit)}, Steps a b → Exec P cfg c0 jobs a.1 a.2 →
      Exec P cfg c0 jobs b.1 b.2 ∧ ∀ p, Stored a.1.idx p → Stored b.1.idx p := by
    intro a b hab
    induction hab with
    | refl => exact fun hx => ⟨hx, fun _ hp => hp⟩
    | step _ hs ih =>
      intro hx
      obtain ⟨i1, i2⟩ := ih hx
      obtain ⟨ph, hi⟩ := Exec.invB L h hB hl i1 (fun _ => True) (fun _ _ => trivial) (fun _ _ => trivial)
      exact ⟨.step i1 hs, fun p hp => (sysInv_mono hs hi).stored p (i2 p hp)⟩
  exact (key h2 h1).2

/-- what a loop on a layer yields -/
theorem WasIdx.layer {B : Base T} (L : P.Lawful) {c0 : CSt T} (h : GoodCB B cfg c0) (hB : B.Owned c0.idx)
    {jobs : List (Job T)} (hl : ∀ j ∈ jobs, j.level < cfg.maxLayer) {s : CSt T} {ts : List (Prog (CSt T) Unit)}
    {s0 : Idx T} (hw : WasIdx P cfg c0 jobs s ts s0) (l : Nat) :
    (∀ p ∈ s0.layer l, p ∈ s.idx.points ∧ p.pid.layer = l) ∧ ((s0.layer l).map (·.pid)).Nodup ∧
    ∀ p ∈ c0.idx.points, p.pid.layer = l → p ∈ s0.layer l := by
  obtain ⟨h1, h2, h3⟩ := hw.factsB L h hB hl
  refine ⟨fun p hp => ?_, ?_, fun p hp hpl => ?_⟩
  · obtain ⟨k, hk⟩ := List.getElem?_of_mem hp
    have hid := h1.tab.ids l k p hk
    refine ⟨h3 p ?_, by rw [hid]⟩
    unfold Idx.layer at hk
    cases hv : s0.layers[l]? with
    | none => rw [hv] at hk; simp at hk
    | some v =>
      rw [hv] at hk
      exact List.mem_flatten.2 ⟨v, List.mem_of_getElem? hv, List.mem_of_getElem? hk⟩
  · refine List.pairwise_iff_getElem.2 fun a b ha hb hab hx => ?_
    simp only [List.length_map] at ha hb
    simp only [List.getElem_map] at hx
    rw [h1.tab.ids l a _ (List.getElem?_eq_getElem ha), h1.tab.ids l b _ (List.getElem?_eq_getElem hb)] at hx
    injection hx with _ hx
    omega
  · obtain ⟨v, hv, hpv⟩ := List.mem_flatten.1 (h2 p hp)
    obtain ⟨k, hk⟩ := List.getElem?_of_mem hv
    obtain ⟨q, hq⟩ := List.getElem?_of_mem hpv
    have hid := h1.tab.ids k q p (by rw [layer_eq hk]; exact hq)
    have : k = l := by rw [← hpl, hid]
    subst this
    rw [layer_eq hk]
    exact hpv

/-- **C130** (layer iterator) A loop on `get_layer_iterator(l)` that comes to its end has yielded points of layer `l` stored
now, none twice, and among them all the points of this layer that were stored before: it does not depend on the entry point. -/
theorem C130_layer (L : P.Lawful) {c0 : CSt T} (h : ReachC P cfg c0) (ext kp : Bool)
    {jobs : List (Job T)} (hl : ∀ j ∈ jobs, j.level < cfg.maxLayer) {tasks : List (Task T α)} (hok : ∀ t ∈ tasks, t.OK)
    {m : USys T α} (he : UExec nsort P (cfg.withFlags ext kp) c0 jobs tasks m) {i l l' : Nat} {s0 : Idx T}
    {out : List (Ref T)} (ht : tasks[i]? = some (.layer l)) (hi : m.rds[i]? = some (.layer (.ended l' s0 out))) :
    (∀ p ∈ out, p ∈ m.st.idx.points ∧ p.pid.layer = l) ∧ (out.map (·.pid)).Nodup ∧
    ∀ p ∈ c0.idx.points, p.pid.layer = l → p ∈ out := by
  obtain ⟨-, hw, rfl⟩ := (UExec.tasks hok he).2.2.2 i _ _ ht hi
  exact hw.layer L ((goodC_flags (e := ext) (k := kp)).2 (h.goodC L)) (Base.owned_none _) hl _

/-- **C130** (dumps) The number of points a dump has put in its header is never larger than the number of points it writes;
it has written all the points stored before it and only stored points. -/
theorem C130_dump (L : P.Lawful) {c0 : CSt T} (h : ReachC P cfg c0) (ext kp : Bool)
    {jobs : List (Job T)} (hl : ∀ j ∈ jobs, j.level < cfg.maxLayer) {tasks : List (Task T α)} (hok : ∀ t ∈ tasks, t.OK)
    {m : USys T α} (he : UExec nsort P (cfg.withFlags ext kp) c0 jobs tasks m) {i d : Nat} {s : Idx T}
    (ht : tasks[i]? = some .dump) (hi : m.rds[i]? = some (.dump (.done d s))) :
    s.nbPoint ≤ s.points.length ∧ (∀ p ∈ c0.idx.points, p ∈ s.points) ∧ (∀ p ∈ s.points, p ∈ m.st.idx.points) ∧
    IdxOK cfg s := by
  have hD : DExec P (cfg.withFlags ext kp) c0 jobs ⟨m.st, m.ins, .done d s⟩ := (UExec.tasks hok he).2.2.2 i _ _ ht hi
  have := dumpOK L ((goodC_flags (e := ext) (k := kp)).2 (h.goodC L)) hl (fun _ => True) (fun _ _ => trivial)
    (fun _ _ => trivial) (fun _ => True) (fun _ _ => trivial) hD
  simp only [DumpOK] at this
  obtain ⟨-, h3, h4, h5, h6, -⟩ := this
  exact ⟨h3, h5, h6, idxOK_flags.1 h4⟩

/-- **C130** (flattenings) A flattening that comes to its end knows the points its iterator yielded, with links sorted by
distance that lead to other stored points, at their distance; other ids are unknown. -/
theorem C130_flatten (N : NSortLawful nsort) (L : P.Lawful) {c0 : CSt T} (h : ReachC P cfg c0) (hm : 0 < cfg.maxLayer)
    (ext kp : Bool) {jobs : List (Job T)} (hl : ∀ j ∈ jobs, j.level < cfg.maxLayer) {tasks : List (Task T α)}
    (hok : ∀ t ∈ tasks, t.OK) {m : USys T α} (he : UExec nsort P (cfg.withFlags ext kp) c0 jobs tasks m) {i : Nat}
    {s0 : Idx T} {out : List (Ref T)} {f : FlatNeighborhood} (ht : tasks[i]? = some .flatten)
    (hi : m.rds[i]? = some (.flatten (.ended s0 out f))) :
    (∀ a p b, out = a ++ p :: b → (∀ q ∈ b, q.origin ≠ p.origin) →
      ∃ ns, f.getNeighbours p.origin = some ns ∧ SortedAnswers ns ∧
        ∀ n ∈ ns, ∃ q ∈ m.st.idx.points, n.dId = q.origin ∧ n.pId = q.pid ∧ q.pid ≠ p.pid ∧
          (n.distance = cfg.eval p.data q.data ∨ n.distance = cfg.eval q.data p.data)) ∧
    (∀ id, (∀ p ∈ out, p.origin ≠ id) → f.getNeighbours id = none) ∧
    (TopEntry c0.idx → ∀ p ∈ c0.idx.points, p ∈ out) := by
  have hF : FSteps nsort (flattenStart P (cfg.withFlags ext kp) c0 jobs) ⟨m.st, m.ins, .ended s0 out f⟩ :=
    (UExec.tasks hok he).2.2.2 i _ _ ht hi
  obtain ⟨h1, h2⟩ := C129_content N L h hm ext kp hl hF rfl
  refine ⟨fun a p b ha hb => ?_, h2, fun htop p hp => ?_⟩
  · obtain ⟨ns, i1, i2, -, i4⟩ := h1 a p b ha hb
    exact ⟨ns, i1, i2, i4⟩
  · have hI := (flatOKB N L ((goodC_flags (e := ext) (k := kp)).2 (h.goodC L)) (Base.owned_none _) hm hl hF).1
      (Or.inr fun ⟨_, _, h⟩ => h)
    exact C108_old_points L h htop ext kp hl hI rfl hp

/-- a reader that has panicked -/
def Reader.Panicked : Reader T α → Prop
  | .search (.fail _) => True
  | .access (.fail _) => True
  | .iter (.failed _) => True
  | .layer (.failed ..) => True
  | .flatten (.failed _) => True
  | _ => False

/-- what a task needs not to panic: legal distances, an existing layer -/
def Task.Sound (cfg : Cfg T) (c0 : CSt T) (jobs : List (Job T)) : Task T (Option (List T)) → Prop
  | .search r => LegalOn cfg.eval c0.idx r.query ∧ (∀ j ∈ jobs, (cfg.eval r.query j.data).Legal) ∧
      (r.filt = none ∨ 1 ≤ max r.ef r.knbn)
  | .access u => ∃ (l : Nat) (r : Int), 0 ≤ r ∧ u = pointDataP l r
  | .layer l => l < cfg.maxLayer
  | _ => True

/-- **C130** (no panic; partial: the index was not empty) If the index was not empty before, no reader panics: searches
with legal distances, calls of `get_point_data`, iterations, loops on existing layers, dumps, flattenings.  Missing: on an
empty index iterations panic (`C108_panic_refuted`, `C129_panic_refuted`). -/
theorem C130_no_panic_partial (N : NSortLawful nsort) (L : P.Lawful) {c0 : CSt T} (h : ReachC P cfg c0)
    (hm : 0 < cfg.maxLayer) (hml : cfg.maxLayer ≤ 256) (hc0 : c0.idx.entry ≠ none)
    (ext kp : Bool) {jobs : List (Job T)} (hl : ∀ j ∈ jobs, j.level < cfg.maxLayer) {tasks : List (Task T (Option (List T)))}
    (hok : ∀ t ∈ tasks, t.OK) (hs : ∀ t ∈ tasks, t.Sound cfg c0 jobs) {m : USys T (Option (List T))}
    (he : UExec nsort P (cfg.withFlags ext kp) c0 jobs tasks m) : ∀ r ∈ m.rds, ¬ r.Panicked := by
  intro r hr hp
  obtain ⟨i, hi⟩ := List.getElem?_of_mem hr
  obtain ⟨-, hlen, -, hT⟩ := UExec.tasks hok he
  have hit : i < tasks.length := hlen ▸ (List.getElem?_eq_some_iff.1 hi).1
  have ht := List.getElem?_eq_getElem hit
  have hsnd := hs _ (List.mem_of_getElem? ht)
  have hO := hok _ (List.mem_of_getElem? ht)
  have hK := hT i _ r ht hi
  generalize tasks[i] = t at *
  cases t <;> cases r <;> try exact hK
  case search.search r u =>
    cases u with
    | fail e => exact C81_no_panic L hml h ext kp hl hK (i := 0) rfl hsnd.1 hsnd.2.1 hsnd.2.2 e rfl
    | _ => exact hp
  case access.access u u' =>
    obtain ⟨l, k, hk, rfl⟩ := hsnd
    cases u' with
    | fail e => exact (C128_point_data L h ext kp hl (us := [pointDataP l k])
        (by intro u hu; rw [List.mem_singleton.1 hu]; exact hO) (i := 0) rfl hk hK).1 e rfl
    | _ => exact hp
  case iter.iter i =>
    cases i with
    | failed e => exact C108_no_panic_partial L h hm ext kp hl hK hc0 e rfl
    | _ => exact hp
  case layer.layer l i =>
    cases i with
    | failed l' e =>
      obtain ⟨-, s0, hw, hle⟩ := hK
      have := (hw.factsB L ((goodC_flags (e := ext) (k := kp)).2 (h.goodC L)) (Base.owned_none _) hl).1.tab.len
      simp only [Task.Sound] at hsnd
      have hx : (cfg.withFlags ext kp).maxLayer = cfg.maxLayer := rfl
      omega
    | _ => exact hp
  case dump.dump d => exact hp
  case flatten.flatten f =>
    cases f with
    | failed e => exact C129_no_panic_partial N L h hm ext kp hl hK hc0 e rfl
    | _ => exact hp

theorem TaskOK.within {B : Base T} (N : NSortLawful nsort) (L : P.Lawful) {c0 : CSt T} (h : GoodCB B cfg c0)
    (hB : B.Owned c0.idx) (hm : 0 < cfg.maxLayer)
    {jobs : List (Job T)} (hl : ∀ j ∈ jobs, j.level < cfg.maxLayer) {s : CSt T} {ts : List (Prog (CSt T) Unit)}
    {t : Task T α} {r : Reader T α} (hk : TaskOK nsort P cfg c0 jobs s ts t r) : r.Within := by
  have hit : ∀ {i : IterSt T}, IExec P cfg c0 jobs ⟨s, ts, i⟩ → ∀ s0 pos out, i = .live s0 pos out →
      out.length ≤ s0.points.length := by
    rintro i hI s0 pos out rfl
    have ok := iterOKB L h hB hm hl hI
    simp only [IterOK] at ok
    obtain ⟨-, -, -, -, -, l, k, -, -, h8⟩ := ok
    rw [← h8, List.length_append]
    omega
  cases t <;> cases r <;> try exact hk.elim
  case search.search => trivial
  case access.access => trivial
  case iter.iter i =>
    cases i with
    | live s0 pos out => exact hit hk _ _ _ rfl
    | _ => trivial
  case layer.layer l i =>
    cases i with
    | live l' s0 slot out =>
      obtain ⟨rfl, -, -, -, h5⟩ := hk
      simp only [Reader.Within]
      rw [h5, List.length_take]
      omega
    | _ => trivial
  case dump.dump => trivial
  case flatten.flatten f =>
    have hI := (flatOKB N L h hB hm hl hk).1
    cases f with
    | live s0 pos out f => exact hit (hI (Or.inl fun e h => by cases h)) _ _ _ rfl
    | point s0 pos out f p => exact hit (hI (Or.inl fun e h => by cases h)) _ _ _ rfl
    | _ => trivial

theorem UExec.wf {B : Base T} (N : NSortLawful nsort) (L : P.Lawful) {c0 : CSt T} (h : GoodCB B cfg c0)
    (hB : B.Owned c0.idx) (hm : 0 < cfg.maxLayer)
    {jobs : List (Job T)} (hl : ∀ j ∈ jobs, j.level < cfg.maxLayer) {tasks : List (Task T α)} (hok : ∀ t ∈ tasks, t.OK) :
    WellFounded (fun (b a : USys T α) => UExec nsort P cfg c0 jobs tasks a ∧ UStep nsort a b) := by
  have hwi : ∀ {m : USys T α}, UExec nsort P cfg c0 jobs tasks m → ∀ (i : Nat) r, m.rds[i]? = some r → r.Within := by
    intro m hx i r hr
    obtain ⟨-, hlen, -, hT⟩ := UExec.tasks hok hx
    have hit : i < tasks.length := hlen ▸ (List.getElem?_eq_some_iff.1 hr).1
    exact (hT i _ r (List.getElem?_eq_getElem hit) hr).within N L h hB hm hl
  constructor
  rintro ⟨s, ts, rs⟩
  induction ts using (step_list_wf (σ := CSt T) (α := Unit)).induction generalizing s rs with
  | h ts iht =>
  induction rs using (set_wf (nearer_wf (T := T) (α := α))).induction generalizing s with
  | h rs ihr =>
  constructor
  rintro b ⟨hx, hb⟩
  have hxb : UExec nsort P cfg c0 jobs tasks b := .step hx hb
  cases hb with
  | ins hs hlay => exact iht _ ⟨_, _, hs⟩ _ _
  | @read _ _ _ _ r r' i hi hs =>
    have h1 : r.Within := hwi hx i r hi
    have h2 : r'.Within := hwi hxb i r' (by
      rw [List.getElem?_set_self (List.getElem?_eq_some_iff.1 hi).1])
    exact ihr _ ⟨i, r, r', hi, hs.nearer h1 h2, rfl⟩ _

/-- **C130** (no infinite schedule) Any schedule of insertions and readers is finite. -/
theorem C130_no_infinite_schedule (N : NSortLawful nsort) (L : P.Lawful) {c0 : CSt T} (h : ReachC P cfg c0)
    (hm : 0 < cfg.maxLayer) (ext kp : Bool) {jobs : List (Job T)} (hl : ∀ j ∈ jobs, j.level < cfg.maxLayer)
    {tasks : List (Task T α)} (hok : ∀ t ∈ tasks, t.OK) (f : Nat → USys T α)
    (h0 : UExec nsort P (cfg.withFlags ext kp) c0 jobs tasks (f 0)) : ¬ ∀ n, UStep nsort (f n) (f (n + 1)) := by
  intro hs
  have hall : ∀ n, UExec nsort P (cfg.withFlags ext kp) c0 jobs tasks (f n) := by
    intro n
    induction n with
    | zero => exact h0
    | succ n ih => exact .step ih (hs n)
  have : ∀ x, ∀ n, f n ≠ x := by
    intro x
    induction x using (UExec.wf N L ((goodC_flags (e := ext) (k := kp)).2 (h.goodC L)) (Base.owned_none _) hm hl hok).induction with
    | h x ih =>
      rintro n rfl
      exact ih (f (n + 1)) ⟨hall n, hs n⟩ (n + 1) rfl
  exact this _ 0 rfl

/-- **C130** (readers are never held up) In any state, a reader that has not come to its end can perform its next action,
without changing anything else. (Read guards are granted at once in the model; `parking_lot` can hold up a thread that asks
for a read guard it already has while an insertion waits for the write guard, see C86.) -/
theorem C130_readers_enabled {c0 : CSt T} {jobs : List (Job T)} {tasks : List (Task T α)} (hok : ∀ t ∈ tasks, t.OK)
    {m : USys T α} (he : UExec nsort P cfg c0 jobs tasks m) {i : Nat} {r : Reader T α} (hi : m.rds[i]? = some r)
    (hf : ¬ r.Finished) : ∃ r', UStep nsort m ⟨m.st, m.ins, m.rds.set i r'⟩ := by
  obtain ⟨-, -, hro, -⟩ := UExec.tasks hok he
  obtain ⟨r', hs⟩ := Reader.enabled (nsort := nsort) m.st (hro r (List.mem_of_getElem? hi)) hf
  exact ⟨r', .read i hi hs⟩

/-- **C130** (completion; partial as `C32_progress_partial`: the points inserted concurrently have all drawn the same level,
or there are two of them one of which is of level 0) From any state the execution can be completed: all the
insertions and all the readers finish. Readers always can, and then nobody has the table. -/
theorem C130_completes_partial (N : NSortLawful nsort) (L : P.Lawful) {c0 : CSt T} (h : ReachC P cfg c0)
    (hm : 0 < cfg.maxLayer) (ext kp : Bool) {jobs : List (Job T)} (hl : ∀ j ∈ jobs, j.level < cfg.maxLayer)
    (hlv : (∀ j ∈ jobs, ∀ j' ∈ jobs, j.level = j'.level) ∨ (jobs.length ≤ 2 ∧ ∃ j ∈ jobs, j.level = 0))
    {tasks : List (Task T α)} (hok : ∀ t ∈ tasks, t.OK) {m : USys T α}
    (he : UExec nsort P (cfg.withFlags ext kp) c0 jobs tasks m) :
    ∃ m', USteps nsort m m' ∧ (∀ t ∈ m'.ins, t.Finished) ∧ ∀ r ∈ m'.rds, r.Finished := by
  induction m using (UExec.wf (nsort := nsort) N L ((goodC_flags (e := ext) (k := kp)).2 (h.goodC L)) (Base.owned_none _) hm hl hok).induction with
  | h m ih =>
  have next : ∀ m1, UStep nsort m m1 →
      ∃ m', USteps nsort m m' ∧ (∀ t ∈ m'.ins, t.Finished) ∧ ∀ r ∈ m'.rds, r.Finished := by
    intro m1 hs
    obtain ⟨m', h1, h2⟩ := ih m1 ⟨he, hs⟩ (.step he hs)
    exact ⟨m', (USteps.step (.refl _) hs).trans h1, h2⟩
  by_cases hr : ∀ r ∈ m.rds, r.Finished
  · by_cases hi : ∀ t ∈ m.ins, t.Finished
    · exact ⟨m, .refl _, hi, hr⟩
    · have hu : ∃ t ∈ m.ins, ¬ t.Finished := by
        apply Classical.byContradiction
        intro hn
        exact hi (fun t ht => Classical.byContradiction fun h' => hn ⟨t, ht, h'⟩)
      obtain ⟨⟨s, ts⟩, hs⟩ := C32_progress_partial L h ext kp hl hlv (C130_insertions hok he) hu
      refine next ⟨s, ts, m.rds⟩ (.ins hs ?_)
      rintro ⟨r, hrm, hh⟩
      rw [Reader.not_holds (hr r hrm)] at hh
      cases hh
  · have hu : ∃ r ∈ m.rds, ¬ r.Finished := by
      apply Classical.byContradiction
      intro hn
      exact hr (fun t ht => Classical.byContradiction fun h' => hn ⟨t, ht, h'⟩)
    obtain ⟨r, hrm, hf⟩ := hu
    obtain ⟨i, hi⟩ := List.getElem?_of_mem hrm
    obtain ⟨r', hs⟩ := C130_readers_enabled hok he hi hf
    exact next _ hs

/-! ## A concrete execution -/

/-- a search, a call of `get_point_data`, an iteration, a loop on layer 0, a dump and a flattening -/
def exTasks : List (Task Nat (Option (List Nat))) :=
  [.search ⟨[11], 3, 3, none⟩, .access (pointDataP 0 0), .iter, .layer 0, .dump, .flatten]

/-- all of them take turns with the insertion of 30 at level 0 -/
def exTurns : List (Nat ⊕ Nat) :=
  (List.replicate 4 [.inl 0, .inr 0, .inr 1, .inr 2, .inr 3, .inr 4, .inr 5]).flatten ++
    [.inl 0, .inr 0, .inr 2, .inr 4, .inr 5, .inl 0, .inr 0, .inr 4, .inr 5, .inl 0, .inr 4, .inr 5, .inl 0, .inr 5] ++
    List.replicate 8 (.inl 0)

/-- what a reader has brought, at the end -/
def Reader.result : Reader Nat (Option (List Nat)) → Option (List (List Nat))
  | .search (.ret ns) => some [ns.map (·.dId.toNat)]
  | .access (.ret a) => some a.toList
  | .iter (.ended _ out) => some (out.map (·.data))
  | .layer (.ended _ _ out) => some (out.map (·.data))
  | .dump (.done _ s) => some (s.points.map (·.data))
  | .flatten (.ended _ out _) => some (out.map (·.data))
  | _ => none

/-- the hypotheses of the theorems are met, and everything comes to an end: the insertion had put its point in the table when
the iterations and the dump locked it -/
example : ReachC (listPolicy Nat) (exCfg 3) (exSt (exCfg 3) [(10, 0), (20, 1)]) ∧
    (∀ t ∈ exTasks, t.OK) ∧
    (∀ t ∈ exTasks, t.Sound (exCfg 3) (exSt (exCfg 3) [(10, 0), (20, 1)]) [⟨[30], 30, 0⟩]) ∧
    ∃ m, UExec nsortAsc (listPolicy Nat) (exCfg 3) (exSt (exCfg 3) [(10, 0), (20, 1)]) [⟨[30], 30, 0⟩] exTasks m ∧
      m.rds.map Reader.result = [some [[10]], some [[10]], some [[10], [30], [20]], some [[10], [30]],
        some [[10], [30], [20]], some [[10], [30], [20]]] ∧ m.ins.map isRet = [true] := by
  refine ⟨exSt_reach _ _ (by decide), ?_, ?_, ?_⟩
  · intro t ht
    simp only [exTasks, List.mem_cons, List.not_mem_nil, or_false] at ht
    rcases ht with rfl | rfl | rfl | rfl | rfl | rfl
    case inr.inl => exact pointP_ro _ _ _
    all_goals trivial
  · intro t ht
    simp only [exTasks, List.mem_cons, List.not_mem_nil, or_false] at ht
    rcases ht with rfl | rfl | rfl | rfl | rfl | rfl
    · exact ⟨absDist_legalOn _ _, fun _ _ => absDist_legal _ _, .inl rfl⟩
    · exact ⟨0, 0, by decide, rfl⟩
    · trivial
    · show 0 < 16
      decide
    all_goals trivial
  · let m0 : USys Nat (Option (List Nat)) := ⟨exSt (exCfg 3) [(10, 0), (20, 1)],
      ([⟨[30], 30, 0⟩] : List (Job Nat)).map (Job.prog (listPolicy Nat) (exCfg 3) 5),
      exTasks.map (Task.reader (listPolicy Nat) (exCfg 3) 5)⟩
    have h : (runAll nsortAsc exTurns m0).any (fun m =>
        m.rds.map Reader.result == [some [[10]], some [[10]], some [[10], [30], [20]], some [[10], [30]],
        some [[10], [30], [20]], some [[10], [30], [20]]] && m.ins.map isRet == [true]) = true := by decide +kernel
    rw [Option.any_eq_true] at h
    obtain ⟨m, hm, hq⟩ := h
    rw [Bool.and_eq_true, beq_iff_eq, beq_iff_eq] at hq
    exact ⟨m, runAll_steps _ _ _ hm, hq.1, hq.2⟩

end Verif
