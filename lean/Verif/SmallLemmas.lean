import Verif.SelectSpec
import Verif.SearchTop

set_option autoImplicit false

/-!
# Sequential runs of insertion on a complete graph
-/

namespace Verif
variable {T : Type} {P : Policy T} {cfg : Cfg T}

/-- the concurrent search loop run alone is the snapshot loop -/
theorem loopP_run (q : List T) (ef layer : Nat) (c : CSt T) : ∀ (n : Nat) (st : SL P),
    (loopP P cfg q ef layer n st).run c =
      match slLoop P cfg.eval q ef none (fun p => c.idx.nb p layer) n st with
      | .ok r => .ok r c
      | .error e => .panic e c := by
  intro n
  induction n with
  | zero => intro st; rfl
  | succ n ih =>
    intro st
    simp only [loopP, slLoop]
    cases head P ef none st with
    | done r => rfl
    | panic e => rfl
    | expand a st' =>
      simp only [Prog.read, Prog.run, id, if_true]
      cases scanList P cfg.eval q ef none (c.idx.nb a.pid layer) st' with
      | error x => rfl
      | ok z =>
        cases z with
        | stop r => rfl
        | go st'' => exact ih st''

/-- `search_layer` of an insertion run alone, with a large `ef`, finds all points that can be
reached -/
theorem searchLayerP_run_full (L : P.Lawful) {s0 : Idx T} (h0 : IdxOK cfg s0) {c : CSt T}
    {l : Nat} (hnb : ∀ p, c.idx.nb p l = s0.nb p l) {ep : Ref T} (hep : Stored s0 ep)
    {q : List T} (hL : LegalOn cfg.eval s0 q) {ef fuel : Nat} (hef : s0.points.length ≤ ef)
    (hfuel : s0.points.length + 2 ≤ fuel) (hlay : ∃ a as, c.idx.layers[l]? = some (a :: as))
    (hall : ∀ v, Stored s0 v → Reaches (links s0 l) ep v) :
    ∃ r, (searchLayerP P cfg fuel q ep ef l).run c = .ok r c ∧
      (∀ v, Stored s0 v ↔ ∃ x ∈ P.items r, x.pt = v) ∧
      (∀ x ∈ P.items r, x.dist = cfg.eval q x.pt.data ∧ x.dist.Legal) ∧
      ((P.items r).map (·.pt.pid)).Nodup := by
  obtain ⟨a, as, hlay⟩ := hlay
  have hnb' : (fun p => c.idx.nb p l) = links s0 l := funext hnb
  have hI : InvA P cfg.eval q ef (Stored s0) (slInit P cfg.eval q ep) := invA_init L hep
  have hN : InvN P cfg.eval q ef [] (slInit P cfg.eval q ep) := by
    refine ⟨?_, ?_, ?_⟩ <;> simp [slInit, L.items_push_empty]
  have hcl : ∀ c', Stored s0 c' → ∀ e ∈ links s0 l c'.pid, Stored s0 e.pt :=
    fun c' _ e he => h0.stored _ _ e he
  rcases slLoop_resN (ep := ep) L hcl (fun v w hv hw => h0.tab.unique hv hw)
      (fun v hv => hL v hv) fuel hI hN (by simp [slInit]) (by simp) (by simp) with hf | ⟨r, hr, hR⟩
  · refine absurd hf (slLoop_no_fuel L (K := Stored s0) hcl s0.points.length ?_ fuel hI ?_)
    · intro v hv hn
      exact h0.tab.count hv hn
    · simp [slInit, Policy.len, L.items_push_empty]
      omega
  · have hA := slLoop_resA L hcl _ hI hr
    refine ⟨r, ?_, ?_, fun x hx => ⟨hA.dist x hx, hA.legal (fun v hv => (hL v hv).1) x hx⟩, hA.nd⟩
    · simp only [searchLayerP, Prog.read, Prog.run, id, if_true, hlay]
      rw [loopP_run, hnb', hr]
    · intro v
      constructor
      · intro hv
        by_cases hfull : P.len r < ef
        · exact hR.full hfull v (hall v hv)
        · apply Classical.byContradiction
          intro hno
          have h1 : (v :: (P.items r).map (·.pt)).length ≤ s0.points.length := by
            apply h0.tab.count
            · intro w hw
              rcases List.mem_cons.1 hw with rfl | hw
              · exact hv
              · obtain ⟨y, hy, rfl⟩ := List.mem_map.1 hw
                exact hA.inK y hy
            · rw [List.map_cons, List.nodup_cons, List.map_map]
              refine ⟨?_, hA.nd⟩
              intro hm
              obtain ⟨y, hy, hyx⟩ := List.mem_map.1 hm
              exact hno ⟨y, hy, h0.tab.unique (hA.inK y hy) hv hyx⟩
          rw [List.length_cons, List.length_map] at h1
          unfold Policy.len at hfull
          omega
      · rintro ⟨x, hx, rfl⟩
        exact hA.inK x hx

/-- a new point is added to a list that has room and did not contain it -/
theorem revList_room (L : P.Lawful) {p : Ref T} {q : PWO T} {old : List (PWO T)}
    (hroom : old.length < if 0 < p.pid.layer then cfg.maxNb else 2 * cfg.maxNb)
    (hno : ∀ o ∈ old, o.pt.pid ≠ p.pid) :
    (∀ o ∈ old, o ∈ (revList P cfg p q old).1) ∧ ⟨p, q.dist⟩ ∈ (revList P cfg p q old).1 := by
  unfold revList
  rw [if_neg (by simpa using hno)]
  dsimp only
  cases hs : P.sortC (old ++ [⟨p, q.dist⟩]) with
  | error e => exact ⟨fun o ho => (L.sort_perm _).mem_iff.2 (by simp [ho]), (L.sort_perm _).mem_iff.2 (by simp)⟩
  | ok v =>
    have hv := Policy.sortC_ok hs
    dsimp only
    rw [if_neg (by simp; omega), hv]
    constructor
    · intro o ho
      exact (L.sort_perm _).mem_iff.2 (by simp [ho])
    · exact (L.sort_perm _).mem_iff.2 (by simp)

/-- reverse update run alone, when all lists have room -/
theorem revInner_run (L : P.Lawful) {p : Ref T} (k : Prog (CSt T) Unit) :
    ∀ (qs : List (PWO T)) (c c' : CSt T), (qs.map (·.pt.pid)).Nodup →
      (∀ q ∈ qs, q.pt.pid ≠ p.pid) →
      (∀ q ∈ qs, (c.idx.nb q.pt.pid p.pid.layer).length <
        if 0 < p.pid.layer then cfg.maxNb else 2 * cfg.maxNb) →
      (∀ q ∈ qs, ∀ o ∈ c.idx.nb q.pt.pid p.pid.layer, o.pt.pid ≠ p.pid) →
      (revInner P cfg p k qs).run c = .ok () c' →
      ∃ c1 : CSt T, k.run c1 = .ok () c' ∧ c1.idx.layers = c.idx.layers ∧
        c1.idx.entry = c.idx.entry ∧
        (∀ a l, (∀ q ∈ qs, a ≠ q.pt.pid) ∨ l ≠ p.pid.layer → c1.idx.nb a l = c.idx.nb a l) ∧
        ∀ q ∈ qs, (∀ o ∈ c.idx.nb q.pt.pid p.pid.layer, o ∈ c1.idx.nb q.pt.pid p.pid.layer) ∧
          ∃ e ∈ c1.idx.nb q.pt.pid p.pid.layer, e.pt = p := by
  intro qs
  induction qs with
  | nil =>
    intro c c' _ _ _ _ h
    simp only [revInner, Prog.run, if_true] at h
    exact ⟨_, h, rfl, rfl, fun _ _ _ => rfl, by simp⟩
  | cons q qs ih =>
    intro c c' hnd hself hroom hno h
    rw [List.map_cons, List.nodup_cons] at hnd
    have hne : p.pid ≠ q.pt.pid := fun h => hself q (by simp) h.symm
    simp only [revInner, if_neg hne, Prog.run] at h
    split at h
    · have hR := revList_room L (q := q) (hroom q (by simp)) (hno q (by simp))
      split at h
      · simp [Prog.run] at h
      · have hfr : ∀ q' ∈ qs, q'.pt.pid ≠ q.pt.pid := fun q' hq' heq =>
          hnd.1 (List.mem_map.2 ⟨q', hq', heq⟩)
        obtain ⟨c1, h1, h2, h2e, h3, h4⟩ := ih _ c' hnd.2 (fun q' hq' => hself q' (by simp [hq']))
          (by
            intro q' hq'
            simp only [Idx.setNb]
            rw [if_neg (by simp [hfr q' hq'])]
            exact hroom q' (by simp [hq']))
          (by
            intro q' hq'
            simp only [Idx.setNb]
            rw [if_neg (by simp [hfr q' hq'])]
            exact hno q' (by simp [hq'])) h
        refine ⟨c1, h1, h2, h2e, ?_, ?_⟩
        · intro a l hal
          rw [h3 a l (by
            rcases hal with h | h
            · exact Or.inl fun q' hq' => h q' (by simp [hq'])
            · exact Or.inr h)]
          simp only [Idx.setNb]
          rw [if_neg]
          rintro ⟨rfl, rfl⟩
          rcases hal with h | h
          · exact h q (by simp) rfl
          · exact h rfl
        · intro q' hq'
          rcases List.mem_cons.1 hq' with rfl | hq'
          · rw [h3 _ _ (Or.inl fun q'' hq'' heq => hfr q'' hq'' heq.symm)]
            simp only [Idx.setNb, and_self, if_true]
            exact ⟨hR.1, _, hR.2, rfl⟩
          · have := h4 q' hq'
            simp only [Idx.setNb] at this
            rw [if_neg (by simp [hfr q' hq'])] at this
            exact this
    · cases h

/-- every stored point is linked in layer 0 to every other one -/
def Complete (s : Idx T) : Prop :=
  ∀ a b, Stored s a → Stored s b → a ≠ b → ∃ e ∈ s.nb a.pid 0, e.pt = b

theorem Complete.reaches {s : Idx T} (h : Complete s) {a b : Ref T} (ha : Stored s a)
    (hb : Stored s b) : Reaches (links s 0) a b := by
  by_cases hab : a = b
  · rw [hab]; exact .refl
  · obtain ⟨e, he, rfl⟩ := h a b ha hb hab
    exact .step .refl he

/-- in an index of `n` points a list has at most `n - 1` elements -/
theorem nb_length_lt {s : Idx T} (h : IdxOK cfg s) {a : Ref T} (ha : Stored s a) (l : Nat) :
    (s.nb a.pid l).length + 1 ≤ s.points.length := by
  have := h.tab.count (l := a :: (s.nb a.pid l).map (·.pt)) (by
    intro v hv
    rcases List.mem_cons.1 hv with rfl | hv
    · exact ha
    · obtain ⟨e, he, rfl⟩ := List.mem_map.1 hv
      exact h.stored _ _ e he) (by
    rw [List.map_cons, List.nodup_cons, List.map_map]
    refine ⟨?_, h.nodup _ _⟩
    intro hm
    obtain ⟨e, he, he'⟩ := List.mem_map.1 hm
    exact h.noSelf _ _ e he he')
  simpa using this

/-- linking of a point of level 0 run alone on a complete graph of points of level 0 -/
theorem complete_link (L : P.Lawful) {s0 : Idx T} (h0 : IdxOK cfg s0) {c2 c : CSt T} {p : Ref T}
    (hnb : c2.idx.nb = s0.nb) (hent : c2.idx.entry = s0.entry)
    (hent0 : s0.points ≠ [] → s0.entry ≠ none) (hp0 : p.pid.layer = 0)
    (hlev : ∀ v, Stored s0 v → v.pid.layer = 0)
    (hfr : ∀ v, Stored s0 v → v.pid ≠ p.pid)
    (hlay : ∃ a as, c2.idx.layers[0]? = some (a :: as)) (hC : Complete s0)
    (hext : cfg.extend = false) (hsize : s0.points.length ≤ 2 * cfg.maxNb)
    (hefC : s0.points.length ≤ cfg.efC) (hL : LegalOn cfg.eval s0 p.data) {fuel : Nat}
    (hfuel : s0.points.length + 2 ≤ fuel)
    (hrun : (linkP P cfg fuel p (s0.points.length + 1)).run c2 = .ok () c) :
    c.idx.layers = c2.idx.layers ∧
    ∀ a, Stored s0 a → (∀ o ∈ s0.nb a.pid 0, o ∈ c.idx.nb a.pid 0) ∧
      (∃ e ∈ c.idx.nb a.pid 0, e.pt = p) ∧ ∃ e ∈ c.idx.nb p.pid 0, e.pt = a := by
  simp only [linkP, Prog.read, Prog.run, if_true, id] at hrun
  rw [hent] at hrun
  cases hep : s0.entry with
  | none =>
    rw [hep] at hrun
    simp only [checkEntryP, Prog.run, if_true] at hrun
    cases hrun
    refine ⟨rfl, ?_⟩
    intro a ha
    have hne : s0.points ≠ [] := by intro h; unfold Stored at ha; rw [h] at ha; cases ha
    exact absurd hep (hent0 hne)
  | some ep =>
    rw [hep] at hrun
    have hepS := h0.entry ep hep
    have hne : s0.points ≠ [] := by intro h; unfold Stored at hepS; rw [h] at hepS; cases hepS
    have hpos : 0 < s0.points.length := List.length_pos_iff.2 hne
    dsimp only at hrun
    rw [if_neg (by omega), hlev ep hepS, hp0] at hrun
    have hl1 : layersDown 0 (0 + 1) = [] := rfl
    have hl0 : layersDown 0 0 = [0] := rfl
    simp only [hl1, hl0, upperP, Prog.bind, lowerP] at hrun
    rw [run_bind, run_bind] at hrun
    obtain ⟨r, hr, hmem, hdist, hnd⟩ := searchLayerP_run_full (q := p.data) (l := 0) (c := c2) L h0
      (fun a => by rw [hnb]) hepS hL hefC hfuel hlay
      (fun v hv => hC.reaches hepS hv)
    rw [hr] at hrun
    dsimp only at hrun
    split at hrun
    rotate_left
    · cases hrun
    · cases hrun
    rename_i u c3 hlow
    obtain ⟨nh, hnh, hlow⟩ := run_ofExcept_ok hlow
    obtain ⟨nh', hnh', hperm, -⟩ := fromPositive_ok L (P.items r) P.empty
      (fun x hx => (hdist x hx).2) L.built_empty
    rw [hnh] at hnh'
    cases hnh'
    rw [L.items_empty, List.append_nil] at hperm
    obtain ⟨xe, hxe, hxep⟩ := (hmem ep).1 hepS
    have hnhne : P.items nh ≠ [] := by
      intro h
      rw [h] at hperm
      have := hperm.nil_eq.symm
      rw [List.map_eq_nil_iff] at this
      rw [this] at hxe; cases hxe
    have hlenr : (P.items r).length ≤ s0.points.length := by
      have := h0.tab.count (l := (P.items r).map (·.pt))
        (fun v hv => by
          obtain ⟨x, hx, rfl⟩ := List.mem_map.1 hv
          exact (hmem _).2 ⟨x, hx, rfl⟩) (by rw [List.map_map]; exact hnd)
      simpa using this
    have hlen : P.len nh ≤ 2 * cfg.maxNb := by
      unfold Policy.len
      rw [hperm.length_eq, List.length_map]
      omega
    rw [if_neg hnhne] at hlow
    simp only [if_true, hext] at hlow
    rw [run_bind] at hlow
    unfold selectP at hlow
    rw [if_pos ⟨hlen, rfl⟩] at hlow
    obtain ⟨v, hv, hvp⟩ := transferAll_ok L (P.len nh) nh [] (Nat.le_refl _) (by
      intro x hx
      obtain ⟨y, hy, rfl⟩ := List.mem_map.1 (hperm.mem_iff.1 hx)
      simpa [PWO.flip] using (hdist y hy).2)
    rw [hv] at hlow
    simp only [Prog.ofExcept, Prog.run] at hlow
    rw [List.nil_append] at hvp
    have hvp' : v.Perm (P.items r) := by
      refine hvp.trans ((hperm.map _).trans ?_)
      rw [List.map_map]
      rw [show (PWO.flip ∘ PWO.flip : PWO T → PWO T) = id from funext fun x => by
        simp [PWO.flip]]
      simp
    have hsort : P.sortC v = .ok (P.sort v) := L.sortC_legal fun y hy =>
      ((hdist y (hvp'.mem_iff.1 hy)).2).1
    rw [hsort] at hlow
    simp only [Prog.run] at hlow
    have hsp : (P.sort v).Perm (P.items r) := (L.sort_perm v).trans hvp'
    generalize hw : P.sort v = w at hlow hsp
    have hc3 : c3 = { c2 with idx := c2.idx.setNb p.pid 0 w } := by
      split at hlow
      · split at hlow
        · simp only [Prog.run] at hlow
          injection hlow with _ h; exact h.symm
        · simp only [Prog.run] at hlow
          injection hlow with _ h; exact h.symm
      · cases hlow
    simp only [reverseP, Prog.run, if_true] at hrun
    have hnbp3 : c3.idx.nb p.pid 0 = w := by rw [hc3]; simp [Idx.setNb]
    have hnb3 : ∀ a, a ≠ p.pid → c3.idx.nb a 0 = s0.nb a 0 := by
      intro a ha
      rw [hc3]
      simp [Idx.setNb, ha, hnb]
    rw [hnbp3] at hrun
    have hwS : ∀ q ∈ w, Stored s0 q.pt := fun q hq => (hmem _).2 ⟨q, hsp.mem_iff.1 hq, rfl⟩
    obtain ⟨c1, hk, hlay1, -, hoth, hin⟩ := revInner_run (cfg := cfg) L (p := p) _ w _ c
      (by
        refine (hsp.map _).nodup_iff.2 hnd)
      (fun q hq => hfr _ (hwS q hq))
      (by
        intro q hq
        rw [hp0]
        simp only [Nat.lt_irrefl, if_false]
        rw [hnb3 _ (hfr _ (hwS q hq))]
        have := nb_length_lt h0 (hwS q hq) 0
        omega)
      (by
        intro q hq o ho
        rw [hp0] at ho
        simp only at ho
        rw [hnb3 _ (hfr _ (hwS q hq))] at ho
        exact hfr _ (h0.stored _ _ o ho)) hrun
    simp only [checkEntryP, Prog.run, if_true] at hk
    injection hk with _ hk
    subst hk
    rw [hp0] at hoth hin
    dsimp only [checkEntry] at hlay1 hoth hin ⊢
    refine ⟨by rw [hlay1, hc3]; rfl, ?_⟩
    intro a ha
    obtain ⟨x, hx, rfl⟩ := (hmem a).1 ha
    have hxw : x ∈ w := hsp.mem_iff.2 hx
    have := hin x hxw
    rw [hnb3 _ (hfr _ ha)] at this
    refine ⟨this.1, this.2, ?_⟩
    rw [hoth _ _ (Or.inl fun q hq => (hfr _ (hwS q hq)).symm), hnbp3]
    exact ⟨x, hxw, rfl⟩

/-- one insertion at level 0 in a complete graph of points of level 0 -/
theorem complete_insert (L : P.Lawful) {c0 c : CSt T} (h : GoodC cfg c0)
    (hlev : ∀ v, Stored c0.idx v → v.pid.layer = 0) (hC : Complete c0.idx)
    (hm : 0 < cfg.maxLayer) (hext : cfg.extend = false)
    (hsize : c0.idx.points.length ≤ 2 * cfg.maxNb) (hefC : c0.idx.points.length ≤ cfg.efC)
    {item : List T × DataId} (hL : LegalOn cfg.eval c0.idx item.1)
    (hins : insert P cfg c0 item 0 = .ok () c) :
    Complete c.idx ∧ (∀ v, Stored c.idx v ↔ Stored c0.idx v ∨ v = newRef item 0 c0.idx) := by
  have hlen : 0 < c0.idx.layers.length := by rw [h.inv.ok.tab.len]; exact hm
  have hst := stored_addPoint item 0 c0.idx hlen
  have hfr : ∀ v, Stored c0.idx v → v.pid ≠ (newRef item 0 c0.idx).pid :=
    fun v hv => newRef_fresh h.inv.ok.tab item 0 hv
  unfold insert at hins
  simp only [insertP, Prog.run, if_true, if_pos hlen, countP] at hins
  rw [show (addPoint item 0 c0.idx).nbPoint = c0.idx.points.length from h.count] at hins
  have hlay : ∃ a as, (addPoint item 0 c0.idx).layers[0]? = some (a :: as) := by
    have := layer_addPoint item 0 c0.idx hlen 0
    rw [if_pos rfl] at this
    unfold Idx.layer at this
    cases hq : (addPoint item 0 c0.idx).layers[0]? with
    | none => rw [hq] at this; simp at this
    | some z =>
      rw [hq] at this
      cases z with
      | nil => simp at this
      | cons a as => exact ⟨a, as, rfl⟩
  obtain ⟨h1, h2⟩ := complete_link L h.inv.ok (p := newRef item 0 c0.idx) (by rfl) (by rfl) h.entry
    rfl hlev hfr hlay hC hext hsize hefC hL (by omega) hins
  have hst' : ∀ v, Stored c.idx v ↔ Stored c0.idx v ∨ v = newRef item 0 c0.idx := by
    intro v
    rw [← hst v]
    unfold Stored Idx.points
    rw [h1]
  refine ⟨?_, hst'⟩
  intro a b ha hb hab
  rcases (hst' a).1 ha with ha | rfl
  · rcases (hst' b).1 hb with hb | rfl
    · obtain ⟨e, he, he'⟩ := hC a b ha hb hab
      exact ⟨e, (h2 a ha).1 e he, he'⟩
    · exact (h2 a ha).2.1
  · rcases (hst' b).1 hb with hb | rfl
    · exact (h2 b hb).2.2
    · exact absurd rfl hab

end Verif
