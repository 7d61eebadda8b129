import Verif.CostLemmas
import Verif.Examples
import Verif.Access

set_option autoImplicit false

/-!
# The work of a search (C89)
-/

namespace Verif
variable {T : Type} {P : Policy T} {cfg : Cfg T} {s : Idx T}

/-- **C89** (what is counted) The search that notes its uses of the distance, of the lists and of the filter
has the result of the search, panics included. -/
theorem C89_same (q : List T) (knbn ef : Nat) (filt : Option (DataId → Bool)) :
    (searchFilterW P cfg s q knbn ef filt).res = searchFilter P cfg s q knbn ef filt :=
  searchFilterW_res cfg s knbn ef

/-- **C89** A search, even one that panics, whatever the distance and the filter do, has two parts. In the
descent it reads one list in each layer from that of the entry point down to layer 1, and computes at most
one distance more than `max_nb_connection` for each of them. In the lowest layer it computes no distance
twice, and only those of points that can be reached from the point at which it starts; it reads at most one list, and calls the
filter at most twice, for each of them. -/
theorem C89_parts (L : P.Lawful) (h : Reach P cfg s) {ep : Ref T} (he : s.entry = some ep) (q : List T)
    (knbn ef : Nat) (filt : Option (DataId → Bool)) :
    ∃ up low start l, (searchFilterW P cfg s q knbn ef filt).log = up ++ low ∧
      (reads up).map (·.2) = ((List.range ep.pid.layer).map (· + 1)).reverse ∧
      (dists up).length ≤ 1 + ep.pid.layer * cfg.maxNb ∧ (∀ p ∈ dists up, p ∈ s.points) ∧ accepts up = [] ∧
      IsLowest s l ∧ (dists low).head? = some start ∧ ((dists low).map (·.pid)).Nodup ∧
      (∀ p ∈ dists low, p ∈ s.points ∧ Reaches (links s l) start p) ∧
      (reads low).length ≤ (dists low).length ∧
      (accepts low).length ≤ 2 * ((dists low).length - 1) ∧ (filt = none → accepts low = []) := by
  have hG := h.good L
  have hst := hG.ok.entry ep he
  have hne : s.points ≠ [] := by intro h0; unfold Stored at hst; rw [h0] at hst; cases hst
  obtain ⟨l, hl, hl'⟩ := lowestLayer_some hne
  obtain ⟨h1, h2, h3, h4⟩ := descendW_log (eval := cfg.eval) (q := q) (s := s) (m := cfg.maxNb)
    (fun p l hl => by
      have := hG.ok.bound p l
      unfold degreeBound at this
      rw [if_neg (by omega)] at this
      exact this) hG.ok.stored ep.pid.layer (ep, cfg.eval q ep.data)
  obtain ⟨a1, a2, a3, a4, a5⟩ := bottomW_log (q := q) (filt := filt) (cfg := cfg) L hG.nav knbn ef
    (descend_stored (cfg := cfg) (q := q) hG.nav ep.pid.layer ep hst) hl
  refine ⟨Use.dist ep :: (descendW cfg.eval q s ep.pid.layer (ep, cfg.eval q ep.data)).log,
    (bottomW P cfg s q knbn ef filt (descend cfg.eval q s ep.pid.layer (ep, cfg.eval q ep.data)).1).log,
    _, l, ?_, ?_, ?_, ?_, ?_, hl', a1, a2, a3, a4, ?_, ?_⟩
  · unfold searchFilterW
    rw [he]
    simp only [Work.bind_log, evalW, descendW_res, List.cons_append, List.nil_append]
  · show (reads (descendW cfg.eval q s ep.pid.layer (ep, cfg.eval q ep.data)).log).map (·.2) = _
    rw [h2, List.map_reverse]
  · simp only [dists, List.length_cons]; omega
  · intro p hp
    rcases List.mem_cons.1 hp with rfl | hp
    · exact hst
    · exact h4 p hp
  · exact h3
  · cases filt with
    | none => simp only [Option.isSome_none, Bool.false_eq_true, if_false, Nat.zero_mul] at a5; omega
    | some φ => simpa using a5
  · rintro rfl
    simp only [Option.isSome_none, Bool.false_eq_true, if_false, Nat.zero_mul] at a5
    exact List.eq_nil_of_length_eq_zero (by omega)

/-- **C89** Bounds for a whole search in an index of `n` points whose entry point has level `e`: at most
`n + 1 + e * max_nb_connection` distances, `n + e` lists and `2 * (n - 1)` calls of the filter; nothing at all
in an empty index. -/
theorem C89_cost (L : P.Lawful) (h : Reach P cfg s) (q : List T) (knbn ef : Nat)
    (filt : Option (DataId → Bool)) :
    (s.points = [] → (searchFilterW P cfg s q knbn ef filt).log = []) ∧
    ∀ ep, s.entry = some ep →
      (dists (searchFilterW P cfg s q knbn ef filt).log).length ≤
        getNbPoint s + 1 + ep.pid.layer * cfg.maxNb ∧
      (reads (searchFilterW P cfg s q knbn ef filt).log).length ≤ getNbPoint s + ep.pid.layer ∧
      (accepts (searchFilterW P cfg s q knbn ef filt).log).length ≤ 2 * (getNbPoint s - 1) := by
  have hG := h.good L
  refine ⟨fun h0 => ?_, fun ep he => ?_⟩
  · cases he : s.entry with
    | none => unfold searchFilterW; rw [he]; rfl
    | some ep =>
      have hst := hG.ok.entry ep he
      unfold Stored at hst
      rw [h0] at hst
      cases hst
  · obtain ⟨up, low, start, l, hlog, h1, h2, -, h4, -, -, h7, h8, h9, h10, -⟩ :=
      C89_parts L h he q knbn ef filt
    have hn : (dists low).length ≤ s.points.length :=
      hG.nav.tab.count (fun x hx => (h8 x hx).1) h7
    have hc : getNbPoint s = s.points.length := hG.count
    rw [hlog, dists_append, reads_append, accepts_append, h4, hc]
    simp only [List.length_append, List.nil_append]
    have := congrArg List.length h1
    simp only [List.length_map, List.length_reverse, List.length_range] at this
    exact ⟨by omega, by omega, by omega⟩

/-- **C89** (everything used is counted) A search depends on the distance, the query, the links and the
filter only by what it has noted: whatever another distance, another query, other links between the same
points and another filter say elsewhere, the search with them has the same answer or the same panic and
notes the same uses. -/
theorem C89_noted {cfg' : Cfg T} {s' : Idx T} (hl : s'.layers = s.layers) (he : s'.entry = s.entry)
    (q q' : List T) (knbn ef : Nat) (filt filt' : Option (DataId → Bool)) (hf : filt'.isSome = filt.isSome)
    (hd : ∀ p ∈ dists (searchFilterW P cfg s q knbn ef filt).log, cfg'.eval q' p.data = cfg.eval q p.data)
    (hr : ∀ x ∈ reads (searchFilterW P cfg s q knbn ef filt).log, s'.nb x.1 x.2 = s.nb x.1 x.2)
    (ha : ∀ id ∈ accepts (searchFilterW P cfg s q knbn ef filt).log,
      ∀ φ φ', filt = some φ → filt' = some φ' → φ' id = φ id) :
    searchFilter P cfg' s' q' knbn ef filt' = searchFilter P cfg s q knbn ef filt ∧
    (searchFilterW P cfg' s' q' knbn ef filt').log = (searchFilterW P cfg s q knbn ef filt).log := by
  have h := searchFilterW_same (P := P) (cfg := cfg) (cfg' := cfg') (q := q) (q' := q') hf hl he knbn ef (by
    intro u hu
    cases u with
    | dist p => exact hd p (mem_dists hu)
    | read p l => exact hr (p, l) (mem_reads hu)
    | accept id => exact ha id (mem_accepts hu))
  rw [← C89_same, ← C89_same, h]
  exact ⟨rfl, rfl⟩

/-- the number of distances, lists and calls of the filter of a search -/
def uses (s : Idx Nat) (cfg : Cfg Nat) (q : Nat) (knbn ef : Nat) (filt : Option (DataId → Bool)) :
    Nat × Nat × Nat :=
  let w := (searchFilterW (listPolicy Nat) cfg s [q] knbn ef filt).log
  ((dists w).length, (reads w).length, (accepts w).length)

/-- In `ex4`, which has four points and whose entry point has level 1 and one link in layer 1, all the points
are reached with a large `ef`: the bound on the lists is met, and that on the distances would be if the entry
point had all its links. -/
example : ex4.entry.map (·.pid) = some ⟨1, 0⟩ ∧ getNbPoint ex4 = 4 ∧
    uses ex4 (exCfg 3) 12 4 4 none = (6, 5, 0) ∧ uses ex4 (exCfg 3) 12 1 1 none = (5, 2, 0) ∧
    uses ex4 (exCfg 3) 12 4 4 (some fun id => id != 20) = (6, 5, 4) := by
  decide +kernel

/-- an index with every list emptied that a search does not read -/
def cutTo (cfg : Cfg Nat) (s : Idx Nat) (q : List Nat) (knbn ef : Nat) : Idx Nat :=
  { s with nb := fun p l =>
      if (p, l) ∈ reads (searchFilterW (listPolicy Nat) cfg s q knbn ef none).log then s.nb p l else [] }

theorem cutTo_search (cfg : Cfg Nat) (s : Idx Nat) (q : List Nat) (knbn ef : Nat) :
    searchFilter (listPolicy Nat) cfg (cutTo cfg s q knbn ef) q knbn ef none =
      searchFilter (listPolicy Nat) cfg s q knbn ef none :=
  (C89_noted (s := s) (s' := cutTo cfg s q knbn ef) (cfg := cfg) (cfg' := cfg) rfl rfl q q knbn ef none none rfl
    (fun _ _ => rfl) (fun x hx => if_pos hx) (fun _ _ _ _ h => nomatch h)).1

/-- The narrow search of `ex4` reads two lists, and does not notice that the others are emptied. -/
example : (reads (searchFilterW (listPolicy Nat) (exCfg 3) ex4 [12] 1 1 none).log).map (·.2) = [1, 0] ∧
    (ex4.points.map fun p => ((cutTo (exCfg 3) ex4 [12] 1 1).nb p.pid 0).length) ≠
      (ex4.points.map fun p => (ex4.nb p.pid 0).length) := by
  decide +kernel

end Verif
