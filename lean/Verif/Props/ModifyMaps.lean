import Verif.Proofs.ModifyMaps

/-! # C15-C18: `modify_maps` -/

set_option linter.unusedSectionVars false

namespace Zoidberg.Weights

variable {K : Type} [Field K] [LinearOrder K] [IsStrictOrderedRing K] [FloorRing K]
  (jc : ℕ → ℤ) (jw : ℕ → K) (maps : MapDict K) (i : Input K) (cx cz : Bool → Cell → K)

/-- Common ground: what a successful call did. -/
theorem modifyMaps_inv (h : Full maps i cx cz) (p : Bool) (m : MapDict K)
    (hm : modifyMaps jc jw maps p = .ok m) :
    ∃ o, calculateOps jc jw (midMaps maps i cx cz p) = .ok o ∧ Exports m o ∧
      ∀ k, k ∉ exportedNames → m k = if k ∈ subsampleNames then none else midMaps maps i cx cz p k := by
  rw [modifyMaps_eq jc jw maps i cx cz h p] at hm
  cases hc : calculateOps jc jw (midMaps maps i cx cz p) with
  | error e => rw [hc] at hm; simp [Except.bind] at hm
  | ok o =>
    rw [hc] at hm
    simp only [Except.bind] at hm
    injection hm with hm
    subst hm
    refine ⟨o, rfl, final_exports _ o, ?_⟩
    intro k hk
    rw [final_get, if_neg hk]

/-- The call succeeds on every well-formed dictionary. -/
theorem modifyMaps_succeeds (h : Full maps i cx cz) (p : Bool) (hg : 2 * i.mxg ≤ i.nx)
    (hw : i.GoodWeights) : ∃ m, modifyMaps jc jw maps p = .ok m := by
  have hw' : (i.mid cx cz p).GoodWeights := by
    cases p <;> exact ⟨hw.len, hw.sum, hw.pos⟩
  have hg' : 2 * (i.mid cx cz p).mxg ≤ (i.mid cx cz p).nx := by cases p <;> exact hg
  obtain ⟨o, ho⟩ := C10_assembly_succeeds jc jw _ _ (mid_represents maps i cx cz h p) hg' hw'
  rw [modifyMaps_eq jc jw maps i cx cz h p, ho]
  exact ⟨_, rfl⟩

/-- The centre maps of the example. -/
def exCx : Bool → Cell → ℚ := fun fwd c => if fwd then (c.1 : ℚ) + 7 / 8 else (c.1 : ℚ) - 7 / 8

/-- See `exCx`. -/
def exCz : Bool → Cell → ℚ := fun _ c => (c.2.2 : ℚ)

theorem exMaps_full : Full exMaps exIn exCx exCz where
  shape := ⟨_, rfl⟩
  mxg := rfl
  fx := rfl
  fz := rfl
  bx := rfl
  bz := rfl
  cfx := rfl
  cfz := rfl
  cbx := rfl
  cbz := rfl
  w := rfl

example : ∀ p, ∃ m, modifyMaps (fun _ => 7) (fun _ => 7) exMaps p = .ok m := fun p =>
  modifyMaps_succeeds _ _ exMaps exIn exCx exCz exMaps_full p exIn_guards exIn_goodWeights

/-- C15: with partial boundaries the centre map is set to -1 exactly in those
cells, guard cells included, that have an escaping sub-sample; and the operators
are those of the unmodified dictionary. -/
theorem C15_partial_marks (h : Full maps i cx cz) (m : MapDict K)
    (hm : modifyMaps jc jw maps true = .ok m) :
    (∀ fwd, ∃ xt, m (xtPrimeKey fwd) = some (.arr3 i.nx i.ny i.nz xt) ∧
      ∀ c, i.InGrid c → (i.SomeEscape fwd c → xt c = -1) ∧ (¬ i.SomeEscape fwd c → xt c = cx fwd c)) ∧
    ∃ o, calculateOps jc jw maps = .ok o ∧ Exports m o := by
  obtain ⟨o, ho, hex, hk⟩ := modifyMaps_inv jc jw maps i cx cz h true m hm
  constructor
  · intro fwd
    have hval : ∀ c, i.InGrid c →
        ((loop3 0 i.nx i.ny i.nz).foldl (markStep i.nx i.mxg ⟨i.n, i.xs fwd⟩) (cx fwd) c) =
        if anyHit i.nx i.mxg ⟨i.n, i.xs fwd⟩ c = true then -1 else cx fwd c := by
      intro c hc
      rw [foldl_markStep]
      have : c ∈ loop3 0 i.nx i.ny i.nz := by
        rw [mem_loop3]; exact ⟨⟨Nat.zero_le _, hc.1⟩, hc.2.1, hc.2.2⟩
      simp [this]
    refine ⟨(loop3 0 i.nx i.ny i.nz).foldl (markStep i.nx i.mxg ⟨i.n, i.xs fwd⟩) (cx fwd), ?_, ?_⟩
    · cases fwd
      · have := hk "backward_xt_prime" (by decide)
        rw [if_neg (by decide)] at this
        exact this
      · have := hk "forward_xt_prime" (by decide)
        rw [if_neg (by decide)] at this
        exact this
    · intro c hc
      rw [hval c hc]
      exact ⟨fun he => if_pos ((anyHit_iff i fwd c).2 he),
        fun he => if_neg (fun hh => he ((anyHit_iff i fwd c).1 hh))⟩
  · refine ⟨o, ?_, hex⟩
    obtain ⟨⟨hlen, hsum⟩, _⟩ := calculateOps_inv jc jw _ _ (mid_represents maps i cx cz h true) o ho
    have hfit : i.Fits := fits_of_ok jc jw _ _ (mid_represents maps i cx cz h true) o ho
    have hmaps : ∀ w : getSubcellWeights (midMaps maps i cx cz true) i.n = .ok i.w ∧
        getSubcellWeights maps i.n = .ok i.w, calculateOps jc jw maps = .ok o := by
      rintro ⟨w1, w2⟩
      rw [calculateOps_eq jc jw _ _ (mid_represents maps i cx cz h true) hfit w1] at ho
      rw [calculateOps_eq jc jw maps i h.represents hfit w2]
      exact ho
    apply hmaps
    have gw : ∀ d : MapDict K, d "subcell_weights" = some (.vec i.w) →
        getSubcellWeights d i.n = .ok i.w := by
      intro d hd
      have hlen' : i.w.length = i.n := hlen
      have hsum' : |i.w.sum - 1| < 1 / 10 ^ 8 := hsum
      simp only [getSubcellWeights, rawSubcellWeights, hd, bind, Except.bind]
      rw [if_neg (not_not.2 hlen'), if_neg (not_le.2 hsum')]
    exact ⟨gw _ h.w, gw _ h.w⟩

/-- Which cells count as boundary cells after the filter. -/
def Input.FilterEscapes (i : Input K) (cx : Bool → Cell → K) (fwd : Bool) (c : Cell) : Prop :=
  i.SomeEscape fwd c ∧ (¬ i.SomeStay fwd c ∨ i.Escapes (cx fwd c))

theorem not_hits_iff (x : K) : hits x i.nx i.mxg = false ↔ ¬ i.Escapes x := by
  rw [← Bool.not_eq_true, hits_iff]

theorem filtered_escape (fwd : Bool) (c : Cell) (hc : i.InGrid c) (hn : 0 < i.n) :
    ((i.filtered cx cz).SomeEscape fwd c ↔ i.FilterEscapes cx fwd c) ∧
    ((i.filtered cx cz).SomeStay fwd c ↔ ¬ i.FilterEscapes cx fwd c) := by
  obtain ⟨hx, _⟩ := filtered_xs i cx cz fwd c hc
  obtain ⟨_, h1, h2⟩ := filterCell_all_or_none i.nx i.mxg i.n (cx fwd c) (cz fwd c) (i.xs fwd c)
    (i.zs fwd c)
  have hE : (i.filtered cx cz).SomeEscape fwd c ↔
      ∃ s < i.n, hits ((filterCell i.nx i.mxg i.n (cx fwd c) (cz fwd c) (i.xs fwd c)
        (i.zs fwd c)).1 s) i.nx i.mxg = true := by
    rw [← hx]
    exact exists_congr fun s => and_congr_right fun _ => (hits_iff (i.filtered cx cz) _).symm
  have hS : (i.filtered cx cz).SomeStay fwd c ↔
      ∃ s < i.n, hits ((filterCell i.nx i.mxg i.n (cx fwd c) (cz fwd c) (i.xs fwd c)
        (i.zs fwd c)).1 s) i.nx i.mxg = false := by
    rw [← hx]
    exact exists_congr fun s => and_congr_right fun _ => (not_hits_iff (i.filtered cx cz) _).symm
  have eE : i.SomeEscape fwd c ↔ ∃ s < i.n, hits (i.xs fwd c s) i.nx i.mxg = true :=
    exists_congr fun s => and_congr_right fun _ => (hits_iff i _).symm
  have eS : i.SomeStay fwd c ↔ ∃ s < i.n, hits (i.xs fwd c s) i.nx i.mxg = false :=
    exists_congr fun s => and_congr_right fun _ => (not_hits_iff i _).symm
  rw [hE, hS]
  unfold Input.FilterEscapes
  by_cases hall : ∀ s < i.n, hits (i.xs fwd c s) i.nx i.mxg = true
  · rw [h1 (Or.inl hall)]
    have a1 : i.SomeEscape fwd c := eE.2 ⟨0, hn, hall 0 hn⟩
    have a2 : ¬ i.SomeStay fwd c := by
      rw [eS]; rintro ⟨s, q1, q2⟩; rw [hall s q1] at q2; exact absurd q2 (by simp)
    simp only [a1, a2, not_false_eq_true, true_or, and_self, iff_true, not_true_eq_false, iff_false]
    exact ⟨⟨0, hn, hall 0 hn⟩, by rwa [eS] at a2⟩
  · by_cases hnone : ∀ s < i.n, hits (i.xs fwd c s) i.nx i.mxg = false
    · rw [h1 (Or.inr hnone)]
      have a1 : ¬ i.SomeEscape fwd c := by
        rw [eE]; rintro ⟨s, q1, q2⟩; rw [hnone s q1] at q2; exact absurd q2 (by simp)
      simp only [a1, false_and, iff_false, not_false_eq_true, iff_true]
      exact ⟨by rwa [eE] at a1, ⟨0, hn, hnone 0 hn⟩⟩
    · have hmix := h2 (not_or.2 ⟨hall, hnone⟩)
      have a1 : i.SomeEscape fwd c := by
        rw [eE]; push Not at hnone
        obtain ⟨s, q1, q2⟩ := hnone
        exact ⟨s, q1, by simpa using q2⟩
      have a2 : i.SomeStay fwd c := by
        rw [eS]; push Not at hall
        obtain ⟨s, q1, q2⟩ := hall
        exact ⟨s, q1, by simpa using q2⟩
      simp only [a1, a2, not_true_eq_false, false_or, true_and]
      by_cases hcx : i.Escapes (cx fwd c)
      · have hc' := (hits_iff i _).2 hcx
        rw [hmix.1 hc']
        simp only [hcx, hc', iff_true, not_true_eq_false, iff_false]
        exact ⟨⟨0, hn, trivial⟩, by rintro ⟨s, _, q⟩; simp at q⟩
      · have hc' := (not_hits_iff i _).2 hcx
        rw [hmix.2 hc']
        have hno : ∀ s, hits (if hits (i.xs fwd c s) i.nx i.mxg = true then cx fwd c else i.xs fwd c s)
            i.nx i.mxg = false := by
          intro s
          split
          · exact hc'
          · rename_i q; simpa using q
        simp only [hcx, hno, iff_false, not_false_eq_true, iff_true]
        exact ⟨by rintro ⟨s, _, q⟩; simp at q, ⟨0, hn, trivial⟩⟩

/-- `j` is `i` with the sub-samples of the mixed cells replaced: all of them by
the centre if the centre escapes, otherwise just the escaping ones. -/
structure Input.FilteredBy (i : Input K) (cx cz : Bool → Cell → K) (j : Input K) : Prop where
  dims : (j.nx, j.ny, j.nz, j.mxg, j.n, j.w) = (i.nx, i.ny, i.nz, i.mxg, i.n, i.w)
  keep : ∀ fwd c, i.InGrid c → ¬ (i.SomeEscape fwd c ∧ i.SomeStay fwd c) →
    j.xs fwd c = i.xs fwd c ∧ j.zs fwd c = i.zs fwd c
  out : ∀ fwd c, i.InGrid c → i.SomeEscape fwd c → i.SomeStay fwd c → i.Escapes (cx fwd c) →
    ∀ s, j.xs fwd c s = cx fwd c ∧ j.zs fwd c s = cz fwd c
  inn : ∀ fwd c, i.InGrid c → i.SomeEscape fwd c → i.SomeStay fwd c → ¬ i.Escapes (cx fwd c) →
    ∀ s, (i.Escapes (i.xs fwd c s) → j.xs fwd c s = cx fwd c ∧ j.zs fwd c s = cz fwd c) ∧
      (¬ i.Escapes (i.xs fwd c s) → j.xs fwd c s = i.xs fwd c s ∧ j.zs fwd c s = i.zs fwd c s)

theorem mixed_iff (fwd : Bool) (c : Cell) :
    (i.SomeEscape fwd c ∧ i.SomeStay fwd c) ↔ ¬ ((∀ s < i.n, hits (i.xs fwd c s) i.nx i.mxg = true) ∨
      (∀ s < i.n, hits (i.xs fwd c s) i.nx i.mxg = false)) := by
  simp only [not_or, not_forall, exists_prop, Bool.not_eq_true, Bool.not_eq_false]
  unfold Input.SomeEscape Input.SomeStay
  simp only [not_hits_iff, hits_iff]
  exact And.comm

theorem filtered_by : i.FilteredBy cx cz (i.mid cx cz false) where
  dims := rfl
  keep := by
    intro fwd c hc hm
    obtain ⟨e1, e2⟩ := filtered_xs i cx cz fwd c hc
    obtain ⟨_, h1, _⟩ := filterCell_all_or_none i.nx i.mxg i.n (cx fwd c) (cz fwd c) (i.xs fwd c)
      (i.zs fwd c)
    have := h1 (not_not.1 fun q => hm ((mixed_iff i fwd c).2 q))
    exact ⟨e1.trans (by rw [this]), e2.trans (by rw [this])⟩
  out := by
    intro fwd c hc hE hS hx s
    obtain ⟨e1, e2⟩ := filtered_xs i cx cz fwd c hc
    obtain ⟨_, _, h2⟩ := filterCell_all_or_none i.nx i.mxg i.n (cx fwd c) (cz fwd c) (i.xs fwd c)
      (i.zs fwd c)
    have := (h2 ((mixed_iff i fwd c).1 ⟨hE, hS⟩)).1 ((hits_iff i _).2 hx)
    rw [this] at e1 e2
    exact ⟨congrFun e1 s, congrFun e2 s⟩
  inn := by
    intro fwd c hc hE hS hx s
    obtain ⟨e1, e2⟩ := filtered_xs i cx cz fwd c hc
    obtain ⟨_, _, h2⟩ := filterCell_all_or_none i.nx i.mxg i.n (cx fwd c) (cz fwd c) (i.xs fwd c)
      (i.zs fwd c)
    have := (h2 ((mixed_iff i fwd c).1 ⟨hE, hS⟩)).2 ((not_hits_iff i _).2 hx)
    rw [this] at e1 e2
    have f1 := congrFun e1 s
    have f2 := congrFun e2 s
    simp only at f1 f2
    constructor
    · intro q
      rw [if_pos ((hits_iff i _).2 q)] at f1 f2
      exact ⟨f1, f2⟩
    · intro q
      rw [if_neg (fun r => q ((hits_iff i _).1 r))] at f1 f2
      exact ⟨f1, f2⟩
/-- C16: with the filter every interior cell owns exactly one leg row, of weight
one, in each direction; it is a boundary leg exactly if all its sub-samples
escaped, or some did and so did its centre.  The centre maps are untouched. -/
theorem C16_filter_single_leg (h : Full maps i cx cz) (hn : 0 < i.n) (m : MapDict K)
    (hm : modifyMaps jc jw maps false = .ok m) :
    ∃ o, Exports m o ∧ (∀ fwd, m (xtPrimeKey fwd) = maps (xtPrimeKey fwd)) ∧
      (∃ maps' j, Represents maps' j ∧ calculateOps jc jw maps' = .ok o ∧ i.FilteredBy cx cz j) ∧
      ∀ fwd c, i.Interior c →
        (0 ≤ (o.legs fwd).legBoundary c ↔ i.FilterEscapes cx fwd c) ∧
        (0 ≤ (o.legs fwd).legInterior c ↔ ¬ i.FilterEscapes cx fwd c) ∧
        (∀ b, 0 ≤ (o.legs fwd).number (b, c) →
          (o.legs fwd).legWeights.getD ((o.legs fwd).number (b, c)).toNat 0 = 1) := by
  obtain ⟨o, ho, hex, hk⟩ := modifyMaps_inv jc jw maps i cx cz h false m hm
  refine ⟨o, hex, ?_, ⟨_, _, mid_represents maps i cx cz h false, ho, filtered_by i cx cz⟩, ?_⟩
  · intro fwd
    cases fwd
    · have := hk "backward_xt_prime" (by decide)
      rw [if_neg (by decide)] at this
      exact this
    · have := hk "forward_xt_prime" (by decide)
      rw [if_neg (by decide)] at this
      exact this
  · intro fwd c hc
    have hrep := mid_represents maps i cx cz h false
    have hgrid : i.InGrid c := by
      obtain ⟨a, b, d, e⟩ := hc
      exact ⟨by omega, d, e⟩
    obtain ⟨f1, f2⟩ := filtered_escape i cx cz fwd c hgrid hn
    have hc' : (i.mid cx cz false).Interior c := hc
    obtain ⟨_, k1, k2, _⟩ := C04_leg_numbers_bijective jc jw _ _ hrep o ho fwd
    have g1 : 0 ≤ (o.legs fwd).number (true, c) ↔ i.FilterEscapes cx fwd c := by
      rw [k1 c, ← f1]
      exact ⟨fun q => q.2, fun q => ⟨hc', q⟩⟩
    have g2 : 0 ≤ (o.legs fwd).number (false, c) ↔ ¬ i.FilterEscapes cx fwd c := by
      rw [k2 c, ← f2]
      exact ⟨fun q => q.2, fun q => ⟨hc', q⟩⟩
    refine ⟨g1, g2, ?_⟩
    obtain ⟨_, w1, w2, _⟩ := C05_leg_weights_sum jc jw _ _ hrep o ho fwd c hc' hn
    intro b hb
    cases b
    · exact w2 hb (fun q => (g2.1 hb) (g1.1 q))
    · exact w1 hb (fun q => (g2.1 q) (g1.1 hb))

/-- In the example the split cell (its centre stays inside) loses its boundary
leg, and the cell next to the boundary keeps one. -/
example (m : MapDict ℚ) (hm : modifyMaps (fun _ => 7) (fun _ => 7) exMaps false = .ok m) :
    exIn.SomeEscape true (3, 0, 0) ∧ ∃ o, Exports m o ∧ ¬ 0 ≤ o.forward.legBoundary (3, 0, 0) ∧
      0 ≤ o.forward.legBoundary (4, 0, 0) := by
  obtain ⟨o, ho, _, _, hl⟩ := C16_filter_single_leg _ _ exMaps exIn exCx exCz exMaps_full
    (by decide) m hm
  refine ⟨exIn_split.2.1, o, ho, ?_, ?_⟩
  · refine fun q => ?_
    have := (hl true (3, 0, 0) exIn_split.1).1.1 q
    rcases this.2 with r | r
    · exact r exIn_split.2.2
    · revert r; norm_num [Input.Escapes, exCx, exIn]
  · refine (hl true (4, 0, 0) (by simp [Input.Interior, exIn])).1.2 ⟨⟨0, by decide, ?_⟩, Or.inr ?_⟩
    · norm_num [Input.Escapes, Input.xs, exIn]
    · norm_num [Input.Escapes, exCx, exIn]

/-- C15 in the example: the split cell is marked, a cell further in is not. -/
example (m : MapDict ℚ) (hm : modifyMaps (fun _ => 7) (fun _ => 7) exMaps true = .ok m) :
    ∃ xt, m "forward_xt_prime" = some (.arr3 6 2 3 xt) ∧ xt (3, 0, 0) = -1 ∧
      xt (1, 0, 0) = 15 / 8 := by
  obtain ⟨xt, h1, h2⟩ := (C15_partial_marks _ _ exMaps exIn exCx exCz exMaps_full m hm).1 true
  refine ⟨xt, h1, (h2 (3, 0, 0) (by simp [Input.InGrid, exIn])).1 exIn_split.2.1,
    ((h2 (1, 0, 0) (by simp [Input.InGrid, exIn])).2 ?_).trans (by norm_num [exCx])⟩
  rintro ⟨s, _, q⟩
  revert q
  by_cases hs : s = 0 <;> norm_num [Input.Escapes, Input.xs, exIn, hs]

/-! ## C17 -/

/-- C17 as claimed: whatever the mode, an interior cell has a boundary leg
exactly if its centre map, as returned, lies in the radial boundary. -/
def C17Claim (K : Type) [Field K] [LinearOrder K] [FloorRing K] (jc : ℕ → ℤ) (jw : ℕ → K)
    (maps : MapDict K) (i : Input K) (p fwd : Bool) (c : Cell) : Prop :=
  ∀ m, modifyMaps jc jw maps p = .ok m → ∃ o xt, Exports m o ∧
    m (xtPrimeKey fwd) = some (.arr3 i.nx i.ny i.nz xt) ∧
    (0 ≤ (o.legs fwd).legBoundary c ↔ i.Escapes (xt c))

theorem escapes_minus_one : i.Escapes (-1) :=
  Or.inl (lt_of_lt_of_le (by norm_num) (Nat.cast_nonneg i.mxg))

/-- Boundary legs after the call, both modes. -/
theorem boundary_leg_after (h : Full maps i cx cz) (hn : 0 < i.n) (p fwd : Bool) (c : Cell)
    (hc : i.Interior c) (m : MapDict K) (hm : modifyMaps jc jw maps p = .ok m) :
    ∃ o xt, Exports m o ∧ m (xtPrimeKey fwd) = some (.arr3 i.nx i.ny i.nz xt) ∧
      (0 ≤ (o.legs fwd).legBoundary c ↔
        i.SomeEscape fwd c ∧ (p = true ∨ ¬ i.SomeStay fwd c ∨ i.Escapes (cx fwd c))) ∧
      (p = true ∧ i.SomeEscape fwd c → xt c = -1) ∧
      (¬ (p = true ∧ i.SomeEscape fwd c) → xt c = cx fwd c) := by
  have hg : i.InGrid c := by
    obtain ⟨a, b, d, e⟩ := hc
    exact ⟨by omega, d, e⟩
  cases p
  · obtain ⟨o, ho, hx, _, hl⟩ := C16_filter_single_leg jc jw maps i cx cz h hn m hm
    refine ⟨o, cx fwd, ho, ?_, ?_, by simp, fun _ => rfl⟩
    · rw [hx fwd]; cases fwd
      · exact h.cbx
      · exact h.cfx
    · rw [(hl fwd c hc).1]; simp [Input.FilterEscapes]
  · obtain ⟨hx, o, ho, hex⟩ := C15_partial_marks jc jw maps i cx cz h m hm
    obtain ⟨xt, h1, h2⟩ := hx fwd
    refine ⟨o, xt, hex, h1, ?_, fun q => (h2 c hg).1 q.2, fun q => (h2 c hg).2 fun r => q ⟨rfl, r⟩⟩
    · obtain ⟨_, k1, _⟩ := C04_leg_numbers_bijective jc jw maps i h.represents o ho fwd
      have := k1 c
      simp only [true_or, and_true]
      exact this.trans ⟨fun q => q.2, fun q => ⟨hc, q⟩⟩

/-- C17, in part: it holds, in both modes, for cells whose centre is one of the
sub-samples.  Missing: other cells, where it is false (see the refutation). -/
theorem C17_boundary_leg_iff_centre_partial (h : Full maps i cx cz) (p fwd : Bool) (c : Cell)
    (hc : i.Interior c) (hs : ∃ s < i.n, i.xs fwd c s = cx fwd c) :
    C17Claim K jc jw maps i p fwd c := by
  intro m hm
  obtain ⟨s, hsn, hs⟩ := hs
  obtain ⟨o, xt, ho, h1, h2, h3, h4⟩ :=
    boundary_leg_after jc jw maps i cx cz h (by omega) p fwd c hc m hm
  refine ⟨o, xt, ho, h1, ?_⟩
  rw [h2]
  have e1 : i.Escapes (cx fwd c) → i.SomeEscape fwd c := fun q => ⟨s, hsn, by rwa [hs]⟩
  have e2 : ¬ i.Escapes (cx fwd c) → i.SomeStay fwd c := fun q => ⟨s, hsn, by rwa [hs]⟩
  by_cases hE : i.SomeEscape fwd c <;> by_cases hx : i.Escapes (cx fwd c) <;> cases p <;>
    simp_all [escapes_minus_one]

/-- C17, one half: in partial mode a boundary leg always shows in the centre map.
Missing: the converse, false by `C17_fails`. -/
theorem C17_leg_implies_centre_partial (h : Full maps i cx cz) (hn : 0 < i.n) (fwd : Bool) (c : Cell)
    (hc : i.Interior c) (m : MapDict K) (hm : modifyMaps jc jw maps true = .ok m) :
    ∃ o xt, Exports m o ∧ m (xtPrimeKey fwd) = some (.arr3 i.nx i.ny i.nz xt) ∧
    (0 ≤ (o.legs fwd).legBoundary c → i.Escapes (xt c)) := by
  obtain ⟨o, xt, ho, h1, h2, h3, _⟩ := boundary_leg_after jc jw maps i cx cz h hn true fwd c hc m hm
  refine ⟨o, xt, ho, h1, fun q => ?_⟩
  rw [h3 ⟨rfl, (h2.1 q).1⟩]
  exact escapes_minus_one i

/-- The example with forward centre lines that run further out. -/
def badMaps : MapDict ℚ := exMaps.set "forward_xt_prime" (.arr3 6 2 3 fun c => (c.1 : ℚ) + 5 / 2)

/-- See `badMaps`. -/
def badCx : Bool → Cell → ℚ := fun fwd c => if fwd then (c.1 : ℚ) + 5 / 2 else (c.1 : ℚ) - 7 / 8

theorem badMaps_full : Full badMaps exIn badCx exCz where
  shape := ⟨_, rfl⟩
  mxg := rfl
  fx := rfl
  fz := rfl
  bx := rfl
  bz := rfl
  cfx := rfl
  cfz := rfl
  cbx := rfl
  cbz := rfl
  w := rfl

/-- C17 is false in both modes: the centre of cell `(2, 0, 0)` escapes, none of
its sub-samples does, so its centre map is in the boundary but it has no
boundary leg. -/
theorem C17_fails (p : Bool) :
    ¬ C17Claim ℚ (fun _ => 0) (fun _ => 0) badMaps exIn p true (2, 0, 0) := by
  intro hC
  obtain ⟨m, hm⟩ := modifyMaps_succeeds (fun _ => 0) (fun _ => 0) badMaps exIn badCx exCz
    badMaps_full p exIn_guards exIn_goodWeights
  obtain ⟨o, xt, ho, h1, h2⟩ := hC m hm
  obtain ⟨o', xt', ho', h1', h2', _, h3'⟩ := boundary_leg_after (fun _ => 0) (fun _ => 0) badMaps exIn
    badCx exCz badMaps_full (by decide) p true (2, 0, 0) (by simp [Input.Interior, exIn]) m hm
  have hno : ¬ exIn.SomeEscape true (2, 0, 0) := by
    rintro ⟨s, _, q⟩
    revert q
    by_cases hs : s = 0 <;> norm_num [Input.Escapes, Input.xs, exIn, hs]
  have e1 : xt = xt' := by
    have := h1.symm.trans h1'
    injection this with this
    injection this
  have e2 : o.forward.legBoundary = o'.forward.legBoundary := by
    have := ho.fbnd.symm.trans ho'.fbnd
    injection this with this
    injection this
  have hx : exIn.Escapes (xt (2, 0, 0)) := by
    rw [e1, h3' (fun q => hno q.2)]
    norm_num [Input.Escapes, badCx, exIn]
  have hb := h2.2 hx
  change 0 ≤ o.forward.legBoundary (2, 0, 0) at hb
  rw [e2] at hb
  exact hno (h2'.1 hb).1

/-- The hypotheses of the partial theorem hold, e.g. with the first sub-sample as
the centre. -/
example : ∃ (maps : MapDict ℚ) (cx : Bool → Cell → ℚ), Full maps exIn cx exCz ∧
    ∀ fwd c, ∃ s < exIn.n, exIn.xs fwd c s = cx fwd c :=
  ⟨(exMaps.set "forward_xt_prime" (.arr3 6 2 3 fun c => exIn.fx c 0)).set "backward_xt_prime"
    (.arr3 6 2 3 fun c => exIn.bx c 0), fun fwd c => exIn.xs fwd c 0,
    ⟨⟨_, rfl⟩, rfl, rfl, rfl, rfl, rfl, rfl, rfl, rfl, rfl, rfl⟩, fun _ _ => ⟨0, by decide, rfl⟩⟩

/-! ## C18 -/

/-- C18: the sub-sample variables are gone, the operator variables present,
everything else is kept, and a second call raises `KeyError`.  (That the returned
dictionary is the object passed in is not modelled: the model gives its final
content.) -/
theorem C18_returned_dictionary (h : Full maps i cx cz) (p : Bool) (m : MapDict K)
    (hm : modifyMaps jc jw maps p = .ok m) :
    (∀ k ∈ subsampleNames, m k = none) ∧ (∃ o, Exports m o) ∧
    (∀ k, k ∉ exportedNames → k ∉ subsampleNames →
      (p = true → k ≠ xtPrimeKey true ∧ k ≠ xtPrimeKey false) → m k = maps k) ∧
    ∀ p', modifyMaps jc jw m p' = .error (.key "forward_xt_primes") := by
  obtain ⟨o, ho, hex, hk⟩ := modifyMaps_inv jc jw maps i cx cz h p m hm
  have hnone : ∀ k ∈ subsampleNames, m k = none := by
    intro k hks
    rw [hk k ?_, if_pos hks]
    simp only [subsampleNames, List.mem_cons, List.not_mem_nil, or_false] at hks
    rcases hks with rfl | rfl | rfl | rfl | rfl <;> decide
  have hkeep : ∀ k, k ∉ exportedNames → k ∉ subsampleNames →
      (p = true → k ≠ xtPrimeKey true ∧ k ≠ xtPrimeKey false) → m k = maps k := by
    intro k h1 h2 h3
    rw [hk k h1, if_neg h2]
    cases p
    · simp only [subsampleNames, List.mem_cons, not_or] at h2
      simp [midMaps, filteredMaps, get_set, h2.1, h2.2.1, h2.2.2.1, h2.2.2.2.1]
    · obtain ⟨a, b⟩ := h3 rfl
      simp only [xtPrimeKey, if_true, Bool.false_eq_true, if_false] at a b
      simp [midMaps, markedMaps, get_set, a, b]
  refine ⟨hnone, ⟨o, hex⟩, hkeep, ?_⟩
  intro p'
  have hmxg : m "MXG" = some (.nat i.mxg) := by
    rw [hkeep "MXG" (by decide) (by decide) (fun _ => by decide)]; exact h.mxg
  have hx : m "forward_xt_primes" = none := hnone _ (by decide)
  have e1 : "forward" ++ "_xt_primes" = "forward_xt_primes" := rfl
  have hm1 : getMXG m = .ok i.mxg := by simp [getMXG, Dict.get, hmxg, bind, Except.bind]
  have h4 : get4 m "forward_xt_primes" = .error (.key "forward_xt_primes") := by
    simp [get4, Dict.get, hx, bind, Except.bind]
  cases p' <;>
    simp [modifyMaps, hm1, h4, bind, Except.bind, List.foldlM, markDir, filterDir, e1]

example (p : Bool) : ∃ m, modifyMaps (fun _ => 7) (fun _ => 7) exMaps p = .ok m ∧
    (∀ k ∈ subsampleNames, m k = none) ∧ exMaps "subcell_weights" ≠ none ∧ m "R" = exMaps "R" := by
  obtain ⟨m, hm⟩ := modifyMaps_succeeds (fun _ => 7) (fun _ => 7) exMaps exIn exCx exCz exMaps_full p
    exIn_guards exIn_goodWeights
  have := C18_returned_dictionary _ _ exMaps exIn exCx exCz exMaps_full p m hm
  exact ⟨m, hm, this.1, Option.some_ne_none _, this.2.2.1 "R" (by decide) (by decide) fun _ => by decide⟩

end Zoidberg.Weights
