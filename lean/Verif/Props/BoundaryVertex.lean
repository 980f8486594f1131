import Verif.Props.BoundaryConvex

/-!
# C63, C125: rays through vertices
-/

set_option linter.unusedSectionVars false

namespace Zoidberg

variable {K : Type} [Field K] [LinearOrder K] [IsStrictOrderedRing K]

/-- The right end of the edge from `p` to `q` is on the ray from `(x, z)`. -/
def EndsOnRay (x z : K) (p q : K × K) : Prop := p.1 = x ∧ q.1 < x ∧ z < p.2 ∨ q.1 = x ∧ p.1 < x ∧ z < q.2

/-- `(x, z)` is on the segment from `p` to `q`. -/
def OnSegment (x z : K) (p q : K × K) : Prop := ∃ b, 0 ≤ b ∧ b ≤ 1 ∧ x = p.1 + b * (q.1 - p.1) ∧ z = p.2 + b * (q.2 - p.2)

theorem endsOnRay_symm {x z : K} {p q : K × K} : EndsOnRay x z p q ↔ EndsOnRay x z q p := or_comm

theorem onSegment_symm {x z : K} {p q : K × K} (h : OnSegment x z p q) : OnSegment x z q p := by
  obtain ⟨b, h0, h1, hx, hz⟩ := h
  exact ⟨1 - b, by linarith, by linarith, by rw [hx]; ring, by rw [hz]; ring⟩

theorem meetsRay_height {x z : K} {p q : K × K} (h : p.1 < q.1) : MeetsRay x z p q ↔ (p.1 ≤ x ∧ x ≤ q.1) ∧ z ≤ height x p q := by
  have hd : q.1 - p.1 ≠ 0 := by
    intro h0
    linarith
  constructor
  · rintro ⟨b, h0, h1, hx, hz⟩
    have hb : b = (x - p.1) / (q.1 - p.1) := by rw [hx]; field_simp; ring
    refine ⟨⟨?_, ?_⟩, ?_⟩
    · rw [hx]; nlinarith
    · rw [hx]; nlinarith
    · unfold height
      rw [← hb]
      exact hz
  · rintro ⟨⟨h0, h1⟩, hz⟩
    refine ⟨(x - p.1) / (q.1 - p.1), div_nonneg (by linarith) (by linarith), (div_le_one (by linarith)).2 (by linarith), ?_, hz⟩
    field_simp
    ring

theorem onSegment_height {x z : K} {p q : K × K} (h : p.1 < q.1) (h0 : p.1 ≤ x) (h1 : x ≤ q.1) (hz : z = height x p q) : OnSegment x z p q := by
  have hd : q.1 - p.1 ≠ 0 := by
    intro h0
    linarith
  refine ⟨(x - p.1) / (q.1 - p.1), div_nonneg (by linarith) (by linarith), (div_le_one (by linarith)).2 (by linarith), ?_, hz⟩
  field_simp
  ring

/-- A ray slightly further to the right meets the edges that do not end on this one. -/
theorem meetsRay_right {x z : K} {p q : K × K} (h : p.1 < q.1) (hs : ¬ OnSegment x z p q) :
    ∃ δ : K, 0 < δ ∧ ∀ ε, 0 < ε → ε < δ → (MeetsRay (x + ε) z p q ↔ MeetsRay x z p q ∧ ¬ EndsOnRay x z p q) := by
  have hd : q.1 - p.1 ≠ 0 := by
    intro h0
    linarith
  rcases lt_or_ge x p.1 with h1 | h1
  · refine ⟨p.1 - x, by linarith, fun ε e0 e1 => ?_⟩
    rw [meetsRay_height h, meetsRay_height h]
    constructor
    · rintro ⟨⟨h2, -⟩, -⟩
      linarith
    · rintro ⟨⟨⟨h2, -⟩, -⟩, -⟩
      linarith
  rcases lt_or_ge x q.1 with h2 | h2
  · set s := (q.2 - p.2) / (q.1 - p.1) with hsl
    have hh : ∀ ε, height (x + ε) p q = height x p q + ε * s := by
      intro ε
      unfold height
      rw [hsl]
      field_simp
      ring
    have hne : z ≠ height x p q := fun e => hs (onSegment_height h h1 h2.le e)
    have hg : 0 < |height x p q - z| := abs_pos.2 (sub_ne_zero.2 hne.symm)
    have hs1 : 0 < |s| + 1 := by positivity
    refine ⟨min (q.1 - x) (|height x p q - z| / (|s| + 1)), lt_min (by linarith) (by positivity), fun ε e0 e1 => ?_⟩
    have e2 := e1.trans_le (min_le_left _ _)
    have e3 := (lt_div_iff₀ hs1).1 (e1.trans_le (min_le_right _ _))
    have e4 : |ε * s| < |height x p q - z| := by
      rw [abs_mul, abs_of_pos e0]
      linarith
    have hend : ¬ EndsOnRay x z p q := by
      rintro (⟨-, h3, -⟩ | ⟨h3, -, -⟩) <;> linarith
    rw [meetsRay_height h, meetsRay_height h, hh]
    have h5 : z ≤ height x p q + ε * s ↔ z ≤ height x p q := by
      rw [abs_lt] at e4
      rcases lt_or_gt_of_ne hne with h6 | h6
      · rw [abs_of_pos (by linarith)] at e4
        exact ⟨fun _ => h6.le, fun _ => by linarith⟩
      · rw [abs_of_neg (by linarith)] at e4
        exact ⟨fun _ => by linarith, fun h7 => absurd h7 (not_le.2 h6)⟩
    rw [h5]
    constructor
    · rintro ⟨-, h6⟩
      exact ⟨⟨⟨h1, h2.le⟩, h6⟩, hend⟩
    · rintro ⟨⟨-, h6⟩, -⟩
      exact ⟨⟨by linarith, by linarith⟩, h6⟩
  · refine ⟨1, one_pos, fun ε e0 _ => ?_⟩
    rw [meetsRay_height h, meetsRay_height h]
    constructor
    · rintro ⟨⟨-, h3⟩, -⟩
      linarith
    · rintro ⟨⟨⟨-, h3⟩, h4⟩, h5⟩
      have hx : x = q.1 := le_antisymm h3 h2
      have hq : height x p q = q.2 := by
        unfold height
        rw [hx, div_self hd]
        ring
      have hne : z ≠ height x p q := fun e => hs (onSegment_height h h1 h3 e)
      exact absurd (Or.inr ⟨hx.symm, by linarith, by rw [← hq]; exact lt_of_le_of_ne h4 hne⟩) h5

theorem finite_min (n : ℕ) (P : ℕ → K → Prop) (h : ∀ i < n, ∃ δ : K, 0 < δ ∧ ∀ ε, 0 < ε → ε < δ → P i ε) :
    ∃ δ : K, 0 < δ ∧ ∀ ε, 0 < ε → ε < δ → ∀ i < n, P i ε := by
  induction n with
  | zero => exact ⟨1, one_pos, fun _ _ _ i hi => absurd hi (Nat.not_lt_zero i)⟩
  | succ n ih =>
    obtain ⟨d1, p1, q1⟩ := ih fun i hi => h i (by omega)
    obtain ⟨d2, p2, q2⟩ := h n (by omega)
    refine ⟨min d1 d2, lt_min p1 p2, fun ε e0 e1 i hi => ?_⟩
    rcases Nat.lt_succ_iff_lt_or_eq.1 hi with h1 | rfl
    · exact q1 ε e0 (e1.trans_le (min_le_left _ _)) i h1
    · exact q2 ε e0 (e1.trans_le (min_le_right _ _))

section

open scoped Classical

/-- The number of edges whose right end is on the ray, without those that are left out. -/
noncomputable def endings (pts : List (K × K)) (x z : K) : ℕ :=
  ((Finset.range pts.length).filter fun i => Wide (vertex pts i) (vertex pts (i + 1)) ∧ EndsOnRay x z (vertex pts i) (vertex pts (i + 1))).card

/-- `(x, z)` is on no edge. -/
def OffEdges (pts : List (K × K)) (x z : K) : Prop := ∀ i < pts.length, ¬ OnSegment x z (vertex pts i) (vertex pts (i + 1))

theorem ends_meets {x z : K} {p q : K × K} (h : EndsOnRay x z p q) : MeetsRay x z p q := by
  rcases h with ⟨h1, -, h3⟩ | ⟨h1, -, h3⟩
  · exact ⟨0, le_rfl, zero_le_one, by rw [h1]; ring, by linarith⟩
  · exact ⟨1, zero_le_one, le_rfl, by rw [h1]; ring, by linarith⟩

theorem wide_symm {p q : K × K} (h : Wide p q) : Wide q p := by
  unfold Wide at h ⊢
  rwa [abs_sub_comm]

/-- The edges met by two rays close to each other. -/
theorem crossings_right (pts : List (K × K)) {x z : K} (ho : OffEdges pts x z) :
    ∃ δ : K, 0 < δ ∧ ∀ ε, 0 < ε → ε < δ → crossings pts x z = crossings pts (x + ε) z + endings pts x z := by
  obtain ⟨δ, h0, h1⟩ := finite_min pts.length (fun i ε => Wide (vertex pts i) (vertex pts (i + 1)) →
      (MeetsRay (x + ε) z (vertex pts i) (vertex pts (i + 1)) ↔
        MeetsRay x z (vertex pts i) (vertex pts (i + 1)) ∧ ¬ EndsOnRay x z (vertex pts i) (vertex pts (i + 1)))) (by
    intro i hi
    by_cases hw : Wide (vertex pts i) (vertex pts (i + 1))
    · rcases lt_or_gt_of_ne (sub_ne_zero.1 (wide_ne hw)) with h2 | h2
      · obtain ⟨δ, d0, d1⟩ := meetsRay_right h2 (fun h => ho i hi (onSegment_symm h))
        refine ⟨δ, d0, fun ε e0 e1 _ => ?_⟩
        have d2 := d1 ε e0 e1
        rw [endsOnRay_symm] at d2
        exact ⟨fun h3 => ⟨meetsRay_symm (d2.1 (meetsRay_symm h3)).1, (d2.1 (meetsRay_symm h3)).2⟩,
          fun h3 => meetsRay_symm (d2.2 ⟨meetsRay_symm h3.1, h3.2⟩)⟩
      · obtain ⟨δ, d0, d1⟩ := meetsRay_right h2 (ho i hi)
        exact ⟨δ, d0, fun ε e0 e1 _ => d1 ε e0 e1⟩
    · exact ⟨1, one_pos, fun _ _ _ h => absurd h hw⟩)
  refine ⟨δ, h0, fun ε e0 e1 => ?_⟩
  have h2 := h1 ε e0 e1
  unfold crossings endings
  rw [← Finset.card_union_of_disjoint]
  · congr 1
    ext i
    rw [Finset.mem_union, Finset.mem_filter, Finset.mem_filter, Finset.mem_filter]
    constructor
    · rintro ⟨hi, hw, hm⟩
      by_cases he : EndsOnRay x z (vertex pts i) (vertex pts (i + 1))
      · exact Or.inr ⟨hi, hw, he⟩
      · exact Or.inl ⟨hi, hw, (h2 i (Finset.mem_range.1 hi) hw).2 ⟨hm, he⟩⟩
    · rintro (⟨hi, hw, hm⟩ | ⟨hi, hw, he⟩)
      · exact ⟨hi, hw, ((h2 i (Finset.mem_range.1 hi) hw).1 hm).1⟩
      · exact ⟨hi, hw, ends_meets he⟩
  · rw [Finset.disjoint_left]
    intro i h3 h4
    obtain ⟨hi, hw, hm⟩ := Finset.mem_filter.1 h3
    exact ((h2 i (Finset.mem_range.1 hi) hw).1 hm).2 (Finset.mem_filter.1 h4).2.2

/-- **C63, rays through vertices.** For every polygon and every point that is on no edge, the answer is that for the points slightly further to the right, exactly if the
number of edges whose right end is on the ray is even. -/
theorem C63_vertex_iff (pts : List (K × K)) (b : PolyBoundary K) (h : PolyBoundary.init pts = .ok b) (x y z : K) (ho : OffEdges pts x z) :
    ∃ δ : K, 0 < δ ∧ ∀ ε, 0 < ε → ε < δ → (b.outside x y z = b.outside (x + ε) y z ↔ Even (endings pts x z)) := by
  obtain ⟨δ, h0, h1⟩ := crossings_right pts ho
  refine ⟨δ, h0, fun ε e0 e1 => ?_⟩
  rw [Bool.eq_iff_iff, C63_even_odd pts b h, C63_even_odd pts b h, h1 ε e0 e1, Nat.even_add]
  tauto

/-- All edges are wide or vertical. -/
def WideOrVertical (pts : List (K × K)) : Prop := ∀ i, (vertex pts (i + 1)).1 = (vertex pts i).1 ∨ Wide (vertex pts i) (vertex pts (i + 1))

theorem WideOrVertical.thin {pts : List (K × K)} (hw : WideOrVertical pts) (x : K) : NoThin pts x := by
  intro i hi
  rcases hw i with h1 | h1
  · rcases hi with hi | hi
    · exact absurd h1 (by have := leftward_ne hi; intro e; linarith)
    · exact absurd h1 (by have := rightward_ne hi; intro e; linarith)
  · exact h1

theorem interior_off {pts : List (K × K)} {x z : K} (hi : Interior pts x z) : OffEdges pts x z := by
  rintro i h0 ⟨b, -, -, hx, hz⟩
  have := hi i h0
  rw [leftOf_comb _ _ _ _ b x z hx hz, leftOf_a, leftOf_b] at this
  simp at this

theorem exterior_off {pts : List (K × K)} (hc : StrictConvex pts) {x z : K} (he : Exterior pts x z) : OffEdges pts x z := by
  obtain ⟨j, hj, hneg⟩ := he
  rintro i h0 ⟨b, b0, b1, hx, hz⟩
  rw [leftOf_comb _ _ _ _ b x z hx hz] at hneg
  have := mul_nonneg (by linarith : 0 ≤ 1 - b) (hc.le hj i)
  have := mul_nonneg b0 (hc.le hj (i + 1))
  linarith

theorem leftOf_right (a b : K × K) (x z ε : K) : leftOf a b (x + ε, z) = leftOf a b (x, z) - (b.2 - a.2) * ε := by
  unfold leftOf
  ring

theorem pos_right {c : K} (hc : 0 < c) (s : K) : ∃ δ : K, 0 < δ ∧ ∀ ε, 0 < ε → ε < δ → 0 < c - s * ε := by
  have hs1 : 0 < |s| + 1 := by positivity
  refine ⟨c / (|s| + 1), by positivity, fun ε e0 e1 => ?_⟩
  have e2 := (lt_div_iff₀ hs1).1 e1
  have := le_abs_self s
  nlinarith

/-- Slightly further to the right there are no vertices. -/
theorem vertices_right (pts : List (K × K)) (hn : 0 < pts.length) (x : K) : ∃ δ : K, 0 < δ ∧ ∀ ε, 0 < ε → ε < δ → ∀ i, (vertex pts i).1 ≠ x + ε := by
  obtain ⟨δ, h0, h1⟩ := finite_min pts.length (fun i ε => (vertex pts i).1 ≠ x + ε) (by
    intro i _
    rcases le_or_gt (vertex pts i).1 x with h | h
    · exact ⟨1, one_pos, fun ε e0 _ => by intro e; linarith⟩
    · exact ⟨(vertex pts i).1 - x, by linarith, fun ε _ e1 => by intro e; linarith⟩)
  refine ⟨δ, h0, fun ε e0 e1 i => ?_⟩
  rw [← vertex_mod]
  exact h1 ε e0 e1 _ (Nat.mod_lt _ hn)

/-- **C63, points below the polygon, the exact condition**: with edges that are wide or vertical they are reported as outside exactly if the number of edges whose right end is
straight above is even. -/
theorem C63_below_iff (pts : List (K × K)) (b : PolyBoundary K) (h : PolyBoundary.init pts = .ok b) (hw : WideOrVertical pts) (x y z : K) (hb : ∀ p ∈ pts, z < p.2) :
    b.outside x y z = true ↔ Even (endings pts x z) := by
  obtain ⟨-, hne, -⟩ := init_zout h
  have hoff : OffEdges pts x z := by
    rintro i - ⟨c, c0, c1, -, hz⟩
    have := comb_lt c0 c1 (hb _ (vertex_mem hne i)) (hb _ (vertex_mem hne (i + 1)))
    rw [← hz] at this
    exact lt_irrefl _ this
  obtain ⟨d1, p1, q1⟩ := vertices_right pts (List.length_pos_iff.2 hne) x
  obtain ⟨d2, p2, q2⟩ := C63_vertex_iff pts b h x y z hoff
  obtain ⟨ε, e0, e1⟩ := exists_between (lt_min p1 p2)
  have e2 := lt_min_iff.1 e1
  have k := C63_below_partial pts b h (x + ε) y z hb (fun p hp => by
    obtain ⟨i, rfl⟩ := mem_vertex hp
    exact q1 ε e0 e2.1 i) (hw.thin _)
  rw [← q2 ε e0 e2.2, k]

/-- **C125, the exact condition.** For strictly convex polygons whose edges are wide or vertical, the answer is right exactly if the number of edges whose right end is on the
ray is even. -/
theorem C125_iff (pts : List (K × K)) (b : PolyBoundary K) (h : PolyBoundary.init pts = .ok b) (hc : StrictConvex pts) (hw : WideOrVertical pts) (x y z : K) :
    (Interior pts x z → (b.outside x y z = false ↔ Even (endings pts x z))) ∧ (Exterior pts x z → (b.outside x y z = true ↔ Even (endings pts x z))) := by
  have hn : 0 < pts.length := by have := hc.1; omega
  obtain ⟨d1, p1, q1⟩ := vertices_right pts hn x
  constructor
  · intro hi
    obtain ⟨d2, p2, q2⟩ := C63_vertex_iff pts b h x y z (interior_off hi)
    obtain ⟨d3, p3, q3⟩ := finite_min pts.length (fun i ε => 0 < leftOf (vertex pts i) (vertex pts (i + 1)) (x + ε, z)) (by
      intro i h0
      obtain ⟨δ, h1, h2⟩ := pos_right (hi i h0) ((vertex pts (i + 1)).2 - (vertex pts i).2)
      exact ⟨δ, h1, fun ε e0 e1 => by rw [leftOf_right]; exact h2 ε e0 e1⟩)
    have pm : 0 < min d1 (min d2 d3) := lt_min p1 (lt_min p2 p3)
    obtain ⟨ε, e0, e1⟩ := exists_between pm
    have e2 := lt_min_iff.1 e1
    have e3 := lt_min_iff.1 e2.2
    have k := (C125_convex_partial pts b h hc (x + ε) y z (q1 ε e0 e2.1) (hw.thin _)).1 (q3 ε e0 e3.2)
    rw [← q2 ε e0 e3.1, k]
  · intro he
    obtain ⟨d2, p2, q2⟩ := C63_vertex_iff pts b h x y z (exterior_off hc he)
    obtain ⟨i, h0, hneg⟩ := he
    obtain ⟨d3, p3, q3⟩ := pos_right (neg_pos.2 hneg) (-((vertex pts (i + 1)).2 - (vertex pts i).2))
    have pm : 0 < min d1 (min d2 d3) := lt_min p1 (lt_min p2 p3)
    obtain ⟨ε, e0, e1⟩ := exists_between pm
    have e2 := lt_min_iff.1 e1
    have e3 := lt_min_iff.1 e2.2
    have k := (C125_convex_partial pts b h hc (x + ε) y z (q1 ε e0 e2.1) (hw.thin _)).2 ⟨i, h0, by
      rw [leftOf_right]
      have := q3 ε e0 e3.2
      linarith⟩
    rw [← q2 ε e0 e3.1, k]

/-- **C125, interior points**: they are reported as outside exactly if there is a vertex straight above. -/
theorem C125_interior_iff (pts : List (K × K)) (b : PolyBoundary K) (h : PolyBoundary.init pts = .ok b) (hc : StrictConvex pts) (hw : WideOrVertical pts) (x y z : K)
    (hi : Interior pts x z) : b.outside x y z = true ↔ ∃ p ∈ pts, p.1 = x ∧ z < p.2 := by
  have hn : 0 < pts.length := by have := hc.1; omega
  obtain ⟨-, hne, -⟩ := init_zout h
  have hi' : ∀ i, 0 < leftOf (vertex pts i) (vertex pts (i + 1)) (x, z) := by
    intro i
    have := hi (i % pts.length) (Nat.mod_lt _ hn)
    rwa [vertex_mod, ← vertex_mod pts (_ % _ + 1), Nat.mod_add_mod, vertex_mod] at this
  have k := (C125_iff pts b h hc hw x y z).1 hi
  have hleft : ∀ i, (vertex pts i).1 = x → z < (vertex pts i).2 → (vertex pts (i + 1)).1 < x := by
    intro i h1 h2
    have := hi' i
    unfold leftOf at this
    rw [h1] at this
    dsimp only at this
    by_contra h3
    have := mul_nonneg (sub_nonneg.2 (not_lt.1 h3)) (sub_nonneg.2 h2.le)
    linarith
  have hends : ∀ i, (Wide (vertex pts i) (vertex pts (i + 1)) ∧ EndsOnRay x z (vertex pts i) (vertex pts (i + 1))) ↔
      (vertex pts i).1 = x ∧ z < (vertex pts i).2 := by
    intro i
    constructor
    · rintro ⟨-, ⟨h1, -, h3⟩ | ⟨h1, h2, h3⟩⟩
      · exact ⟨h1, h3⟩
      · exfalso
        have := hi' i
        unfold leftOf at this
        rw [h1] at this
        dsimp only at this
        have := mul_pos (sub_pos.2 h2) (sub_pos.2 h3)
        linarith
    · rintro ⟨h1, h2⟩
      have h3 := hleft i h1 h2
      refine ⟨(hw i).resolve_left ?_, Or.inl ⟨h1, h3, h2⟩⟩
      intro e
      linarith
  have huniq : ∀ i j, (vertex pts i).1 = x → z < (vertex pts i).2 → (vertex pts j).1 = x → z < (vertex pts j).2 → (vertex pts j).2 ≤ (vertex pts i).2 := by
    intro i j h1 h2 h3 h4
    have l1 := hleft i h1 h2
    have l2 := hc.le (Nat.mod_lt i hn) j
    rw [vertex_mod, ← vertex_mod pts (_ % _ + 1), Nat.mod_add_mod, vertex_mod] at l2
    unfold leftOf at l2
    rw [h1, h3] at l2
    by_contra h5
    have := mul_pos (sub_pos.2 l1) (sub_pos.2 (not_le.1 h5))
    linarith
  have hcard : endings pts x z ≤ 1 := by
    unfold endings
    rw [Finset.card_le_one]
    intro i h1 j h2
    obtain ⟨a1, a2⟩ := (hends i).1 (Finset.mem_filter.1 h1).2
    obtain ⟨b1, b2⟩ := (hends j).1 (Finset.mem_filter.1 h2).2
    have ri := Finset.mem_range.1 (Finset.mem_filter.1 h1).1
    have rj := Finset.mem_range.1 (Finset.mem_filter.1 h2).1
    by_contra hij
    have e : vertex pts j = vertex pts i := Prod.ext (by rw [a1, b1]) (le_antisymm (huniq i j a1 a2 b1 b2) (huniq j i b1 b2 a1 a2))
    have hl := hleft i a1 a2
    have n1 : j ≠ (i + 1) % pts.length := by
      intro e2
      rw [e2, vertex_mod] at e
      rw [e, a1] at hl
      exact lt_irrefl _ hl
    have := hc.2 i ri j rj (Ne.symm hij) n1
    rw [e, leftOf_a] at this
    exact lt_irrefl _ this
  have hout : b.outside x y z = true ↔ endings pts x z = 1 := by
    rw [← Bool.not_eq_false, k]
    rcases Nat.le_one_iff_eq_zero_or_eq_one.1 hcard with h1 | h1 <;> rw [h1] <;> decide
  rw [hout]
  constructor
  · intro h1
    have : 0 < endings pts x z := by omega
    obtain ⟨i, hm⟩ := Finset.card_pos.1 this
    obtain ⟨a1, a2⟩ := (hends i).1 (Finset.mem_filter.1 hm).2
    exact ⟨_, vertex_mem hne i, a1, a2⟩
  · rintro ⟨p, hp, h1, h2⟩
    obtain ⟨i, rfl⟩ := mem_vertex hp
    have : 0 < endings pts x z := by
      unfold endings
      refine Finset.card_pos.2 ⟨i % pts.length, Finset.mem_filter.2 ⟨Finset.mem_range.2 (Nat.mod_lt _ hn), ?_⟩⟩
      rw [hends, vertex_mod]
      exact ⟨h1, h2⟩
    omega

end

theorem vertex_all {pts : List (K × K)} (P : K × K → K × K → Prop) (hn : 0 < pts.length) (h : ∀ i < pts.length, P (vertex pts i) (vertex pts (i + 1))) (i : ℕ) :
    P (vertex pts i) (vertex pts (i + 1)) := by
  have := h (i % pts.length) (Nat.mod_lt _ hn)
  rwa [vertex_mod, ← vertex_mod pts (_ % _ + 1), Nat.mod_add_mod, vertex_mod] at this

/-- Cases: the centre of a square that stands on a corner, and a point beside it; both are interior points of a polygon with wide edges. -/
example : StrictConvex ([(1, 0), (0, 1), (-1, 0), (0, -1)] : List (ℚ × ℚ)) ∧ WideOrVertical ([(1, 0), (0, 1), (-1, 0), (0, -1)] : List (ℚ × ℚ)) ∧
    Interior ([(1, 0), (0, 1), (-1, 0), (0, -1)] : List (ℚ × ℚ)) 0 0 ∧ Interior ([(1, 0), (0, 1), (-1, 0), (0, -1)] : List (ℚ × ℚ)) (1 / 4) 0 ∧
    OffEdges ([(1, 0), (0, 1), (-1, 0), (0, -1)] : List (ℚ × ℚ)) 0 0 := by
  have hi : Interior ([(1, 0), (0, 1), (-1, 0), (0, -1)] : List (ℚ × ℚ)) 0 0 := by unfold Interior; decide +kernel
  refine ⟨⟨by decide, by decide +kernel⟩, fun i => vertex_all (fun p q => q.1 = p.1 ∨ Wide p q) (by decide) ?_ i, hi, by unfold Interior; decide +kernel, interior_off hi⟩
  unfold Wide
  decide +kernel

end Zoidberg
