import Verif.Props.Boundary

/-!
# C125, C126: convex polygons and rectangles
-/

set_option linter.unusedSectionVars false

namespace Zoidberg

variable {K : Type} [Field K] [LinearOrder K] [IsStrictOrderedRing K]

/-- Positive if `c` is on the left of the line from `a` to `b`. -/
def leftOf (a b c : K × K) : K := (b.1 - a.1) * (c.2 - a.2) - (b.2 - a.2) * (c.1 - a.1)

/-- The polygon is strictly convex and anticlockwise: every other vertex is on the left of every edge. -/
def StrictConvex (pts : List (K × K)) : Prop :=
  3 ≤ pts.length ∧ ∀ i < pts.length, ∀ j < pts.length, j ≠ i → j ≠ (i + 1) % pts.length →
    0 < leftOf (vertex pts i) (vertex pts (i + 1)) (vertex pts j)

theorem leftOf_comb (a b p q : K × K) (c x z : K) (hx : x = p.1 + c * (q.1 - p.1)) (hz : z = p.2 + c * (q.2 - p.2)) :
    leftOf a b (x, z) = (1 - c) * leftOf a b p + c * leftOf a b q := by
  unfold leftOf
  rw [hx, hz]
  ring

theorem leftOf_a (a b : K × K) : leftOf a b a = 0 := by unfold leftOf; ring

theorem leftOf_b (a b : K × K) : leftOf a b b = 0 := by unfold leftOf; ring

theorem leftOf_height {x z : K} {a b : K × K} (h : b.1 - a.1 ≠ 0) :
    leftOf a b (x, z) = (b.1 - a.1) * (z - height x a b) := by
  unfold leftOf height
  field_simp
  ring

theorem vertex_mod (pts : List (K × K)) (i : ℕ) : vertex pts (i % pts.length) = vertex pts i := by
  unfold vertex; rw [Nat.mod_mod]

/-- All vertices are on the left of every edge or on it. -/
theorem StrictConvex.le {pts : List (K × K)} (h : StrictConvex pts) {i : ℕ} (hi : i < pts.length) (j : ℕ) :
    0 ≤ leftOf (vertex pts i) (vertex pts (i + 1)) (vertex pts j) := by
  have hn := h.1
  rw [← vertex_mod pts j]
  by_cases h1 : j % pts.length = i
  · rw [h1, leftOf_a]
  · by_cases h2 : j % pts.length = (i + 1) % pts.length
    · rw [h2, vertex_mod, leftOf_b]
    · exact (h.2 i hi _ (Nat.mod_lt _ (by omega)) h1 h2).le

/-- Where another edge crosses `x`, it is on the left of the edge `i`. -/
theorem StrictConvex.crossing {pts : List (K × K)} (h : StrictConvex pts) {x : K} {i j : ℕ} (hi : i < pts.length)
    (hj : j < pts.length) (hij : j ≠ i) (hc : Leftward pts x j ∨ Rightward pts x j) :
    0 < leftOf (vertex pts i) (vertex pts (i + 1)) (x, height x (vertex pts j) (vertex pts (j + 1))) := by
  have hn := h.1
  obtain ⟨c, c0, c1, hx, hh⟩ := height_mem hc
  rw [leftOf_comb _ _ (vertex pts j) (vertex pts (j + 1)) c x _ hx hh]
  have l1 := h.le hi j
  have l2 := h.le hi (j + 1)
  by_cases h1 : j = (i + 1) % pts.length
  · -- the next vertex is strictly on the left
    have e : 0 < leftOf (vertex pts i) (vertex pts (i + 1)) (vertex pts (j + 1)) := by
      rw [← vertex_mod pts (j + 1)]
      have hm : (j + 1) % pts.length = (i + 2) % pts.length := by rw [h1, Nat.mod_add_mod]
      rw [hm]
      refine h.2 i hi _ (Nat.mod_lt _ (by omega)) ?_ ?_
      · rcases Nat.lt_or_ge (i + 2) pts.length with h3 | h3
        · rw [Nat.mod_eq_of_lt h3]; omega
        · rw [Nat.mod_eq_sub_mod h3, Nat.mod_eq_of_lt (by omega)]; omega
      · rcases Nat.lt_or_ge (i + 2) pts.length with h3 | h3
        · rw [Nat.mod_eq_of_lt h3, Nat.mod_eq_of_lt (by omega)]; omega
        · rw [Nat.mod_eq_sub_mod h3, Nat.mod_eq_of_lt (by omega)]
          rcases Nat.lt_or_ge (i + 1) pts.length with h4 | h4
          · rw [Nat.mod_eq_of_lt h4]; omega
          · rw [Nat.mod_eq_sub_mod h4, Nat.mod_eq_of_lt (by omega)]; omega
    have := mul_pos c0 e
    have := mul_nonneg (by linarith : 0 ≤ 1 - c) l1
    linarith
  · have e := h.2 i hi j hj hij h1
    have := mul_pos (by linarith : 0 < 1 - c) e
    have := mul_nonneg c0.le l2
    linarith

theorem leftward_ne {pts : List (K × K)} {x : K} {i : ℕ} (h : Leftward pts x i) : (vertex pts (i + 1)).1 - (vertex pts i).1 < 0 := by
  have := h.1; have := h.2; linarith

theorem rightward_ne {pts : List (K × K)} {x : K} {i : ℕ} (h : Rightward pts x i) : 0 < (vertex pts (i + 1)).1 - (vertex pts i).1 := by
  have := h.1; have := h.2; linarith

/-- The height of edge `i` at `x`. -/
def edgeHeight (pts : List (K × K)) (x : K) (i : ℕ) : K := height x (vertex pts i) (vertex pts (i + 1))

theorem StrictConvex.below_left {pts : List (K × K)} (h : StrictConvex pts) {x : K} {i j : ℕ} (hi : i < pts.length)
    (hj : j < pts.length) (hij : j ≠ i) (hl : Leftward pts x i) (hc : Leftward pts x j ∨ Rightward pts x j) :
    edgeHeight pts x j < edgeHeight pts x i := by
  have h1 := h.crossing hi hj hij hc
  have h2 := leftward_ne hl
  rw [leftOf_height h2.ne] at h1
  by_contra h3
  have h4 : 0 ≤ height x (vertex pts j) (vertex pts (j + 1)) - height x (vertex pts i) (vertex pts (i + 1)) :=
    sub_nonneg.2 (not_lt.1 h3)
  have := mul_nonpos_of_nonpos_of_nonneg h2.le h4
  linarith

theorem StrictConvex.above_right {pts : List (K × K)} (h : StrictConvex pts) {x : K} {i j : ℕ} (hi : i < pts.length)
    (hj : j < pts.length) (hij : j ≠ i) (hl : Rightward pts x i) (hc : Leftward pts x j ∨ Rightward pts x j) :
    edgeHeight pts x i < edgeHeight pts x j := by
  have h1 := h.crossing hi hj hij hc
  have h2 := rightward_ne hl
  rw [leftOf_height h2.ne'] at h1
  exact sub_pos.1 ((mul_pos_iff_of_pos_left h2).1 h1)

/-- A point with all vertices of the polygon on one side is not to the left of all edges. -/
theorem StrictConvex.beside {pts : List (K × K)} (h : StrictConvex pts) {x z : K}
    (hs : (∀ i, x < (vertex pts i).1) ∨ ∀ i, (vertex pts i).1 < x) :
    ∃ i < pts.length, leftOf (vertex pts i) (vertex pts (i + 1)) (x, z) ≤ 0 := by
  have hn := h.1
  by_contra hc
  push Not at hc
  have key : ∀ m < pts.length, ∃ k < pts.length, vertex pts (k + 1) = vertex pts m ∧
      0 < leftOf (vertex pts k) (vertex pts m) (vertex pts (m + 1)) := by
    intro m hm
    refine ⟨(m + pts.length - 1) % pts.length, Nat.mod_lt _ (by omega), ?_, ?_⟩
    · rw [← vertex_mod pts (_ + 1), Nat.mod_add_mod, show m + pts.length - 1 + 1 = m + pts.length by omega, vertex_mod, vertex_add]
    · set k := (m + pts.length - 1) % pts.length with hk
      have hkl : k < pts.length := Nat.mod_lt _ (by omega)
      have ek : (k + 1) % pts.length = m := by
        rw [hk, Nat.mod_add_mod, show m + pts.length - 1 + 1 = m + pts.length by omega, Nat.add_mod_right, Nat.mod_eq_of_lt hm]
      have e1 : vertex pts m = vertex pts (k + 1) := by rw [← vertex_mod pts (k + 1), ek]
      rw [e1, ← vertex_mod pts (m + 1)]
      have hkv : k = if m = 0 then pts.length - 1 else m - 1 := by
        split_ifs with h0
        · rw [hk, h0, Nat.mod_eq_of_lt (by omega)]; omega
        · rw [hk, Nat.mod_eq_sub_mod (by omega), Nat.mod_eq_of_lt (by omega)]; omega
      have hmv : (m + 1) % pts.length = if m + 1 = pts.length then 0 else m + 1 := by
        split_ifs with h0
        · rw [h0, Nat.mod_self]
        · rw [Nat.mod_eq_of_lt (by omega)]
      refine h.2 k hkl _ (Nat.mod_lt _ (by omega)) ?_ ?_
      · rw [hkv, hmv]; split_ifs <;> omega
      · rw [ek, hmv]; split_ifs <;> omega
  have hne : (Finset.range pts.length).Nonempty := ⟨0, Finset.mem_range.2 (by omega)⟩
  rcases hs with hs | hs
  · obtain ⟨m, hm, hmin⟩ := Finset.exists_min_image (Finset.range pts.length) (fun i => (vertex pts i).1) hne
    have hm' := Finset.mem_range.1 hm
    obtain ⟨k, hk, ek, hcr⟩ := key m hm'
    have c1 := hc k hk
    have c2 := hc m hm'
    rw [ek] at c1
    have d1 := hmin k (Finset.mem_range.2 hk)
    have d2 := hmin ((m + 1) % pts.length) (Finset.mem_range.2 (Nat.mod_lt _ (by omega)))
    simp only [vertex_mod] at d2
    have d3 := hs m
    unfold leftOf at c1 c2 hcr
    dsimp only at c1 c2
    generalize vertex pts k = p at *
    generalize vertex pts m = q at *
    generalize vertex pts (m + 1) = r at *
    have t1 := mul_nonneg (sub_nonneg.2 d2) c1.le
    have t2 := mul_nonneg (sub_nonneg.2 d1) c2.le
    have t3 := mul_pos (sub_pos.2 d3) hcr
    nlinarith
  · obtain ⟨m, hm, hmin⟩ := Finset.exists_max_image (Finset.range pts.length) (fun i => (vertex pts i).1) hne
    have hm' := Finset.mem_range.1 hm
    obtain ⟨k, hk, ek, hcr⟩ := key m hm'
    have c1 := hc k hk
    have c2 := hc m hm'
    rw [ek] at c1
    have d1 := hmin k (Finset.mem_range.2 hk)
    have d2 := hmin ((m + 1) % pts.length) (Finset.mem_range.2 (Nat.mod_lt _ (by omega)))
    simp only [vertex_mod] at d2
    have d3 := hs m
    unfold leftOf at c1 c2 hcr
    dsimp only at c1 c2
    generalize vertex pts k = p at *
    generalize vertex pts m = q at *
    generalize vertex pts (m + 1) = r at *
    have t1 := mul_nonneg (sub_nonneg.2 d2) c1.le
    have t2 := mul_nonneg (sub_nonneg.2 d1) c2.le
    have t3 := mul_pos (sub_pos.2 d3) hcr
    nlinarith

/-- If no edge crosses `x`, all vertices are on one side. -/
theorem one_side {pts : List (K × K)} {x : K} (hx : ∀ i, (vertex pts i).1 ≠ x)
    (h : ∀ i < pts.length, ¬ Leftward pts x i ∧ ¬ Rightward pts x i) (hn : 0 < pts.length) :
    (∀ i, x < (vertex pts i).1) ∨ ∀ i, (vertex pts i).1 < x := by
  have h' : ∀ i, ¬ Leftward pts x i ∧ ¬ Rightward pts x i := by
    intro i
    have := h (i % pts.length) (Nat.mod_lt _ hn)
    unfold Leftward Rightward at this ⊢
    rwa [vertex_mod, ← vertex_mod pts (_ % _ + 1), Nat.mod_add_mod, vertex_mod] at this
  have step : ∀ i, ((vertex pts (i + 1)).1 < x ↔ (vertex pts i).1 < x) := by
    intro i
    obtain ⟨h1, h2⟩ := h' i
    unfold Leftward at h1
    unfold Rightward at h2
    constructor
    · intro h3
      rcases lt_or_gt_of_ne (hx i) with h4 | h4
      · exact h4
      · exact absurd ⟨h4, h3⟩ h1
    · intro h3
      rcases lt_or_gt_of_ne (hx (i + 1)) with h4 | h4
      · exact h4
      · exact absurd ⟨h3, h4⟩ h2
  have all : ∀ i, ((vertex pts i).1 < x ↔ (vertex pts 0).1 < x) := by
    intro i
    induction i with
    | zero => rfl
    | succ i ih => rw [step, ih]
  rcases lt_or_gt_of_ne (hx 0) with h0 | h0
  · exact Or.inr fun i => (all i).2 h0
  · left
    intro i
    rcases lt_or_gt_of_ne (hx i) with h4 | h4
    · exact absurd ((all i).1 h4) h0.not_gt
    · exact h4

theorem mem_vertex {pts : List (K × K)} {p : K × K} (h : p ∈ pts) : ∃ i, p = vertex pts i := by
  obtain ⟨i, hi, e⟩ := List.getElem_of_mem h
  refine ⟨i, ?_⟩
  unfold vertex
  rw [Nat.mod_eq_of_lt hi, List.getD_eq_getElem _ _ hi, e]

section

open scoped Classical

/-- The two edges of a strictly convex polygon across `x`. -/
theorem StrictConvex.two {pts : List (K × K)} (h : StrictConvex pts) {x : K} (hx : ∀ i, (vertex pts i).1 ≠ x)
    {i : ℕ} (hi : i < pts.length) (hc : Leftward pts x i ∨ Rightward pts x i) :
    ∃ u < pts.length, ∃ l < pts.length, Leftward pts x u ∧ Rightward pts x l ∧
      ∀ j < pts.length, Leftward pts x j ∨ Rightward pts x j → j = u ∨ j = l := by
  have hlr := left_eq_right pts x hx
  have hne : ((Finset.range pts.length).filter (Leftward pts x)).Nonempty ∧
      ((Finset.range pts.length).filter (Rightward pts x)).Nonempty := by
    rw [← Finset.card_pos, ← Finset.card_pos, ← hlr, and_self]
    rcases hc with hc | hc
    · exact Finset.card_pos.2 ⟨i, Finset.mem_filter.2 ⟨Finset.mem_range.2 hi, hc⟩⟩
    · rw [hlr]; exact Finset.card_pos.2 ⟨i, Finset.mem_filter.2 ⟨Finset.mem_range.2 hi, hc⟩⟩
  obtain ⟨⟨u, hu⟩, ⟨l, hl⟩⟩ := hne
  obtain ⟨hu, hul⟩ := Finset.mem_filter.1 hu
  obtain ⟨hl, hll⟩ := Finset.mem_filter.1 hl
  rw [Finset.mem_range] at hu hl
  refine ⟨u, hu, l, hl, hul, hll, ?_⟩
  intro j hj hjc
  rcases hjc with hjc | hjc
  · left
    by_contra hne
    have a := h.below_left hu hj hne hul (Or.inl hjc)
    have b := h.below_left hj hu (Ne.symm hne) hjc (Or.inl hul)
    exact lt_asymm a b
  · right
    by_contra hne
    have a := h.above_right hl hj hne hll (Or.inr hjc)
    have b := h.above_right hj hl (Ne.symm hne) hjc (Or.inr hll)
    exact lt_asymm a b

/-- `(x, z)` is strictly on the left of all edges. -/
def Interior (pts : List (K × K)) (x z : K) : Prop :=
  ∀ i < pts.length, 0 < leftOf (vertex pts i) (vertex pts (i + 1)) (x, z)

/-- `(x, z)` is strictly on the right of some edge. -/
def Exterior (pts : List (K × K)) (x z : K) : Prop :=
  ∃ i < pts.length, leftOf (vertex pts i) (vertex pts (i + 1)) (x, z) < 0

theorem StrictConvex.crossing_le {pts : List (K × K)} (h : StrictConvex pts) {x : K} {i j : ℕ} (hi : i < pts.length)
    (hj : j < pts.length) (hc : Leftward pts x j ∨ Rightward pts x j) :
    0 ≤ leftOf (vertex pts i) (vertex pts (i + 1)) (x, edgeHeight pts x j) := by
  by_cases hij : j = i
  · subst hij
    have : (vertex pts (j + 1)).1 - (vertex pts j).1 ≠ 0 := by
      rcases hc with hc | hc
      · exact (leftward_ne hc).ne
      · exact (rightward_ne hc).ne'
    rw [leftOf_height this]
    unfold edgeHeight
    rw [sub_self, mul_zero]
  · exact (h.crossing hi hj hij hc).le

/-- **C125 (partial).** For a strictly convex polygon and an `x` which is not that of a vertex and where
no thin edge is crossed, interior points are not outside and exterior points are.  Missing: the `x` of
vertices and polygons with thin edges, for which it is false (`C125_fails`). -/
theorem C125_convex_partial (pts : List (K × K)) (b : PolyBoundary K) (h : PolyBoundary.init pts = .ok b)
    (hc : StrictConvex pts) (x y z : K) (hx : ∀ i, (vertex pts i).1 ≠ x) (hw : NoThin pts x) :
    (Interior pts x z → b.outside x y z = false) ∧ (Exterior pts x z → b.outside x y z = true) := by
  have hn := hc.1
  by_cases hcr : ∃ i < pts.length, Leftward pts x i ∨ Rightward pts x i
  · obtain ⟨i, hi, hcr⟩ := hcr
    obtain ⟨u, hu, l, hl, hul, hll, huniq⟩ := hc.two hx hi hcr
    have hne : l ≠ u := by
      rintro rfl
      exact lt_asymm hul.1 hll.1
    have hlu : edgeHeight pts x l < edgeHeight pts x u := hc.below_left hu hl hne hul (Or.inr hll)
    have hcount : ∀ S : Finset ℕ, (∀ j, j ∈ S ↔ (j = u ∨ j = l) ∧ z ≤ edgeHeight pts x j) → crossings pts x z = S.card := by
      intro S hS
      unfold crossings
      congr 1
      ext j
      rw [Finset.mem_filter, Finset.mem_range, hS]
      constructor
      · rintro ⟨hj, ht⟩
        obtain ⟨ha, hb⟩ := (edgeTest_iff hx hw j).1 ht
        exact ⟨huniq j hj ha, hb⟩
      · rintro ⟨hj, hz⟩
        have hs : Leftward pts x j ∨ Rightward pts x j := by
          rcases hj with rfl | rfl
          · exact Or.inl hul
          · exact Or.inr hll
        exact ⟨by rcases hj with rfl | rfl <;> assumption, (edgeTest_iff hx hw j).2 ⟨hs, hz⟩⟩
    constructor
    · intro hint
      have a1 := hint u hu
      rw [leftOf_height (leftward_ne hul).ne] at a1
      have a2 := hint l hl
      rw [leftOf_height (rightward_ne hll).ne'] at a2
      have b1 : z < edgeHeight pts x u := sub_neg.1 ((neg_iff_neg_of_mul_pos a1).1 (leftward_ne hul))
      have b2 : edgeHeight pts x l < z := sub_pos.1 ((mul_pos_iff_of_pos_left (rightward_ne hll)).1 a2)
      rw [← Bool.not_eq_true, C63_even_odd pts b h, hcount {u}]
      · simp
      · intro j
        rw [Finset.mem_singleton]
        constructor
        · rintro rfl; exact ⟨Or.inl rfl, b1.le⟩
        · rintro ⟨rfl | rfl, hz⟩
          · rfl
          · exact absurd hz (not_le.2 b2)
    · rintro ⟨i, hi, hneg⟩
      rw [C63_even_odd pts b h]
      have l1 := hc.crossing_le hi hu (Or.inl hul)
      have l2 := hc.crossing_le hi hl (Or.inr hll)
      rcases lt_or_ge z (edgeHeight pts x l) with hz | hz
      · rw [hcount {u, l}, Finset.card_pair (Ne.symm hne)]
        · exact even_two
        · intro j
          rw [Finset.mem_insert, Finset.mem_singleton]
          constructor
          · rintro (rfl | rfl)
            · exact ⟨Or.inl rfl, (hz.trans hlu).le⟩
            · exact ⟨Or.inr rfl, hz.le⟩
          · exact fun h => h.1
      · rcases lt_or_ge (edgeHeight pts x u) z with hz' | hz'
        · rw [hcount ∅]
          · exact Even.zero
          · intro j
            simp only [Finset.notMem_empty, false_iff]
            rintro ⟨rfl | rfl, h2⟩
            · exact absurd h2 (not_le.2 hz')
            · exact absurd h2 (not_le.2 (hlu.trans hz'))
        · exfalso
          unfold leftOf at hneg l1 l2
          dsimp only at hneg l1 l2
          rcases le_total 0 ((vertex pts (i + 1)).1 - (vertex pts i).1) with hs | hs
          · have := mul_nonneg hs (sub_nonneg.2 hz); nlinarith
          · have := mul_nonneg (neg_nonneg.2 hs) (sub_nonneg.2 hz'); nlinarith
  · push Not at hcr
    have hs := one_side hx hcr (by omega)
    refine ⟨fun hint => ?_, fun _ => ?_⟩
    · obtain ⟨i, hi, hle⟩ := hc.beside (z := z) hs
      exact absurd (hint i hi) (not_lt.2 hle)
    · refine C63_beyond pts b h x y z ?_
      rcases hs with hs | hs
      · left
        intro p hp
        obtain ⟨i, rfl⟩ := mem_vertex hp
        exact hs i
      · right; left
        intro p hp
        obtain ⟨i, rfl⟩ := mem_vertex hp
        exact hs i

end

/-- What the code should do for convex polygons. -/
def ConvexExact (K : Type) [Field K] [LinearOrder K] : Prop :=
  ∀ (pts : List (K × K)) (b : PolyBoundary K), PolyBoundary.init pts = .ok b → StrictConvex pts → ∀ x y z : K,
    (Interior pts x z → b.outside x y z = false) ∧ (Exterior pts x z → b.outside x y z = true)

/-- **C125 (refutation).** The centre of a square that stands on a corner is reported as outside. -/
theorem C125_fails : ¬ ConvexExact ℚ := by
  intro h
  have := (h [(1, 0), (0, 1), (-1, 0), (0, -1)] ⟨2, [(1, 0), (0, 1), (-1, 0), (0, -1)]⟩ (by norm_num [PolyBoundary.init])
    ⟨by decide, by decide +kernel⟩ 0 0 0).1 (by unfold Interior; decide +kernel)
  revert this
  decide +kernel

/-- The same square beside its corners. -/
example : StrictConvex ([(1, 0), (0, 1), (-1, 0), (0, -1)] : List (ℚ × ℚ)) ∧
    Interior ([(1, 0), (0, 1), (-1, 0), (0, -1)] : List (ℚ × ℚ)) (1 / 4) (1 / 4) ∧
    Exterior ([(1, 0), (0, 1), (-1, 0), (0, -1)] : List (ℚ × ℚ)) (1 / 4) (-1) := by
  refine ⟨⟨by decide, by decide +kernel⟩, by unfold Interior; decide +kernel, by unfold Exterior; decide +kernel⟩

/-! ## C126 -/

/-- The corners of a box. -/
def boxPts (r : RectBoundary K) : List (K × K) :=
  [(r.xmin, r.zmin), (r.xmax, r.zmin), (r.xmax, r.zmax), (r.xmin, r.zmax)]

/-- What the polygon of the four corners of a box at least `1e-6` wide reports: the lower side is outside, the other sides inside. -/
theorem box_poly (r : RectBoundary K) (b : PolyBoundary K) (h : PolyBoundary.init (boxPts r) = .ok b)
    (hx : 1 / 1000000 ≤ r.xmax - r.xmin) (hz : r.zmin < r.zmax) (x y z : K) :
    b.outside x y z = true ↔ ¬ ((r.xmin ≤ x ∧ x ≤ r.xmax) ∧ r.zmin < z ∧ z ≤ r.zmax) := by
  obtain ⟨h1, h2, h3⟩ := init_zout h
  have hp : (0 : K) < 1 / 1000000 := by positivity
  have hxx : r.xmin < r.xmax := by linarith
  have hw1 : Wide (r.xmin, r.zmin) (r.xmax, r.zmin) := by unfold Wide; rw [abs_of_pos (by simpa using hxx)]; exact hx
  have hw3 : Wide (r.xmax, r.zmax) (r.xmin, r.zmax) := by
    unfold Wide; rw [abs_of_neg (by simpa using hxx)]; simpa using hx
  have m : ∀ (zc p q : K), p ≠ q → (MeetsRay x z (p, zc) (q, zc) ↔ (min p q ≤ x ∧ x ≤ max p q) ∧ z ≤ zc) := by
    intro zc p q hpq
    constructor
    · rintro ⟨c, c0, c1, hx, hz⟩
      dsimp only at hx hz
      rw [sub_self, mul_zero, add_zero] at hz
      refine ⟨?_, hz⟩
      rcases le_total p q with hle | hle
      · rw [min_eq_left hle, max_eq_right hle, hx]
        have := mul_nonneg c0 (sub_nonneg.2 hle)
        have := mul_nonneg (sub_nonneg.2 c1) (sub_nonneg.2 hle)
        constructor <;> nlinarith
      · rw [min_eq_right hle, max_eq_left hle, hx]
        have := mul_nonneg c0 (sub_nonneg.2 hle)
        have := mul_nonneg (sub_nonneg.2 c1) (sub_nonneg.2 hle)
        constructor <;> nlinarith
    · rintro ⟨⟨ha, hb⟩, hz⟩
      have hd : q - p ≠ 0 := sub_ne_zero.2 (Ne.symm hpq)
      refine ⟨(x - p) / (q - p), ?_, ?_, ?_, ?_⟩
      · rcases le_total p q with hle | hle
        · rw [min_eq_left hle] at ha; exact div_nonneg (by linarith) (by linarith)
        · rw [max_eq_left hle] at hb; exact div_nonneg_of_nonpos (by linarith) (by linarith)
      · rcases lt_or_gt_of_ne hpq with hle | hle
        · rw [max_eq_right hle.le] at hb; exact (div_le_one (by linarith)).2 (by linarith)
        · rw [min_eq_right hle.le] at ha; exact (div_le_one_of_neg (by linarith)).2 (by linarith)
      · dsimp only; field_simp; ring
      · dsimp only; rw [sub_self, mul_zero, add_zero]; exact hz
  have q0 := h3 (r.xmin, r.zmin) (by simp [boxPts])
  have q1 := h3 (r.xmax, r.zmin) (by simp [boxPts])
  have q2 := h3 (r.xmax, r.zmax) (by simp [boxPts])
  have q3 := h3 (r.xmin, r.zmax) (by simp [boxPts])
  have e1 := (polyHit_iff (x := x) (z := z) q0 q1).trans (by rw [m _ _ _ hxx.ne, min_eq_left hxx.le, max_eq_right hxx.le])
  have e3 := (polyHit_iff (x := x) (z := z) q2 q3).trans (by rw [m _ _ _ hxx.ne', min_eq_right hxx.le, max_eq_left hxx.le])
  have e2 : polyHit b.zout x z (r.xmax, r.zmin) (r.xmax, r.zmax) = false := by
    unfold polyHit; simp
  have e4 : polyHit b.zout x z (r.xmin, r.zmax) (r.xmin, r.zmin) = false := by
    unfold polyHit; simp
  simp only [hw1, hw3, true_and] at e1 e3
  have eo : b.outside x y z = xor (xor true (polyHit b.zout x z (r.xmin, r.zmin) (r.xmax, r.zmin)))
      (polyHit b.zout x z (r.xmax, r.zmax) (r.xmin, r.zmax)) := by
    unfold PolyBoundary.outside
    rw [h1]
    simp [boxPts, List.range_succ, e2, e4]
  rw [eo]
  by_cases a : r.xmin ≤ x ∧ x ≤ r.xmax
  · simp only [a, true_and, and_self] at e1 e3 ⊢
    rcases le_or_gt z r.zmin with hl | hl
    · rw [e1.2 hl, e3.2 (by linarith)]
      simp [hl.not_gt]
    · have f1 : polyHit b.zout x z (r.xmin, r.zmin) (r.xmax, r.zmin) = false := by
        rw [← Bool.not_eq_true, e1]; exact not_le.2 hl
      rw [f1]
      by_cases hu : z ≤ r.zmax
      · rw [e3.2 hu]; simp [hl, hu]
      · have f3 : polyHit b.zout x z (r.xmax, r.zmax) (r.xmin, r.zmax) = false := by
          rw [← Bool.not_eq_true, e3]; exact hu
        rw [f3]; simp [hu]
  · have f1 : polyHit b.zout x z (r.xmin, r.zmin) (r.xmax, r.zmin) = false := by
      rw [← Bool.not_eq_true, e1]; tauto
    have f3 : polyHit b.zout x z (r.xmax, r.zmax) (r.xmin, r.zmax) = false := by
      rw [← Bool.not_eq_true, e3]; tauto
    rw [f1, f3]
    simp only [Bool.xor_false, true_iff]
    tauto

/-- **C126.** For a box that is at least `1e-6` wide the polygon of its corners and the box disagree exactly about the points of the lower side. -/
theorem C126_iff (r : RectBoundary K) (b : PolyBoundary K) (h : PolyBoundary.init (boxPts r) = .ok b)
    (hx : 1 / 1000000 ≤ r.xmax - r.xmin) (hz : r.zmin < r.zmax) (x y z : K) :
    b.outside x y z = r.outside x y z ↔ ¬ (z = r.zmin ∧ r.xmin ≤ x ∧ x ≤ r.xmax) := by
  rw [Bool.eq_iff_iff, C62_box, box_poly r b h hx hz]
  constructor
  · rintro h1 ⟨rfl, h2, h3⟩
    have : ¬ (r.xmin ≤ x ∧ x ≤ r.xmax ∧ r.zmin ≤ r.zmin ∧ r.zmin ≤ r.zmax) := by
      have := h1.1 (fun h => lt_irrefl _ h.2.1)
      tauto
    exact this ⟨h2, h3, le_rfl, hz.le⟩
  · intro h1
    have h2 : (r.xmin ≤ x ∧ x ≤ r.xmax) → (r.zmin < z ↔ r.zmin ≤ z) := by
      rintro h2
      refine ⟨le_of_lt, fun h3 => lt_of_le_of_ne h3 ?_⟩
      rintro rfl
      exact h1 ⟨rfl, h2⟩
    tauto

/-- **C126 (partial).** The polygon of the four corners of a box at least `1e-6` wide and the box report the
same points outside, except at the height of the lower side.  Missing: that height, where the polygon
reports the points of the side as outside (`C126_fails`, `C126_iff`). -/
theorem C126_box_partial (r : RectBoundary K) (b : PolyBoundary K) (h : PolyBoundary.init (boxPts r) = .ok b)
    (hx : 1 / 1000000 ≤ r.xmax - r.xmin) (hz : r.zmin < r.zmax) (x y z : K) (hzl : z ≠ r.zmin) :
    b.outside x y z = r.outside x y z :=
  (C126_iff r b h hx hz x y z).2 fun h => hzl h.1

/-- **C126.** The polygon of a box narrower than `1e-6` has every point outside. -/
theorem C126_narrow (r : RectBoundary K) (b : PolyBoundary K) (h : PolyBoundary.init (boxPts r) = .ok b)
    (hx : |r.xmax - r.xmin| < 1 / 1000000) (x y z : K) : b.outside x y z = true := by
  obtain ⟨h1, h2, h3⟩ := init_zout h
  have q0 := h3 (r.xmin, r.zmin) (by simp [boxPts])
  have q1 := h3 (r.xmax, r.zmin) (by simp [boxPts])
  have q2 := h3 (r.xmax, r.zmax) (by simp [boxPts])
  have q3 := h3 (r.xmin, r.zmax) (by simp [boxPts])
  have e1 : polyHit b.zout x z (r.xmin, r.zmin) (r.xmax, r.zmin) = false := by
    rw [← Bool.not_eq_true, polyHit_iff q0 q1]
    rintro ⟨hw, -⟩
    unfold Wide at hw
    dsimp only at hw
    linarith
  have e3 : polyHit b.zout x z (r.xmax, r.zmax) (r.xmin, r.zmax) = false := by
    rw [← Bool.not_eq_true, polyHit_iff q2 q3]
    rintro ⟨hw, -⟩
    unfold Wide at hw
    dsimp only at hw
    rw [abs_sub_comm] at hw
    linarith
  have e2 : polyHit b.zout x z (r.xmax, r.zmin) (r.xmax, r.zmax) = false := by
    unfold polyHit; simp
  have e4 : polyHit b.zout x z (r.xmin, r.zmax) (r.xmin, r.zmin) = false := by
    unfold polyHit; simp
  unfold PolyBoundary.outside
  rw [h1]
  simp [boxPts, List.range_succ, e1, e2, e3, e4]

/-- The polygon of a box and the box report the same points. -/
def BoxAgrees (K : Type) [Field K] [LinearOrder K] : Prop :=
  ∀ (r : RectBoundary K) (b : PolyBoundary K), PolyBoundary.init (boxPts r) = .ok b → r.xmin < r.xmax → r.zmin < r.zmax →
    ∀ x y z : K, b.outside x y z = r.outside x y z

/-- **C126 (refutation).** The points of the lower side are outside the polygon, and not outside the box. -/
theorem C126_fails : ¬ BoxAgrees ℚ := by
  intro h
  have := h ⟨0, 1, 0, 1⟩ ⟨2, boxPts ⟨0, 1, 0, 1⟩⟩ (by norm_num [PolyBoundary.init, boxPts]) (by norm_num) (by norm_num) (1 / 2) 0 0
  revert this
  decide +kernel

/-- **C126 (refutation).** A polygon narrower than `1e-6` has everything outside. -/
theorem C126_fails_narrow : ∃ (r : RectBoundary ℚ) (b : PolyBoundary ℚ), PolyBoundary.init (boxPts r) = .ok b ∧
    r.xmin < r.xmax ∧ r.zmin < r.zmax ∧ ∃ x, r.outside x 0 (1 / 2) = false ∧ ∀ x y z, b.outside x y z = true := by
  refine ⟨⟨0, 1 / 2000000, 0, 1⟩, ⟨2, boxPts ⟨0, 1 / 2000000, 0, 1⟩⟩, by norm_num [PolyBoundary.init, boxPts], by norm_num, by norm_num,
    1 / 4000000, by decide +kernel, ?_⟩
  intro x y z
  unfold PolyBoundary.outside
  have t : |(1 / 2000000 : ℚ)| < 1 / 1000000 := by rw [abs_of_pos (by norm_num)]; norm_num
  have t' : |(-(1 / 2000000) : ℚ)| < 1 / 1000000 := by rw [abs_neg]; exact t
  norm_num [boxPts, List.range_succ, polyHit, abs_of_pos]

/-- A box. -/
example : (PolyBoundary.init (boxPts (⟨0, 1, 0, 1⟩ : RectBoundary ℚ))).toBool = true := by decide +kernel

end Zoidberg
