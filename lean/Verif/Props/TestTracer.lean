import Verif.Model.TestTracer
import Verif.Props.ReversibleOrder
import Verif.Props.Field
import Verif.Props.Tighten3
import Verif.Props.Exact3
import Mathlib.Tactic.Positivity
import Mathlib.Tactic.FieldSimp

/-!
# C291: the tracers in slabs, and their tests; the reversible tracer with the fields of the library
-/

set_option linter.unusedSectionVars false

namespace Zoidberg

section
variable {K : Type} [Field K] [LinearOrder K] [IsStrictOrderedRing K]

/-- `field_direction` of a field as it is called by `FieldTracerReversible`. -/
def FieldFns.dir (F : FieldFns K) (p : List (K × K)) (y : K) : Except Err (List (K × K)) := F.slopes y p

/-- A field that is strong enough along `y` everywhere has the direction that `C70`, `C243`, `C244` and
`C259` ask for. -/
theorem C243_field (F : FieldFns K) (h : ∀ x z y, 1 / 100000000 ≤ |F.By x z y|) : Pointwise F.dir fun q y => F.slope y q := by
  intro p y hp
  unfold FieldFns.dir FieldFns.slopes
  rw [if_neg hp, if_neg]
  rw [Bool.not_eq_true, List.any_eq_false]
  intro q _
  simpa using h q.1 q.2 y

/-- Along a line at constant `x`. -/
def slabMove (s : K → K) (h : K) (q : K × K) : K × K := (q.1, q.2 + s q.1 * h)

theorem slabMove_add (s : K → K) (h k : K) (q : K × K) : slabMove s k (slabMove s h q) = slabMove s (h + k) q := by
  unfold slabMove
  simp only [Prod.mk.injEq, true_and]
  ring

variable (s : K → K) {dir : List (K × K) → K → Except Err (List (K × K))} (hdir : Pointwise dir fun q _ => (0, s q.1))

include hdir

/-- One sub-step. -/
theorem revStep_along {rtol eps : K} (hr : 0 < rtol) (he : eps ≠ 0) (fuel : ℕ) (h : K) (p : List (K × K)) (y : K) (hp : p ≠ []) :
    revStep false revGood dir rtol eps (fuel + 1) h p y = .ok (p.map (slabMove s h)) := by
  rw [revStep_eq hdir _ _ _ _ _ _ hp]
  rw [newtonLoop_succ hdir rtol eps h (y + h) _ fuel (by unfold stepPts; simpa using hp) (fun _ => (0, 0))]
  · rw [if_pos (by intro _ _; simpa using hr)]
    unfold stepPts
    rw [List.map_map]
    congr 1
    apply List.map_congr_left
    intro q _
    simp [slabMove]
  · intro t ht
    unfold stepPts at ht
    obtain ⟨q, -, rfl⟩ := List.mem_map.1 ht
    unfold deltaAt newtonDelta
    simp only [sub_self, zero_div, mul_zero, zero_mul, add_zero, zero_sub]
    rw [if_neg (by push Not; exact ⟨he, by norm_num⟩)]
    simp only [Option.some.injEq, Prod.mk.injEq]
    constructor
    · ring
    · ring

theorem revSteps_along {rtol eps : K} (hr : 0 < rtol) (he : eps ≠ 0) (fuel : ℕ) (h : K) : ∀ (n : ℕ) (p : List (K × K)) (y : K), p ≠ [] →
    revSteps (revStep false revGood dir rtol eps (fuel + 1) h) h n p y = .ok (p.map (slabMove s (n * h)), y + n * h)
  | 0, p, y, _ => by
    have e : slabMove s 0 = id := by funext q; simp [slabMove]
    simp [revSteps, e]
  | n + 1, p, y, hp => by
    rw [revSteps, revStep_along s hdir hr he fuel h p y hp]
    simp only [Except.bind]
    rw [revSteps_along hr he fuel h n _ _ (by simpa using hp), List.map_map]
    congr 2
    · apply List.map_congr_left
      intro q _
      rw [Function.comp, slabMove_add]
      congr 1
      push_cast
      ring
    · push_cast
      ring

theorem revRows_along {rtol eps : K} (hr : 0 < rtol) (he : eps ≠ 0) (fuel : ℕ) {N : ℕ} (hN : N ≠ 0) : ∀ (ys : List K) (p : List (K × K)) (y : K), p ≠ [] →
    revRows (fun dy => revStep false revGood dir rtol eps (fuel + 1) dy) N ys p y = .ok (ys.map fun t => p.map (slabMove s (t - y)))
  | [], p, y, _ => rfl
  | t :: ys, p, y, hp => by
    have hN' : (N : K) ≠ 0 := Nat.cast_ne_zero.2 hN
    rw [revRows]
    rw [revSteps_along s hdir hr he fuel _ N p y hp]
    simp only [Except.bind]
    have e : (N : K) * ((t - y) / N) = t - y := by field_simp
    rw [e, revRows_along hr he fuel hN ys _ _ (by simpa using hp)]
    simp only [Except.map, List.map_cons, List.map_map]
    congr 2
    apply List.map_congr_left
    intro u _
    apply List.map_congr_left
    intro q _
    rw [Function.comp, slabMove_add]
    congr 1
    ring

/-- **C291.** `FieldTracerReversible` is exact for all fields without a component along `x` whose direction depends on `x` only, whatever the
tolerance, the number of sub-steps and the distance for the finite differences: scalars and arrays, for any values of `y`. -/
theorem C291_reversible (rtol eps : K) (hr : 0 < rtol) (he : eps ≠ 0) (N : ℕ) (hN : N ≠ 0) (fuel : ℕ) (x z y : FArr K) (hx : x.Ok) (hz : z.Ok) (hy : y.Ok)
    (h : ValidInput x z y) (hs : ¬ OddScalar x z) (hne : (commonShape x z).prod ≠ 0) (gx gz : Given) (hgx : Floats gx) (hgz : Floats gz) :
    ∃ r, followReversible dir rtol eps N (fuel + 1) x z y gx gz false = .ok r ∧ r.result.Ok ∧
      r.result.shape = y.shape ++ commonShape x z ++ [2] ∧
      ∀ i < y.data.length, ∀ j < (commonShape x z).prod,
        r.result.data.getD (2 * (i * (commonShape x z).prod + j)) 0 = (startPoint x z j).1 ∧
        r.result.data.getD (2 * (i * (commonShape x z).prod + j) + 1) 0 =
          (startPoint x z j).2 + s (startPoint x z j).1 * (y.data.getD i 0 - y.data.getD 0 0) := by
  obtain ⟨x', z', hck, hsh, hodd, hxl, hzl, hst⟩ := checkInputs_valid hx hz h
  obtain ⟨⟨m, hm2, hym⟩, -⟩ := h
  have hyl : y.data.length = m := by rw [hy, hym]; simp
  set n := (commonShape x z).prod with hn
  have hpe : x'.data.zip z'.data = (List.range n).map (startPoint x z) := by
    apply List.ext_getElem
    · simp [hxl, hzl]
    · intro i h1 h2
      have hi : i < n := by simpa using h2
      have := hst i hi
      rw [List.getD_eq_getElem _ _ (by omega), List.getD_eq_getElem _ _ (by omega)] at this
      simp [this]
  have hp : x'.data.zip z'.data ≠ [] := by
    rw [hpe]
    simpa using hne
  unfold followReversible
  rw [hck]
  simp only [Except.bind]
  have hbad : (⟨gx.isInt && !xSpread x z, gz.isInt && !zSpread x z, decide (x'.shape.length ≤ 1) && decide (z'.shape.length > 1)⟩ : RevBad) = revGood := by
    unfold Floats at hgx hgz
    unfold revGood
    rw [hgx, hgz]
    simp only [Bool.false_and, RevBad.mk.injEq, true_and]
    rw [Bool.eq_false_iff, ne_eq, Bool.and_eq_true, decide_eq_true_eq, decide_eq_true_eq]
    exact fun h0 => hs (hodd.1 h0)
  rw [hbad, revRows_along s hdir hr he fuel hN _ _ _ hp]
  refine ⟨_, rfl, ?_⟩
  dsimp only
  have hrows : x'.data.zip z'.data :: y.data.tail.map (fun t => (x'.data.zip z'.data).map (slabMove s (t - y.data.getD 0 0))) =
      (List.range m).map fun i => (x'.data.zip z'.data).map (slabMove s (y.data.getD i 0 - y.data.getD 0 0)) := by
    rw [← hyl]
    cases hd : y.data with
    | nil => rw [hd] at hyl; simp at hyl; omega
    | cons a l =>
      rw [List.length_cons, List.range_succ_eq_map]
      simp only [List.tail_cons, List.map_cons, List.getD_cons_zero, sub_self, List.map_map]
      congr 1
      · conv_lhs => rw [← List.map_id (x'.data.zip z'.data)]
        apply List.map_congr_left
        intro q _
        simp [slabMove]
      · apply List.ext_getElem
        · simp
        · intro i h1 h2
          have hi : i < l.length := by simpa using h1
          simp [hi]
  rw [hrows, hpe, hsh]
  have hfm : ((List.range m).map fun i => ((List.range n).map (startPoint x z)).map (slabMove s (y.data.getD i 0 - y.data.getD 0 0))).flatMap interleave =
      ((List.range m).map fun i => interleave (((List.range n).map (startPoint x z)).map (slabMove s (y.data.getD i 0 - y.data.getD 0 0)))).flatten := by
    rw [List.flatMap_def, List.map_map]
    rfl
  rw [hfm]
  have hlen : ∀ i, (interleave (((List.range n).map (startPoint x z)).map (slabMove s (y.data.getD i 0 - y.data.getD 0 0)))).length = 2 * n := by
    intro i; rw [interleave_length]; simp
  refine ⟨?_, rfl, ?_⟩
  · unfold FArr.Ok
    rw [flatten_length _ _ hlen, List.prod_append, List.prod_append, hym]
    simp [← hn]
    ring
  · intro i hi j hj
    rw [hyl] at hi
    have e : ∀ c, 2 * (i * n + j) + c = i * (2 * n) + (2 * j + c) := by intro c; ring
    have g := interleave_getD (0 : K) (((List.range n).map (startPoint x z)).map (slabMove s (y.data.getD i 0 - y.data.getD 0 0))) j (by simpa using hj)
    constructor
    · have := e 0
      rw [Nat.add_zero, Nat.add_zero] at this
      rw [this, flatten_getD 0 _ _ hlen _ _ _ hi (by omega), g.1, List.getD_eq_getElem _ _ (by simpa using hj)]
      simp [slabMove]
    · rw [e 1, flatten_getD 0 _ _ hlen _ _ _ hi (by omega), g.2, List.getD_eq_getElem _ _ (by simpa using hj)]
      simp [slabMove]

omit hdir

/-- The directions in a `Slab`. -/
theorem slab_dir (By Bz xc Bp : K) (hB : 1 / 100000000 ≤ |By|) : Pointwise (slab By Bz xc Bp).dir fun q _ => (0, (Bz + (q.1 - xc) * Bp) / By) := by
  intro p y hp
  rw [C243_field _ (fun _ _ _ => hB) p y hp]
  congr 1
  apply List.map_congr_left
  intro q _
  simp only [FieldFns.slope, slab, FieldFns.Rmaj, mul_zero, Prod.mk.injEq, true_and]
  ring

/-- The directions in a `CurvedSlab`. -/
theorem curved_dir (By Bz xc Bp R : K) (hB : 1 / 100000000 ≤ |By|) :
    Pointwise (curvedSlab By Bz xc Bp R).dir fun q _ => (0, R * (Bz + (q.1 - xc) * Bp) / By) := by
  intro p y hp
  rw [C243_field _ (fun _ _ _ => hB) p y hp]
  congr 1
  apply List.map_congr_left
  intro q _
  simp only [FieldFns.slope, curvedSlab, FieldFns.Rmaj, mul_zero, Prod.mk.injEq, true_and]
  ring

/-- **C291** for `Slab`. -/
theorem C291_slab (By Bz xc Bp : K) (hB : 1 / 100000000 ≤ |By|) (rtol eps : K) (hr : 0 < rtol) (he : eps ≠ 0) (N : ℕ) (hN : N ≠ 0) (fuel : ℕ) (x z y : FArr K)
    (hx : x.Ok) (hz : z.Ok) (hy : y.Ok) (h : ValidInput x z y) (hs : ¬ OddScalar x z) (hne : (commonShape x z).prod ≠ 0) (gx gz : Given) (hgx : Floats gx)
    (hgz : Floats gz) :
    ∃ r, followReversible (slab By Bz xc Bp).dir rtol eps N (fuel + 1) x z y gx gz false = .ok r ∧ r.result.Ok ∧
      r.result.shape = y.shape ++ commonShape x z ++ [2] ∧
      ∀ i < y.data.length, ∀ j < (commonShape x z).prod,
        r.result.data.getD (2 * (i * (commonShape x z).prod + j)) 0 = (startPoint x z j).1 ∧
        r.result.data.getD (2 * (i * (commonShape x z).prod + j) + 1) 0 =
          (startPoint x z j).2 + (Bz + ((startPoint x z j).1 - xc) * Bp) / By * (y.data.getD i 0 - y.data.getD 0 0) :=
  C291_reversible (fun t => (Bz + (t - xc) * Bp) / By) (slab_dir By Bz xc Bp hB) rtol eps hr he N hN fuel x z y hx hz hy h hs hne gx gz hgx hgz

/-- **C291** for `CurvedSlab`. -/
theorem C291_curved (By Bz xc Bp R : K) (hB : 1 / 100000000 ≤ |By|) (rtol eps : K) (hr : 0 < rtol) (he : eps ≠ 0) (N : ℕ) (hN : N ≠ 0) (fuel : ℕ) (x z y : FArr K)
    (hx : x.Ok) (hz : z.Ok) (hy : y.Ok) (h : ValidInput x z y) (hs : ¬ OddScalar x z) (hne : (commonShape x z).prod ≠ 0) (gx gz : Given) (hgx : Floats gx)
    (hgz : Floats gz) :
    ∃ r, followReversible (curvedSlab By Bz xc Bp R).dir rtol eps N (fuel + 1) x z y gx gz false = .ok r ∧ r.result.Ok ∧
      r.result.shape = y.shape ++ commonShape x z ++ [2] ∧
      ∀ i < y.data.length, ∀ j < (commonShape x z).prod,
        r.result.data.getD (2 * (i * (commonShape x z).prod + j)) 0 = (startPoint x z j).1 ∧
        r.result.data.getD (2 * (i * (commonShape x z).prod + j) + 1) 0 =
          (startPoint x z j).2 + R * (Bz + ((startPoint x z j).1 - xc) * Bp) / By * (y.data.getD i 0 - y.data.getD 0 0) :=
  C291_reversible (fun t => R * (Bz + (t - xc) * Bp) / By) (curved_dir By Bz xc Bp R hB) rtol eps hr he N hN fuel x z y hx hz hy h hs hne gx gz hgx hgz

/-- An integrator that is exact along lines at constant `x` with slope `s`. -/
def ExactAlong (ode : List K → List K → Except Err (List (List K))) (s : K → K) : Prop :=
  LineWise ode fun q ys i => slabMove s (ys.getD i 0 - ys.getD 0 0) q

/-- **C291.** `trace_poincare` with an exact integrator: the points of revolution `r` on slice `p` are at `y_slices[p] + r * yperiod`. -/
theorem C291_poincare [FloorRing K] (s : K → K) (ode : List K → List K → Except Err (List (List K))) (ho : ExactAlong ode s) (x z : FArr K) (hx : x.Ok) (hz : z.Ok)
    (hshape : shape1 x = shape1 z) (T : K) (nplot : Option ℕ) (slices : Option (List K)) (revs nover : ℕ) (res : List (List (List K))) (sl : List K)
    (h : tracePoincare (poincareFollow ode x z) T nplot slices revs nover = .ok (res, sl)) :
    ∀ r < revs, ∀ p < sl.length, ∀ j < (commonShape x z).prod,
      ((res.getD r []).getD p []).getD (2 * j) 0 = (startPoint x z j).1 ∧
      ((res.getD r []).getD p []).getD (2 * j + 1) 0 =
        (startPoint x z j).2 + s (startPoint x z j).1 * (sl.getD p 0 + r * T - sl.getD 0 0) := by
  obtain ⟨ys, -, hys⟩ := C72_lines ode _ ho x z hx hz hshape T nplot slices revs nover res sl h
  intro r hr p hp j hj
  obtain ⟨h1, -, h2⟩ := hys r hr p hp
  obtain ⟨h3, h4⟩ := h2 j hj
  obtain ⟨h5, -, -⟩ := hys 0 (by omega) 0 (by omega)
  simp only [Nat.cast_zero, zero_mul, add_zero] at h5
  have e1 : ys.getD ((r * sl.length + p) * nover) 0 = sl.getD p 0 + r * T := by rw [List.getD_eq_getElem?_getD, h1]; rfl
  have e0 : ys.getD 0 0 = sl.getD 0 0 := by rw [List.getD_eq_getElem?_getD, h5]; rfl
  rw [h3, h4, e1, e0]
  exact ⟨rfl, rfl⟩

end

section
variable {K : Type} [Field K] [LinearOrder K] [IsStrictOrderedRing K] [FloorRing K]

/-- What the tests ask of a tracer: two calls. -/
structure ExactCalls (follow : FArr K → FArr K → FArr K → Except Err (FArr K)) (k : K) : Prop where
  ok : ∀ x z y, x.Ok → z.Ok → y.Ok → ValidInput x z y → ¬ OddScalar x z → (commonShape x z).prod ≠ 0 →
    ∃ r, follow x z y = .ok r ∧ r.shape = y.shape ++ commonShape x z ++ [2] ∧
      ∀ i < y.data.length, ∀ j < (commonShape x z).prod,
        r.data.getD (2 * (i * (commonShape x z).prod + j)) 0 = (startPoint x z j).1 ∧
        r.data.getD (2 * (i * (commonShape x z).prod + j) + 1) 0 = (startPoint x z j).2 + k * (y.data.getD i 0 - y.data.getD 0 0)

theorem tracer_isClose_self (a : K) : isClose a a := by
  unfold isClose
  rw [sub_self, abs_zero]
  positivity

/-- **C291.** The tests pass for every tracer that is exact. -/
theorem C291_test (follow : FArr K → FArr K → FArr K → Except Err (FArr K)) (h : ExactCalls follow (1 / 5)) : tracerTest follow = .ok true := by
  have v1 : ValidInput (⟨[], [1 / 5]⟩ : FArr K) ⟨[], [3 / 10]⟩ ⟨[2], [3 / 2, 5 / 2]⟩ := ⟨⟨2, le_rfl, rfl⟩, Or.inl rfl⟩
  have v2 : ValidInput (⟨[3], [1 / 5, 3 / 10, 2 / 5]⟩ : FArr K) ⟨[], [1 / 2]⟩ ⟨[2], [1, 5 / 2]⟩ := ⟨⟨2, le_rfl, rfl⟩, Or.inr (Or.inr rfl)⟩
  have s1 : commonShape (⟨[], [1 / 5]⟩ : FArr K) ⟨[], [3 / 10]⟩ = [1] := rfl
  have s2 : commonShape (⟨[3], [1 / 5, 3 / 10, 2 / 5]⟩ : FArr K) ⟨[], [1 / 2]⟩ = [3] := rfl
  obtain ⟨a, ha, hsa, hva⟩ := h.ok ⟨[], [1 / 5]⟩ ⟨[], [3 / 10]⟩ ⟨[2], [3 / 2, 5 / 2]⟩ rfl rfl rfl v1 (by simp [OddScalar, shape1]) (by rw [s1]; simp)
  obtain ⟨b, hb, hsb, hvb⟩ := h.ok ⟨[3], [1 / 5, 3 / 10, 2 / 5]⟩ ⟨[], [1 / 2]⟩ ⟨[2], [1, 5 / 2]⟩ rfl rfl rfl v2 (by simp [OddScalar, shape1]) (by rw [s2]; simp)
  rw [s1] at hsa hva
  rw [s2] at hsb hvb
  unfold tracerTest
  rw [ha, hb]
  have a0 := hva 0 (by simp) 0 (by simp)
  have a1 := hva 1 (by simp) 0 (by simp)
  have b00 := hvb 0 (by simp) 0 (by simp)
  have b01 := hvb 0 (by simp) 1 (by simp)
  have b02 := hvb 0 (by simp) 2 (by simp)
  have b10 := hvb 1 (by simp) 0 (by simp)
  have b11 := hvb 1 (by simp) 1 (by simp)
  have b12 := hvb 1 (by simp) 2 (by simp)
  simp [startPoint] at a0 a1 b00 b01 b02 b10 b11 b12
  have t1 : tracerTest1 a = true := by
    unfold tracerTest1 allCloseTo coord3
    rw [hsa]
    simp [a0, a1, tracer_isClose_self]
    have e : (3 / 10 + 5⁻¹ * (5 / 2 - 3 / 2) : K) = 3 / 10 + 10⁻¹ * 2 := by norm_num
    rw [e]
    exact tracer_isClose_self _
  have t2 : tracerTest2 b = true := by
    unfold tracerTest2 allCloseTo coord3
    rw [hsb]
    simp [b00, b01, b02, b10, b11, b12, tracer_isClose_self]
    have e : (2⁻¹ + 5⁻¹ * (5 / 2 - 1) : K) = 2⁻¹ + 3 / 2 * 10⁻¹ * 2 := by norm_num
    rw [e]
    exact tracer_isClose_self _
  simp [t1, t2, bind, Except.bind, pure, Except.pure]

/-- **C291.** `test_FieldTracerReversible_slab` passes in exact arithmetic, with any number of sub-steps. -/
theorem C291_test_reversible (rtol eps : K) (hr : 0 < rtol) (he : eps ≠ 0) (N : ℕ) (hN : N ≠ 0) (fuel : ℕ) :
    tracerTest (fun x z y => (followReversible (slab (1 / 2) (1 / 10) 0 0).dir rtol eps N (fuel + 1) x z y ⟨false, false⟩ ⟨false, false⟩ false).map
      RevResult.result) = .ok true := by
  refine C291_test _ ⟨fun x z y hx hz hy hv hs hne => ?_⟩
  obtain ⟨r, h1, -, h2, h3⟩ := C291_slab (1 / 2 : K) (1 / 10) 0 0 (by rw [abs_of_pos (by norm_num)]; norm_num) rtol eps hr he N hN fuel x z y hx hz hy hv hs hne
    ⟨false, false⟩ ⟨false, false⟩ rfl rfl
  refine ⟨r.result, by rw [h1]; rfl, h2, fun i hi j hj => ?_⟩
  obtain ⟨h4, h5⟩ := h3 i hi j hj
  refine ⟨h4, ?_⟩
  rw [h5]
  norm_num

/-- **C291.** `test_slab` passes for every integrator that is exact in this slab. -/
theorem C291_test_tracer (ode : List K → List K → Except Err (List (List K))) (ho : ExactAlong ode fun t => (1 / 10 + (t - 0) * 0) / (1 / 2)) :
    tracerTest (followFieldLines ode) = .ok true := by
  refine C291_test _ ⟨fun x z y hx hz hy hv hs hne => ?_⟩
  obtain ⟨r, h1, -, h2, h3⟩ := C68_lines ode _ ho x z y hx hz hy hv hs
  refine ⟨r, h1, h2, fun i hi j hj => ?_⟩
  obtain ⟨h4, h5⟩ := h3 i hi j hj
  refine ⟨h4, ?_⟩
  rw [h5]
  simp only [slabMove]
  norm_num

/-- **C291.** `test_poincare` looks at the shapes only, and passes for every integrator that gives lines. -/
theorem C291_test_poincare (ode : List K → List K → Except Err (List (List K))) (line : K × K → List K → ℕ → K × K) (ho : LineWise ode line) :
    poincareTest ode = .ok true := by
  have hs : poincareSlices (1 : K) (some 3) none = .ok (linspaceOpen 0 1 3) := rfl
  have hl : (linspaceOpen (0 : K) 1 3).length = 3 := by simp [linspaceOpen]
  obtain ⟨⟨res, sl⟩, hr⟩ := (C72_iff ode line ho ⟨[], [0]⟩ ⟨[], [0]⟩ rfl rfl rfl 1 (some 3) none _ hs 5 1).2 ⟨le_rfl, by rw [hl]; norm_num⟩
  have hsl : sl = linspaceOpen (0 : K) 1 3 := by
    have h := hr
    unfold tracePoincare at h
    rw [hs] at h
    have hne : ¬ ((1 : ℕ) = 0 ∨ (5 : ℕ) = 0 ∨ linspaceOpen (0 : K) 1 3 = []) := by
      rintro (h | h | h)
      · omega
      · omega
      · rw [h] at hl; simp at hl
    simp only [Except.bind] at h
    rw [if_neg hne] at h
    generalize poincareFollow ode (⟨[], [0]⟩ : FArr K) ⟨[], [0]⟩ (overSample (poincareYs 1 (linspaceOpen 0 1 3) 5) 1) = e at h
    cases e with
    | error a => cases h
    | ok a =>
      simp only at h
      split_ifs at h
      injection h with h
      injection h with h1 h2
      exact h2.symm
  obtain ⟨ys, -, hys⟩ := C72_lines ode line ho ⟨[], [0]⟩ ⟨[], [0]⟩ rfl rfl rfl 1 (some 3) none 5 1 res sl hr
  have hlen : ∀ ys rows, poincareFollow ode (⟨[], [0]⟩ : FArr K) ⟨[], [0]⟩ ys = .ok rows → rows.length = ys.length := by
    intro ys rows hq
    unfold poincareFollow at hq
    cases e : followFieldLines ode (⟨[], [0]⟩ : FArr K) ⟨[], [0]⟩ ⟨[ys.length], ys⟩ with
    | error a => rw [e] at hq; cases hq
    | ok a =>
      rw [e] at hq
      injection hq with hq
      rw [← hq]
      simp
  obtain ⟨-, h1, h2, -⟩ := C72_rows _ hlen 1 (some 3) none 5 1 res sl hr
  rw [hsl, hl] at h2 hys
  unfold poincareTest
  rw [hr]
  have hall : ∀ q ∈ res, ∀ t ∈ q, t.length = 2 := by
    intro q hq t ht
    obtain ⟨i, hi, rfl⟩ := List.getElem_of_mem hq
    obtain ⟨j, hj, rfl⟩ := List.getElem_of_mem ht
    have hj3 : j < 3 := by rw [h2 _ hq] at hj; exact hj
    have := (hys i (by omega) j hj3).2.1
    rw [List.getD_eq_getElem _ _ hi, List.getD_eq_getElem _ _ hj] at this
    rw [this]
    rfl
  have e : (decide (sl.length = 3) && decide (res.length = 5) && res.all fun q => decide (q.length = sl.length) && q.all fun t => decide (t.length = 2)) = true := by
    rw [hsl, hl, h1]
    simp only [decide_true, Bool.and_self, Bool.true_and, List.all_eq_true, Bool.and_eq_true, decide_eq_true_eq]
    exact fun q hq => ⟨h2 q hq, hall q hq⟩
  simp only [bind, Except.bind, pure, Except.pure]
  exact congrArg Except.ok e

/-- An integrator that is exact in the slab of the tests. -/
def exactOde (s : K → K) (p ys : List K) : Except Err (List (List K)) :=
  .ok ((List.range ys.length).map fun i => interleave ((pairsOf p).map (slabMove s (ys.getD i 0 - ys.getD 0 0))))

theorem exactOde_exact (s : K → K) : ExactAlong (exactOde s) s := by
  intro p ys
  unfold exactOde
  rw [pairsOf_interleave]

/-- The tests with this integrator. -/
example : tracerTest (followFieldLines (exactOde fun t : ℚ => (1 / 10 + (t - 0) * 0) / (1 / 2))) = .ok true :=
  C291_test_tracer _ (exactOde_exact _)

/-- The defaults of `FieldTracerReversible`. -/
example (fuel : ℕ) : tracerTest (fun x z y => (followReversible (slab (1 / 2 : ℚ) (1 / 10) 0 0).dir (1 / 10 ^ 8) (1 / 10 ^ 5) 20 (fuel + 1) x z y
    ⟨false, false⟩ ⟨false, false⟩ false).map RevResult.result) = .ok true :=
  C291_test_reversible _ _ (by norm_num) (by norm_num) 20 (by norm_num) fuel

/-- A sheared slab, and arrays in two dimensions. -/
example : ∃ r, followReversible (slab (2 : ℚ) 1 3 4).dir (1 / 10 ^ 8) (1 / 10 ^ 5) 20 1 ⟨[2, 2], [1, 2, 3, 4]⟩ ⟨[2, 2], [5, 6, 7, 8]⟩ ⟨[3], [0, 1, 5]⟩
    ⟨true, false⟩ ⟨true, false⟩ false = .ok r ∧ r.result.data.getD 23 0 = 8 + (1 + (4 - 3) * 4) / 2 * (5 - 0) := by
  obtain ⟨r, h1, -, -, h2⟩ := C291_slab (2 : ℚ) 1 3 4 (by norm_num) (1 / 10 ^ 8) (1 / 10 ^ 5) (by norm_num) (by norm_num) 20 (by norm_num) 0
    ⟨[2, 2], [1, 2, 3, 4]⟩ ⟨[2, 2], [5, 6, 7, 8]⟩ ⟨[3], [0, 1, 5]⟩ rfl rfl rfl ⟨⟨3, by norm_num, rfl⟩, Or.inl rfl⟩ (by simp [OddScalar, shape1])
    (by simp [commonShape, shape1]) ⟨true, false⟩ ⟨true, false⟩ rfl rfl
  refine ⟨r, h1, ?_⟩
  have := (h2 2 (by simp) 3 (by simp [commonShape, shape1])).2
  simpa [commonShape, shape1, startPoint] using this

end

end Zoidberg
