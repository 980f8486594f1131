import Verif.Model.FieldMore
import Verif.Props.Grid
import Verif.Props.Dagp
import Mathlib.Tactic.FieldSimp
import Mathlib.Tactic.IntervalCases
import Mathlib.Analysis.Real.Pi.Bounds

/-!
# C178 to C188: the rest of `field.py`, the web tracer and the VTK output
-/

set_option linter.unusedSectionVars false

namespace Zoidberg

open Real

/-! ## C178, C179 -/

theorem webRZ_point (y : ℝ) (p : ℝ × ℝ) (h : 0 ≤ p.1) : webRZ (webPoint y p) = p := by
  unfold webRZ webPoint
  refine Prod.ext ?_ rfl
  simp only
  have e : (p.1 * sin y) ^ 2 + (p.1 * cos y) ^ 2 = p.1 ^ 2 := by
    have := sin_sq_add_cos_sq y
    nlinarith
  rw [e, sqrt_sq h]

theorem mapM_ok_mem {α β : Type} (f : α → Except Err β) (g : α → β) : ∀ l : List α, (∀ a ∈ l, f a = .ok (g a)) →
    l.mapM f = .ok (l.map g)
  | [], _ => rfl
  | a :: l, h => by rw [List.mapM_cons, h a (by simp), mapM_ok_mem f g l fun b hb => h b (by simp [hb])]; rfl

/-- The service works: with the direction that belongs to the sign of the angle, every line ends at the position `flow y0 dphi p`. -/
def WebWorks (isforward : Bool) (trace : Bool → ℝ → List (ℝ × ℝ × ℝ) → Except Err (List (ℝ × ℝ × ℝ)))
    (flow : ℝ → ℝ → ℝ × ℝ → ℝ × ℝ) : Prop :=
  ∀ (y0 d : ℝ) (pts : List (ℝ × ℝ)), (∀ p ∈ pts, 0 ≤ p.1) → trace (decide (d > 0) != isforward) d (pts.map (webPoint y0)) = .ok (pts.map fun p => webPoint (y0 + d) (flow y0 d p))

theorem pyXor_eq (x y : Bool) : pyXor x y = (x != y) := by cases x <;> cases y <;> rfl

/-- **C178 (partial).** If all values of `y` are on the same side of the first one then row 0 holds the starting points and row `i` the positions at `y_values[i]`.
Missing: values on both sides (`C178_fails`). -/
theorem C178_positions_partial (empty : ℕ → ℕ → ℝ × ℝ) (isforward : Bool)
    (trace : Bool → ℝ → List (ℝ × ℝ × ℝ) → Except Err (List (ℝ × ℝ × ℝ))) (flow : ℝ → ℝ → ℝ × ℝ → ℝ × ℝ)
    (ht : WebWorks isforward trace flow) (hR : ∀ y0 d p, 0 ≤ p.1 → 0 ≤ (flow y0 d p).1)
    (pts : List (ℝ × ℝ)) (hp : ∀ p ∈ pts, 0 ≤ p.1) (ys : List ℝ) (hy : 2 ≤ ys.length)
    (hs : ∀ i, 1 ≤ i → i < ys.length → (ys.getD i 0 - ys.getD 0 0 > 0 ↔ ys.getD 1 0 - ys.getD 0 0 > 0)) :
    ∃ rows, webLines empty isforward trace pts ys = .ok rows ∧ rows.length = ys.length ∧ rows.getD 0 [] = pts ∧
      ∀ i, 1 ≤ i → i < ys.length → rows.getD i [] = pts.map (flow (ys.getD 0 0) (ys.getD i 0 - ys.getD 0 0)) := by
  have h1 : (pyRange 1 ys.length).mapM (fun i => (trace (pyXor (decide (ys.getD 1 0 - ys.getD 0 0 > 0)) isforward)
      (ys.getD i 0 - ys.getD 0 0) (pts.map (webPoint (ys.getD 0 0)))).bind (webRow empty pts.length i)) =
      .ok ((pyRange 1 ys.length).map fun i => pts.map (flow (ys.getD 0 0) (ys.getD i 0 - ys.getD 0 0))) := by
    apply mapM_ok_mem
    intro i hi
    have hi : 1 ≤ i ∧ i < ys.length := by
      unfold pyRange at hi
      rw [List.mem_range'_1] at hi
      omega
    have hd : decide (ys.getD 1 0 - ys.getD 0 0 > 0) = decide (ys.getD i 0 - ys.getD 0 0 > 0) := by
      rw [decide_eq_decide]; exact (hs i hi.1 hi.2).symm
    rw [pyXor_eq, hd, ht _ _ _ hp]
    simp only [Except.bind]
    unfold webRow
    rw [if_neg (by simp)]
    congr 1
    apply List.ext_getElem
    · simp
    · intro j h1 h2
      simp only [List.length_map] at h2
      simp only [List.getElem_map, List.getElem_range]
      rw [List.getElem?_eq_getElem (by simpa using h2)]
      simp only [List.getElem_map]
      exact webRZ_point _ _ (hR _ _ _ (hp _ (List.getElem_mem _)))
  refine ⟨pts :: (pyRange 1 ys.length).map fun i => pts.map (flow (ys.getD 0 0) (ys.getD i 0 - ys.getD 0 0)), ?_, ?_, rfl, ?_⟩
  · unfold webLines
    simp only
    rw [h1]
    rfl
  · simp [pyRange]; omega
  · intro i h1 h2
    obtain ⟨k, rfl⟩ : ∃ k, i = k + 1 := ⟨i - 1, by omega⟩
    rw [List.getD_cons_succ, List.getD_eq_getElem _ _ (by simp [pyRange]; omega)]
    simp [pyRange, Nat.add_comm]

/-- What the statement says for all values of `y`. -/
def WebExact : Prop :=
  ∀ (empty : ℕ → ℕ → ℝ × ℝ) (isforward : Bool) (trace : Bool → ℝ → List (ℝ × ℝ × ℝ) → Except Err (List (ℝ × ℝ × ℝ)))
    (flow : ℝ → ℝ → ℝ × ℝ → ℝ × ℝ), WebWorks isforward trace flow → (∀ y0 d p, 0 ≤ p.1 → 0 ≤ (flow y0 d p).1) →
    ∀ (pts : List (ℝ × ℝ)), (∀ p ∈ pts, 0 ≤ p.1) → ∀ (ys : List ℝ), 2 ≤ ys.length → ∃ rows, webLines empty isforward trace pts ys = .ok rows ∧
      ∀ i, 1 ≤ i → i < ys.length → rows.getD i [] = pts.map (flow (ys.getD 0 0) (ys.getD i 0 - ys.getD 0 0))

/-- A service for lines of constant radius 1 and height 0, that refuses the wrong direction. -/
noncomputable def circleTrace (isforward inverse : Bool) (d : ℝ) (pts : List (ℝ × ℝ × ℝ)) : Except Err (List (ℝ × ℝ × ℝ)) :=
  if inverse = (decide (d > 0) != isforward) then .ok (pts.map fun v => (v.1 * cos d - v.2.1 * sin d, v.1 * sin d + v.2.1 * cos d, v.2.2))
  else .error (.runtime "wrong direction")

theorem circleTrace_works (isforward : Bool) : WebWorks isforward (circleTrace isforward) fun _ _ p => p := by
  intro y0 d pts _
  unfold circleTrace
  rw [if_pos rfl, List.map_map]
  congr 1
  apply List.map_congr_left
  intro p _
  simp only [Function.comp, webPoint, cos_add, sin_add]
  refine Prod.ext ?_ (Prod.ext ?_ rfl) <;> simp only <;> ring

/-- **C178 (refutation).** For `y = 0, 1, -1` the direction of the first step is used for the second one. -/
theorem C178_fails : ∃ trace, WebWorks true trace (fun _ _ p => p) ∧
    ∀ empty, webLines empty true trace [(1, 0)] [0, 1, -1] = .error (.runtime "wrong direction") := by
  refine ⟨circleTrace true, circleTrace_works true, ?_⟩
  intro empty
  unfold webLines
  simp only [List.getD_cons_zero, List.getD_cons_succ]
  have e1 : pyRange 1 [(0 : ℝ), 1, -1].length = [1, 2] := by decide
  rw [e1]
  have hx : pyXor (decide ((1 : ℝ) - 0 > 0)) true = false := by
    rw [pyXor_eq, decide_eq_true (by norm_num)]; rfl
  rw [hx]
  have h1 : ∀ pts, circleTrace true false ((1 : ℝ) - 0) pts =
      .ok (pts.map fun v => (v.1 * cos (1 - 0) - v.2.1 * sin (1 - 0), v.1 * sin (1 - 0) + v.2.1 * cos (1 - 0), v.2.2)) := by
    intro pts
    unfold circleTrace
    rw [decide_eq_true (show (1 : ℝ) - 0 > 0 by norm_num), if_pos (by decide)]
  have h2 : ∀ pts, circleTrace true false ((-1 : ℝ) - 0) pts = .error (.runtime "wrong direction") := by
    intro pts
    unfold circleTrace
    rw [decide_eq_false (show ¬ (-1 : ℝ) - 0 > 0 by norm_num), if_neg (by decide)]
  simp only [List.mapM_cons, List.mapM_nil, List.getD_cons_zero, List.getD_cons_succ, h1, h2]
  simp only [Except.bind, webRow, List.length_map, List.length_cons, List.length_nil]
  rfl

theorem C178_fails_statement : ¬ WebExact := by
  intro h
  obtain ⟨trace, hw, he⟩ := C178_fails
  obtain ⟨rows, hr, _⟩ := h (fun _ _ => (0, 0)) true trace (fun _ _ p => p) hw (fun _ _ _ h => h) [(1, 0)] (by simp) [0, 1, -1] (by simp)
  rw [he] at hr
  cases hr

/-- The hypotheses are met: lines of constant radius and height, and `y` at 0, 1 and 2. -/
example : WebWorks true (circleTrace true) (fun _ _ p => p) ∧ (∀ p ∈ [((1 : ℝ), (0 : ℝ)), (2, 1)], 0 ≤ p.1) ∧
    ∀ i, 1 ≤ i → i < [(0 : ℝ), 1, 2].length → ([(0 : ℝ), 1, 2].getD i 0 - [(0 : ℝ), 1, 2].getD 0 0 > 0 ↔ [(0 : ℝ), 1, 2].getD 1 0 - [(0 : ℝ), 1, 2].getD 0 0 > 0) := by
  refine ⟨circleTrace_works true, by simp, ?_⟩
  intro i h1 h2
  simp only [List.length_cons, List.length_nil] at h2
  interval_cases i <;> norm_num

theorem mapM_congr_mem {α β : Type} (f g : α → Except Err β) : ∀ l : List α, (∀ a ∈ l, f a = g a) → l.mapM f = l.mapM g
  | [], _ => rfl
  | a :: l, h => by rw [List.mapM_cons, List.mapM_cons, h a (by simp), mapM_congr_mem f g l fun b hb => h b (by simp [hb])]

/-- **C179 (partial).** If the service gives a line for every point, the result does not depend on what the memory held before.
Missing: a service that gives fewer lines (`C179_fails`). -/
theorem C179_defined_partial (e e' : ℕ → ℕ → ℝ × ℝ) (isforward : Bool)
    (trace : Bool → ℝ → List (ℝ × ℝ × ℝ) → Except Err (List (ℝ × ℝ × ℝ)))
    (h : ∀ inv d pts vs, trace inv d pts = .ok vs → pts.length ≤ vs.length) (pts : List (ℝ × ℝ)) (ys : List ℝ) :
    webLines e isforward trace pts ys = webLines e' isforward trace pts ys := by
  unfold webLines
  simp only
  congr 1
  apply mapM_congr_mem
  intro i _
  cases ht : trace (pyXor (decide (ys.getD 1 0 - ys.getD 0 0 > 0)) isforward) (ys.getD i 0 - ys.getD 0 0) (pts.map (webPoint (ys.getD 0 0))) with
  | error e => rfl
  | ok vs =>
    have hl := h _ _ _ _ ht
    rw [List.length_map] at hl
    simp only [Except.bind, webRow]
    split_ifs with hn
    · rfl
    · congr 1
      apply List.map_congr_left
      intro j hj
      rw [List.getElem?_eq_getElem (by have := List.mem_range.1 hj; omega)]

/-- **C179.** More lines than points are refused. -/
theorem C179_more (e : ℕ → ℕ → ℝ × ℝ) (n i : ℕ) (vs : List (ℝ × ℝ × ℝ)) (h : n < vs.length) :
    webRow e n i vs = .error (.index "index is out of bounds for axis 1") := if_pos h

/-- What the statement says for every service. -/
def WebDefined : Prop :=
  ∀ (e e' : ℕ → ℕ → ℝ × ℝ) (isforward : Bool) (trace : Bool → ℝ → List (ℝ × ℝ × ℝ) → Except Err (List (ℝ × ℝ × ℝ))) (pts : List (ℝ × ℝ)) (ys : List ℝ),
    webLines e isforward trace pts ys = webLines e' isforward trace pts ys

/-- **C179 (refutation).** If a line is missing in the answer then the result is whatever the memory held. -/
theorem C179_fails : ¬ WebDefined := by
  intro h
  have h := h (fun _ _ => (0, 0)) (fun _ _ => (1, 1)) true (fun _ _ _ => .ok []) [(1, 0)] [0, 1]
  have he : ∀ e : ℕ → ℕ → ℝ × ℝ, webLines e true (fun _ _ _ => .ok []) [(1, 0)] [0, 1] = .ok [[(1, 0)], [e 1 0]] := fun _ => rfl
  rw [he, he] at h
  simp at h

example (p : ℝ × ℝ) : ∃ trace : Bool → ℝ → List (ℝ × ℝ × ℝ) → Except Err (List (ℝ × ℝ × ℝ)),
    (∀ inv d pts vs, trace inv d pts = .ok vs → pts.length ≤ vs.length) ∧ trace true 0 [(p.1, p.2, 0)] = .ok [(p.1, p.2, 0)] :=
  ⟨fun _ _ pts => .ok pts, fun _ _ _ _ h => by cases h; rfl, rfl⟩

/-! ## C180 -/

theorem axisAngle_point (phi R Z : ℝ) (hR : 0 < R) (h1 : -(π / 2) < phi) (h2 : phi < π / 2) : axisAngle (webPoint phi (R, Z)) = some phi := by
  have hc : 0 < cos phi := cos_pos_of_mem_Ioo ⟨h1, h2⟩
  unfold axisAngle webPoint
  simp only
  rw [if_neg (by positivity), mul_div_mul_left _ _ hR.ne', ← tan_eq_sin_div_cos, arctan_tan h1 h2]

theorem magneticAxis_ok (vs : List (ℝ × ℝ × ℝ)) (phi : ℝ) (r : ℝ × ℝ) (h : magneticAxis vs phi = .ok r) :
    ∃ v ∈ vs, axisNear phi v ∧ r = (sqrt (v.1 ^ 2 + v.2.1 ^ 2), v.2.2) := by
  unfold magneticAxis at h
  split at h
  · cases h
  · rename_i v hv
    cases h
    exact ⟨v, List.mem_of_find?_eq_some hv, by have := List.find?_some hv; simpa using this, rfl⟩

theorem magneticAxis_error (vs : List (ℝ × ℝ × ℝ)) (phi : ℝ) (h : ∀ v ∈ vs, ¬ axisNear phi v) :
    magneticAxis vs phi = .error (.index "index 0 is out of bounds for axis 1 with size 0") := by
  unfold magneticAxis
  rw [List.find?_eq_none.2 (by intro v hv; simpa using h v hv)]

/-- **C180 (partial).** For vertices at angles between `-π/2` and `π/2`: what is returned are `R` and `Z` of a vertex whose toroidal angle is within 3 % of the one asked for.
Missing: vertices on the other side of the torus (`C180_fails`). -/
theorem C180_angle_partial (ps : List (ℝ × ℝ × ℝ)) (hp : ∀ p ∈ ps, 0 < p.2.1 ∧ -(π / 2) < p.1 ∧ p.1 < π / 2) (phi : ℝ) (r : ℝ × ℝ)
    (h : magneticAxis (ps.map fun p => webPoint p.1 p.2) phi = .ok r) :
    ∃ p ∈ ps, r = p.2 ∧ 97 / 100 * phi ≤ p.1 ∧ p.1 ≤ 103 / 100 * phi := by
  obtain ⟨v, hv, hn, hr⟩ := magneticAxis_ok _ _ _ h
  obtain ⟨p, hpm, rfl⟩ := List.mem_map.1 hv
  obtain ⟨h1, h2, h3⟩ := hp p hpm
  refine ⟨p, hpm, ?_, ?_⟩
  · rw [hr, add_comm]
    exact webRZ_point p.1 p.2 h1.le
  · unfold axisNear at hn
    rw [show p.2 = (p.2.1, p.2.2) from rfl, axisAngle_point _ _ _ h1 h2 h3] at hn
    exact hn

/-- **C180 (partial).** And if there is such a vertex then one is found. -/
theorem C180_found_partial (ps : List (ℝ × ℝ × ℝ)) (hp : ∀ p ∈ ps, 0 < p.2.1 ∧ -(π / 2) < p.1 ∧ p.1 < π / 2) (phi : ℝ)
    (h : ∃ p ∈ ps, 97 / 100 * phi ≤ p.1 ∧ p.1 ≤ 103 / 100 * phi) :
    ∃ r, magneticAxis (ps.map fun p => webPoint p.1 p.2) phi = .ok r := by
  obtain ⟨p, hpm, hn⟩ := h
  obtain ⟨h1, h2, h3⟩ := hp p hpm
  have hh : axisNear phi (webPoint p.1 p.2) := by
    unfold axisNear
    rw [show p.2 = (p.2.1, p.2.2) from rfl, axisAngle_point _ _ _ h1 h2 h3]
    exact hn
  unfold magneticAxis
  split
  · rename_i hf
    have := List.find?_eq_none.1 hf _ (List.mem_map.2 ⟨p, hpm, rfl⟩)
    exact absurd hh (by simpa using this)
  · exact ⟨_, rfl⟩

/-- What the statement says: the point returned is one of a vertex at a toroidal angle within 3 %. -/
def AxisRight : Prop :=
  ∀ (vs : List (ℝ × ℝ × ℝ)) (phi : ℝ) (r : ℝ × ℝ), magneticAxis vs phi = .ok r →
    ∃ v ∈ vs, ∃ a, v = webPoint a r ∧ 97 / 100 * phi ≤ a ∧ a ≤ 103 / 100 * phi

/-- **C180 (refutation).** The opposite side of the torus is taken for the angle: for `π/4` the vertex `(-1, -1, 0)` is accepted. -/
theorem C180_fails : ¬ AxisRight := by
  intro h
  have hpi := pi_pos
  have hn : axisNear (π / 4) ((-1 : ℝ), (-1 : ℝ), (0 : ℝ)) := by
    unfold axisNear axisAngle
    rw [if_neg (by norm_num)]
    simp only
    rw [show (-1 : ℝ) / -1 = 1 by norm_num, arctan_one]
    constructor <;> linarith
  have hr : magneticAxis [((-1 : ℝ), (-1 : ℝ), (0 : ℝ))] (π / 4) = .ok (sqrt ((-1) ^ 2 + (-1) ^ 2), 0) := by
    unfold magneticAxis
    rw [List.find?_cons_of_pos (by simpa using hn)]
  obtain ⟨v, hv, a, ha, h1, h2⟩ := h _ _ _ hr
  rw [List.mem_singleton] at hv
  rw [hv] at ha
  have hc : 0 < cos a := cos_pos_of_mem_Ioo ⟨by linarith, by linarith⟩
  have hx : (-1 : ℝ) = sqrt ((-1) ^ 2 + (-1) ^ 2) * cos a := congrArg Prod.fst ha
  have : 0 ≤ sqrt ((-1 : ℝ) ^ 2 + (-1) ^ 2) * cos a := mul_nonneg (sqrt_nonneg _) hc.le
  linarith

/-- **C180 (refutation).** For a negative angle there is never a result: 0.97 times the angle is more than 1.03 times the angle. -/
theorem C180_fails_negative (vs : List (ℝ × ℝ × ℝ)) (phi : ℝ) (h : phi < 0) :
    magneticAxis vs phi = .error (.index "index 0 is out of bounds for axis 1 with size 0") := by
  apply magneticAxis_error
  intro v _ hn
  unfold axisNear at hn
  split at hn
  · exact hn
  · obtain ⟨h1, h2⟩ := hn; linarith

theorem axisAngle_le (v : ℝ × ℝ × ℝ) (a : ℝ) (h : axisAngle v = some a) : a ≤ π / 2 := by
  have hpi := pi_pos
  unfold axisAngle at h
  split_ifs at h <;> cases h
  · exact le_refl _
  · linarith
  · exact (arctan_lt_pi_div_two _).le

/-- **C180 (refutation).** Nor is there one for angles of more than 93 degrees, wherever the axis is. -/
theorem C180_fails_large (vs : List (ℝ × ℝ × ℝ)) (phi : ℝ) (h : π / 2 < 97 / 100 * phi) :
    magneticAxis vs phi = .error (.index "index 0 is out of bounds for axis 1 with size 0") := by
  apply magneticAxis_error
  intro v _ hn
  unfold axisNear at hn
  split at hn
  · exact hn
  · rename_i a ha
    have := axisAngle_le v a ha
    linarith [hn.1]

/-- **C180.** For the default angle, zero, a vertex must lie exactly in the plane. -/
theorem C180_zero (v : ℝ × ℝ × ℝ) : axisNear 0 v ↔ v.1 ≠ 0 ∧ v.2.1 = 0 := by
  have hpi := pi_pos
  unfold axisNear axisAngle
  by_cases h0 : v.1 = 0
  · rw [if_pos h0]
    constructor
    · intro h
      split_ifs at h with h1 h2
      · simp only at h; linarith [h.2]
      · simp only at h; linarith [h.1]
      · exact h.elim
    · intro h; exact absurd h0 h.1
  · rw [if_neg h0]
    simp only [mul_zero]
    constructor
    · intro h
      have := le_antisymm h.2 h.1
      rw [arctan_eq_zero_iff] at this
      exact ⟨h0, (div_eq_zero_iff.1 this).resolve_right h0⟩
    · intro h
      rw [h.2]; simp

example : ∃ ps : List (ℝ × ℝ × ℝ), (∀ p ∈ ps, 0 < p.2.1 ∧ -(π / 2) < p.1 ∧ p.1 < π / 2) ∧ ∃ p ∈ ps, 97 / 100 * (1 : ℝ) ≤ p.1 ∧ p.1 ≤ 103 / 100 * 1 := by
  refine ⟨[(1, 5, 0)], ?_, (1, 5, 0), by simp, by norm_num, by norm_num⟩
  have := pi_gt_d2
  intro p hp
  rw [List.mem_singleton] at hp
  subst hp
  refine ⟨by norm_num, ?_, ?_⟩ <;> simp only <;> linarith

/-! ## C181 -/

/-- **C181 (refutation).** The file that is named makes no difference. -/
theorem C181_fails {K B : Type} (fmt : K → String) (extender : String → W7Args K → Except Err B) (files : Dict B) (a : W7Args K) (wout wout' : String) :
    plasmaField fmt extender files a wout = plasmaField fmt extender files a wout' := rfl

/-- What the statement says: without a saved field the result is that for the file. -/
def PlasmaRight : Prop :=
  ∀ (fmt : ℚ → String) (extender : String → W7Args ℚ → Except Err String) (a : W7Args ℚ) (wout : String),
    (plasmaField fmt extender (fun _ => none) a wout).2 = extender wout a

theorem C181_fails_statement : ¬ PlasmaRight := by
  intro h
  have h := h (fun _ => "") (fun u _ => .ok u) ⟨0, 1, 1, 1, (0, 0), (0, 0), (0, 0)⟩ "wout.nc"
  have e : (plasmaField (fun _ : ℚ => "") (fun u _ => .ok u) (fun _ => none) ⟨0, 1, 1, 1, (0, 0), (0, 0), (0, 0)⟩ "wout.nc").2 =
    (.ok vmecURL : Except Err String) := rfl
  rw [e] at h
  have h := Except.ok.inj h
  revert h
  decide

/-- **C181 (partial).** It is the field for the file if that is the one that is built in, and it is the same in later calls, whatever the service gives then.
Missing: other files (`C181_fails`). -/
theorem C181_builtin_partial {K B : Type} (fmt : K → String) (extender extender' : String → W7Args K → Except Err B) (files : Dict B) (a : W7Args K)
    (hf : files (a.plasmaName fmt) = none) :
    (plasmaField fmt extender files a vmecURL).2 = extender vmecURL a ∧
      ∀ b, extender vmecURL a = .ok b → (plasmaField fmt extender' (plasmaField fmt extender files a vmecURL).1 a vmecURL).2 = .ok b := by
  constructor
  · unfold plasmaField
    rw [hf]
    cases extender vmecURL a <;> rfl
  · intro b hb
    have e : (plasmaField fmt extender files a vmecURL).1 = files.set (a.plasmaName fmt) b := by
      unfold plasmaField; rw [hf, hb]
    rw [e]
    unfold plasmaField
    simp [Dict.set]

example : ((fun _ => none : Dict String) ((⟨0, 1, 1, 1, (0, 0), (0, 0), (0, 0)⟩ : W7Args ℚ).plasmaName fun _ => "")) = none := rfl

/-! ## C182: W7X -/

/-- The interpolation is exact at the points of an increasing grid. -/
def GridInterp.Exact (interp : GridInterp) : Prop :=
  ∀ (xs ys zs : List ℝ) (vals : ℕ → ℕ → ℕ → ℝ) (fill : ℝ), xs.Pairwise (· < ·) → ys.Pairwise (· < ·) → zs.Pairwise (· < ·) →
    ∀ i j k, i < xs.length → j < ys.length → k < zs.length → interp (xs, ys, zs) vals fill (xs.getD i 0, ys.getD j 0, zs.getD k 0) = vals i j k

/-- A value is in the range of a list. -/
def InSpan (l : List ℝ) (x : ℝ) : Prop := (∃ a ∈ l, a ≤ x) ∧ ∃ b ∈ l, x ≤ b

/-- Outside of the grid the value is the fill value. -/
def GridInterp.Fills (interp : GridInterp) : Prop :=
  ∀ (xs ys zs : List ℝ) (vals : ℕ → ℕ → ℕ → ℝ) (fill x y z : ℝ), ¬ (InSpan xs x ∧ InSpan ys y ∧ InSpan zs z) →
    interp (xs, ys, zs) vals fill (x, y, z) = fill

theorem linspaceClosed_pairwise {K : Type} [Field K] [LinearOrder K] [IsStrictOrderedRing K] (a b : K) (n : ℕ) (h : a < b ∨ n ≤ 1) :
    (linspaceClosed a b n).Pairwise (· < ·) := by
  rw [List.pairwise_iff_getElem]
  intro i j hi hj hij
  rw [linspaceClosed_length] at hi hj
  have hn : 2 ≤ n := by omega
  rw [linspaceClosed_getElem _ _ _ _ hn, linspaceClosed_getElem _ _ _ _ hn]
  have hab : a < b := h.resolve_right (by omega)
  have h1 : (0 : K) < (n : K) - 1 := by
    have : (2 : K) ≤ n := by exact_mod_cast hn
    linarith
  have h2 : 0 < (b - a) / ((n : K) - 1) := div_pos (sub_pos.2 hab) h1
  have h3 : (i : K) < j := by exact_mod_cast hij
  have := mul_lt_mul_of_pos_right h3 h2
  linarith

theorem npRem_full_turns (x p : ℝ) (hp : 0 < p) (h0 : 0 ≤ x) (h1 : x < p) (n : ℤ) : npRem (x + n * p) p = x := by
  unfold npRem
  have : ⌊(x + n * p) / p⌋ = n := by
    rw [Int.floor_eq_iff]
    constructor
    · rw [le_div_iff₀ hp]; linarith
    · rw [div_lt_iff₀ hp]; nlinarith
  rw [this]; ring

/-- **C182.** At a point of the grid, and after any number of turns, the field is the sum of the vacuum field and of that of the plasma. -/
theorem C182_nodes (interp : GridInterp) (he : interp.Exact) (a : W7Args ℝ) (vac : Comp3) (plasma : Option Comp3)
    (hr : a.r.1 < a.r.2 ∨ a.nx ≤ 1) (hp : a.phi.1 < a.phi.2 ∨ a.ny ≤ 1) (hz : a.z.1 < a.z.2 ∨ a.nz ≤ 1)
    (i j k : ℕ) (hi : i < a.nx) (hj : j < a.ny) (hk : k < a.nz) (n : ℤ)
    (h0 : 0 ≤ a.coords.2.1.getD j 0) (h1 : a.coords.2.1.getD j 0 < 2 * π) :
    let f := w7Field interp a vac plasma
    let x := a.coords.1.getD i 0
    let y := a.coords.2.1.getD j 0 + n * (2 * π)
    let z := a.coords.2.2.getD k 0
    let p := plasma.getD (fun _ _ _ => (0, 0, 0)) i j k
    f.Bx x z y = (vac i j k).1 + p.1 ∧ f.By x z y = (vac i j k).2.1 + p.2.1 ∧ f.Bz x z y = (vac i j k).2.2 + p.2.2 ∧
      f.R = some fun x _ _ => x := by
  have hpi : 0 < 2 * π := by have := pi_pos; linarith
  have key : ∀ vals fill, interp a.coords vals fill (a.coords.1.getD i 0, npRem (a.coords.2.1.getD j 0 + n * (2 * π)) (2 * π), a.coords.2.2.getD k 0) = vals i j k := by
    intro vals fill
    rw [npRem_full_turns _ _ hpi h0 h1]
    exact he _ _ _ vals fill (linspaceClosed_pairwise _ _ _ hr) (linspaceClosed_pairwise _ _ _ hp) (linspaceClosed_pairwise _ _ _ hz) i j k
      (by rw [linspaceClosed_length]; exact hi) (by rw [linspaceClosed_length]; exact hj) (by rw [linspaceClosed_length]; exact hk)
  exact ⟨key _ _, key _ _, key _ _, rfl⟩

/-- **C182.** Outside of the grid the field is toroidal with the value 1. -/
theorem C182_outside (interp : GridInterp) (hf : interp.Fills) (a : W7Args ℝ) (vac : Comp3) (plasma : Option Comp3) (x z y : ℝ)
    (h : ¬ (InSpan a.coords.1 x ∧ InSpan a.coords.2.1 (npRem y (2 * π)) ∧ InSpan a.coords.2.2 z)) :
    let f := w7Field interp a vac plasma
    f.Bx x z y = 0 ∧ f.By x z y = 1 ∧ f.Bz x z y = 0 := ⟨hf _ _ _ _ _ _ _ _ h, hf _ _ _ _ _ _ _ _ h, hf _ _ _ _ _ _ _ _ h⟩

open Classical in
/-- An interpolation for which both hold: the value of the point if there is one, otherwise the fill value. -/
noncomputable def lookupInterp : GridInterp := fun c vals fill p =>
  if c.1.contains p.1 && (c.2.1.contains p.2.1 && c.2.2.contains p.2.2) then vals (c.1.idxOf p.1) (c.2.1.idxOf p.2.1) (c.2.2.idxOf p.2.2) else fill

theorem idxOf_pairwise (l : List ℝ) (h : l.Pairwise (· < ·)) (i : ℕ) (hi : i < l.length) : l.getD i 0 ∈ l ∧ l.idxOf (l.getD i 0) = i := by
  rw [List.getD_eq_getElem _ _ hi]
  exact ⟨List.getElem_mem _, List.Nodup.idxOf_getElem (h.imp fun h => ne_of_lt h) i hi⟩

theorem lookupInterp_exact : lookupInterp.Exact := by
  intro xs ys zs vals fill hx hy hz i j k hi hj hk
  obtain ⟨a1, a2⟩ := idxOf_pairwise xs hx i hi
  obtain ⟨b1, b2⟩ := idxOf_pairwise ys hy j hj
  obtain ⟨c1, c2⟩ := idxOf_pairwise zs hz k hk
  unfold lookupInterp
  simp only
  rw [if_pos (by simp only [Bool.and_eq_true, List.contains_iff_mem]; exact ⟨a1, b1, c1⟩), a2, b2, c2]

theorem inSpan_of_mem (l : List ℝ) (x : ℝ) (h : x ∈ l) : InSpan l x := ⟨⟨x, h, le_refl _⟩, x, h, le_refl _⟩

theorem lookupInterp_fills : lookupInterp.Fills := by
  intro xs ys zs vals fill x y z h
  unfold lookupInterp
  simp only
  rw [if_neg]
  simp only [Bool.and_eq_true, List.contains_iff_mem]
  exact fun ⟨h1, h2, h3⟩ => h ⟨inSpan_of_mem _ _ h1, inSpan_of_mem _ _ h2, inSpan_of_mem _ _ h3⟩

/-- The hypotheses are met. -/
example : ∃ (interp : GridInterp) (a : W7Args ℝ), interp.Exact ∧ interp.Fills ∧ a.r.1 < a.r.2 ∧ a.phi.1 < a.phi.2 ∧ a.z.1 < a.z.2 ∧
    0 ≤ a.coords.2.1.getD 1 0 ∧ a.coords.2.1.getD 1 0 < 2 * π := by
  refine ⟨lookupInterp, ⟨0, 2, 2, 2, (4, 6), (0, 1), (-1, 1)⟩, lookupInterp_exact, lookupInterp_fills, by norm_num, by norm_num, by norm_num, ?_⟩
  have := pi_gt_d2
  have e : (⟨0, 2, 2, 2, (4, 6), (0, 1), (-1, 1)⟩ : W7Args ℝ).coords.2.1.getD 1 0 = 1 := by
    rw [show (⟨0, 2, 2, 2, (4, 6), (0, 1), (-1, 1)⟩ : W7Args ℝ).coords.2.1 = linspaceClosed 0 1 2 from rfl,
      List.getD_eq_getElem _ _ (by rw [linspaceClosed_length]; omega), linspaceClosed_getElem _ _ _ _ (by norm_num)]
    norm_num
  rw [e]
  constructor <;> linarith

/-! ## C183 -/

/-- What the statement says: an object can be constructed, with whatever the rest does. -/
def W7VmecWorks : Prop := ∀ r : Unit, w7Vmec fieldAttributes (.ok r) = .ok r

/-- **C183 (refutation).** It can not. -/
theorem C183_fails : ¬ W7VmecWorks ∧ ∀ (α : Type) (rest : Except Err α), w7Vmec fieldAttributes rest = .error (.attribute "'W7X_VMEC' object has no attribute 'nx'") := by
  have h : ∀ (α : Type) (rest : Except Err α), w7Vmec fieldAttributes rest = .error (.attribute "'W7X_VMEC' object has no attribute 'nx'") := by
    intro α rest
    unfold w7Vmec
    rw [if_neg (by decide)]
  refine ⟨fun hw => ?_, h⟩
  have := hw ()
  rw [h] at this
  cases this

/-- **C183 (partial).** With the attribute the rest of the construction is done.  Missing: nothing sets it (`C183_fails`). -/
theorem C183_with_nx_partial {α : Type} (attrs : List String) (rest : Except Err α) (h : "nx" ∈ attrs) : w7Vmec attrs rest = rest := if_pos h

example : "nx" ∈ "nx" :: fieldAttributes := by decide

/-! ## C184 -/

section
variable {K : Type} [Field K] [LinearOrder K] [IsStrictOrderedRing K] [FloorRing K]

/-- **C184 (refutation).** `Bxfunc` never returns a number, for no grid and at no position. -/
theorem C184_fails {G : Type} (g : Grid G K) (findIndex : G → Except Err Unit) (phi b : K) : smoothedBx g findIndex phi ≠ .ok (some b) := by
  unfold smoothedBx
  split_ifs with h
  · exact fun h => by cases h
  all_goals
    dsimp only
    intro h
    cases h1 : g.getPoloidalGrid _ with
    | error e => rw [h1] at h; cases h
    | ok d =>
      rw [h1] at h
      simp only [Except.bind] at h
      split at h
      · cases h
      · split at h
        · cases h
        · split at h
          · cases h
          · split at h
            · cases h
            · cases h

/-- **C184 (refutation).** `Bzfunc` is zero, whatever the field is. -/
theorem C184_fails_Bz (f : FieldFns K) (x z phi : K) : (smoothedRest f).2.2.1 x z phi = 0 := rfl

/-- **C184 (partial).** `Byfunc` and `Rfunc` are those of the field.  Missing: `Bxfunc` (`C184_fails`) and `Bzfunc` (`C184_fails_Bz`). -/
theorem C184_By_partial (f : FieldFns K) : (smoothedRest f).1 = f.By ∧ (smoothedRest f).2.1 = f.R := ⟨rfl, rfl⟩

theorem nearestY_fold (ys : List K) (phi : K) : ∀ (n : ℕ), let b := (List.range n).foldl (fun b i => if |phi - ys.getD i 0| < |phi - ys.getD b 0| then i else b) 0
    (b = 0 ∨ b < n) ∧ ∀ i < n, |phi - ys.getD b 0| ≤ |phi - ys.getD i 0|
  | 0 => ⟨Or.inl rfl, fun i h => absurd h (by omega)⟩
  | n + 1 => by
    have ih := nearestY_fold ys phi n
    simp only [List.range_succ, List.foldl_append, List.foldl_cons, List.foldl_nil]
    simp only at ih
    generalize (List.range n).foldl (fun b i => if |phi - ys.getD i 0| < |phi - ys.getD b 0| then i else b) 0 = b at ih ⊢
    obtain ⟨h1, h2⟩ := ih
    split_ifs with hc
    · refine ⟨Or.inr (by omega), fun i hi => ?_⟩
      rcases Nat.lt_succ_iff_lt_or_eq.1 hi with h | h
      · exact hc.le.trans (h2 i h)
      · rw [h]
    · refine ⟨by omega, fun i hi => ?_⟩
      rcases Nat.lt_succ_iff_lt_or_eq.1 hi with h | h
      · exact h2 i h
      · rw [h]; exact not_lt.1 hc

theorem nearestY_spec (ys : List K) (phi : K) (h : ys ≠ []) :
    nearestY ys phi < ys.length ∧ ∀ i < ys.length, |phi - ys.getD (nearestY ys phi) 0| ≤ |phi - ys.getD i 0| := by
  have := nearestY_fold ys phi ys.length
  have hl := List.length_pos_iff.2 h
  refine ⟨?_, this.2⟩
  unfold nearestY
  rcases this.1 with h | h <;> omega

/-- **C184.** The interval that is chosen is the one that holds `phi`, as the comment in the code says, for increasing coordinates. -/
theorem C184_interval (ys : List K) (hs : ys.Pairwise (· < ·)) (phi : K) (h : ys ≠ []) :
    let b := nearestY ys phi
    let ind : ℤ := if phi < ys.getD b 0 then b - 1 else b
    (∀ i : ℕ, i < ys.length → (i : ℤ) ≤ ind → ys.getD i 0 ≤ phi) ∧ ∀ i : ℕ, i < ys.length → ind < i → phi < ys.getD i 0 := by
  obtain ⟨hb, hm⟩ := nearestY_spec ys phi h
  generalize nearestY ys phi = b at hb hm ⊢
  have hlt : ∀ i j, i < j → j < ys.length → ys.getD i 0 < ys.getD j 0 := by
    intro i j hij hj
    rw [List.getD_eq_getElem _ _ hj, List.getD_eq_getElem _ _ (hij.trans hj)]
    exact (List.pairwise_iff_getElem.1 hs) i j (hij.trans hj) hj hij
  have hle : ∀ i j, i ≤ j → j < ys.length → ys.getD i 0 ≤ ys.getD j 0 := by
    intro i j hij hj
    rcases Nat.lt_or_eq_of_le hij with h | h
    · exact (hlt i j h hj).le
    · rw [h]
  dsimp only
  split_ifs with hc
  · constructor
    · intro i hi hib
      have hib : i < b := by omega
      by_contra hn
      rw [not_le] at hn
      have h1 := hlt i b hib hb
      have h2 := hm i hi
      rw [abs_of_neg (by linarith), abs_of_neg (by linarith)] at h2
      linarith
    · intro i hi hib
      exact lt_of_lt_of_le hc (hle b i (by omega) hi)
  · rw [not_lt] at hc
    constructor
    · intro i hi hib
      exact (hle i b (by omega) hb).trans hc
    · intro i hi hib
      have hib : b < i := by omega
      by_contra hn
      rw [not_lt] at hn
      have h1 := hlt b i hib hi
      have h2 := hm i hi
      rw [abs_of_nonneg (by linarith), abs_of_nonneg (by linarith)] at h2
      linarith

end

example : ([0, 1, 3] : List ℚ).Pairwise (· < ·) ∧ ([0, 1, 3] : List ℚ) ≠ [] := by decide

/-! ## C185: VMEC -/

/-- **C185 (partial).** With at least two values of `zeta`: at the points of the grid the field is that of the file, after any number of turns.
Missing: one value, which is the default for a file without toroidal modes (`C185_fails`). -/
theorem C185_nodes_partial (interp : GridInterp) (he : interp.Exact) (rz : ℕ → ℝ → ℝ → ℝ → ℝ × ℝ × ℝ) (r1 z1 : List ℝ) (nzeta : ℕ)
    (hr : r1.Pairwise (· < ·)) (hz : z1.Pairwise (· < ·)) (i j k : ℕ) (hi : i < r1.length) (hj : j < z1.length) (hk : k + 1 < nzeta) (n : ℤ) :
    let f := vmecField interp rz r1 z1 nzeta
    let R := r1.getD i 0
    let Z := z1.getD j 0
    let phi := (k : ℝ) * (2 * π / ((nzeta : ℝ) - 1)) + n * (2 * π)
    f.Bx R Z phi = (rz k 0 R Z).1 ∧ f.By R Z phi = (rz k 1 R Z).2.1 ∧ f.Bz R Z phi = (rz k 0 R Z).2.2 := by
  have hpi : 0 < 2 * π := by have := pi_pos; linarith
  have hn2 : 2 ≤ nzeta := by omega
  have hn : (0 : ℝ) < (nzeta : ℝ) - 1 := by
    have : (2 : ℝ) ≤ nzeta := by exact_mod_cast hn2
    linarith
  have hg : (vmecZeta nzeta).getD k 0 = (k : ℝ) * (2 * π / ((nzeta : ℝ) - 1)) := by
    unfold vmecZeta
    rw [List.getD_eq_getElem _ _ (by rw [linspaceClosed_length]; omega), linspaceClosed_getElem _ _ _ _ hn2]
    ring
  have h0 : 0 ≤ (k : ℝ) * (2 * π / ((nzeta : ℝ) - 1)) := by positivity
  have h1 : (k : ℝ) * (2 * π / ((nzeta : ℝ) - 1)) < 2 * π := by
    rw [mul_div_assoc', div_lt_iff₀ hn]
    have : (k : ℝ) + 1 < nzeta := by exact_mod_cast hk
    nlinarith
  have key : ∀ vals fill, interp (r1, z1, vmecZeta nzeta) vals fill (r1.getD i 0, z1.getD j 0, npRem ((k : ℝ) * (2 * π / ((nzeta : ℝ) - 1)) + n * (2 * π)) (2 * π)) = vals i j k := by
    intro vals fill
    rw [npRem_full_turns _ _ hpi h0 h1, ← hg]
    exact he _ _ _ vals fill hr hz (linspaceClosed_pairwise _ _ _ (Or.inl hpi)) i j k hi hj (by rw [linspaceClosed_length]; omega)
  exact ⟨key _ _, key _ _, key _ _⟩

/-- What the statement says: the field of a file without toroidal modes is the same at all angles. -/
def VmecAxisymmetric : Prop :=
  ∀ (interp : GridInterp), interp.Exact → interp.Fills → ∀ (rz : ℕ → ℝ → ℝ → ℝ → ℝ × ℝ × ℝ) (r1 z1 : List ℝ), r1.Pairwise (· < ·) → z1.Pairwise (· < ·) →
    ∀ i < r1.length, ∀ j < z1.length, ∀ phi, (vmecField interp rz r1 z1 (vmecNzeta 0 none)).Bx (r1.getD i 0) (z1.getD j 0) phi =
      (vmecField interp rz r1 z1 (vmecNzeta 0 none)).Bx (r1.getD i 0) (z1.getD j 0) 0

/-- **C185 (refutation).** Away from the angle zero it is the fill value, whatever the file holds. -/
theorem C185_fails (interp : GridInterp) (hf : interp.Fills) (rz : ℕ → ℝ → ℝ → ℝ → ℝ × ℝ × ℝ) (r1 z1 : List ℝ) (x z phi : ℝ)
    (h : npRem phi (2 * π) ≠ 0) :
    let f := vmecField interp rz r1 z1 (vmecNzeta 0 none)
    f.Bx x z phi = 0 ∧ f.By x z phi = 1 ∧ f.Bz x z phi = 0 := by
  have hz : vmecZeta (vmecNzeta 0 none) = [0] := by
    unfold vmecZeta vmecNzeta linspaceClosed
    simp
  have key : ∀ vals fill, interp (r1, z1, vmecZeta (vmecNzeta 0 none)) vals fill (x, z, npRem phi (2 * π)) = fill := by
    intro vals fill
    apply hf
    rintro ⟨_, _, ⟨a, ha, ha'⟩, b, hb, hb'⟩
    rw [hz, List.mem_singleton] at ha hb
    rw [ha] at ha'
    rw [hb] at hb'
    exact h (le_antisymm hb' ha')
  exact ⟨key _ _, key _ _, key _ _⟩

theorem C185_fails_statement : ¬ VmecAxisymmetric := by
  intro h
  have hpi := pi_pos
  have h := h lookupInterp lookupInterp_exact lookupInterp_fills (fun _ _ _ _ => (5, 5, 5)) [1] [0] (by simp) (by simp) 0 (by simp) 0 (by simp) π
  have e : npRem π (2 * π) = π := by
    have := npRem_full_turns π (2 * π) (by linarith) hpi.le (by linarith) 0
    simpa using this
  have h1 := (C185_fails lookupInterp lookupInterp_fills (fun _ _ _ _ => (5, 5, 5)) [1] [0] 1 0 π (by rw [e]; exact hpi.ne')).1
  have hz : vmecZeta (vmecNzeta 0 none) = [0] := by
    unfold vmecZeta vmecNzeta linspaceClosed
    simp
  have h2 : (vmecField lookupInterp (fun _ _ _ _ => (5, 5, 5)) [1] [0] (vmecNzeta 0 none)).Bx 1 0 0 = 5 := by
    have e0 : npRem 0 (2 * π) = 0 := by unfold npRem; simp
    have := lookupInterp_exact [1] [0] [0] (fun _ _ _ => 5) 0 (by simp) (by simp) (by simp) 0 0 0 (by simp) (by simp) (by simp)
    show lookupInterp ([1], [0], vmecZeta (vmecNzeta 0 none)) (fun _ _ _ => 5) 0 (1, 0, npRem 0 (2 * π)) = 5
    rw [hz, e0]
    exact this
  simp only [List.getD_cons_zero] at h
  rw [h1, h2] at h
  norm_num at h

/-! ## C186: pressure of GEQDSK -/

/-- **C186.** The pressure is always one of the values of the profile between the axis and the edge. -/
theorem C186_range {K : Type} [Field K] [LinearOrder K] [IsStrictOrderedRing K] (psinorm : K → K → K) (p : K → K) (x z : K) :
    ∃ t, 0 ≤ t ∧ t ≤ 1 ∧ geqdskPressure psinorm p x z = p t ∧ (0 ≤ psinorm x z → psinorm x z ≤ 1 → t = psinorm x z) :=
  ⟨max 0 (min 1 (psinorm x z)), le_max_left _ _, max_le zero_le_one (min_le_left _ _), rfl, fun h0 h1 => by rw [min_eq_right h1, max_eq_right h0]⟩

/-- **C186.** At a point of the grid it is the pressure at the edge outside of the core, and that for the normalised flux in it. -/
theorem C186_nodes {K : Type} [Field K] [LinearOrder K] [IsStrictOrderedRing K] (psinorm : K → K → K) (p : K → K) (x z axis bndry psi : K) (outside : Bool)
    (h : psinorm x z = psinormNode axis bndry psi outside) :
    (outside = true → geqdskPressure psinorm p x z = p 1) ∧
      (outside = false → axis ≤ psi → psi ≤ bndry → axis < bndry → geqdskPressure psinorm p x z = p ((psi - axis) / (bndry - axis))) ∧
      (outside = false → bndry ≤ psi → psi ≤ axis → bndry < axis → geqdskPressure psinorm p x z = p ((psi - axis) / (bndry - axis))) := by
  unfold geqdskPressure clampSpline
  rw [h]
  unfold psinormNode
  refine ⟨fun ho => ?_, fun ho h1 h2 h3 => ?_, fun ho h1 h2 h3 => ?_⟩
  · rw [if_pos ho, min_self, max_eq_right zero_le_one]
  · rw [if_neg (by simp [ho]), min_eq_right, max_eq_right]
    · exact div_nonneg (by linarith) (by linarith)
    · rw [div_le_one (by linarith)]; linarith
  · rw [if_neg (by simp [ho]), min_eq_right, max_eq_right]
    · exact div_nonneg_of_nonpos (by linarith) (by linarith)
    · rw [div_le_one_of_neg (by linarith)]; linarith

example : geqdskPressure (fun _ _ => psinormNode (0 : ℚ) 2 1 false) (fun t => 1 - t) 1 0 = 1 / 2 ∧
    geqdskPressure (fun _ _ => psinormNode (0 : ℚ) 2 3 false) (fun t => 1 - t) 1 0 = 0 := by
  constructor <;> norm_num [geqdskPressure, clampSpline, psinormNode]

/-! ## C187, C188: VTK -/

section
variable {K : Type} [Field K] [LinearOrder K] [IsStrictOrderedRing K]

/-- What the statement says: without `bx` the maps are used. -/
def VtkFallback (K : Type) [Field K] : Prop :=
  ∀ (nx ny nz : ℕ) (dx dy scale : K) (bz xt zt : Cell → K), ∃ o, fciToVtk true nx ny nz dx dy none (some bz) (some xt) (some zt) scale = .ok (some o)

/-- **C187 (refutation).** Without `bx` there is an `AttributeError`, whether or not there are maps. -/
theorem C187_fails (nx ny nz : ℕ) (dx dy scale : K) (bz xt zt : Option (Cell → K)) :
    fciToVtk true nx ny nz dx dy none bz xt zt scale = .error (.attribute "'NoneType' object has no attribute 'shape'") := rfl

theorem C187_fails_statement : ¬ VtkFallback K := by
  intro h
  obtain ⟨o, ho⟩ := h 1 1 1 0 0 0 (fun _ => 0) (fun _ => 0) (fun _ => 0)
  rw [C187_fails] at ho
  cases ho

/-- **C187 (partial).** With `bx` and `bz`: the components at every cell, and the coordinates in y and z are those of the cells.
Missing: the maps (`C187_fails`) and the coordinates in x (`C187_fails_x`). -/
theorem C187_output_partial (nx ny nz : ℕ) (dx dy scale : K) (bx bz : Cell → K) (xt zt : Option (Cell → K)) :
    ∃ o, fciToVtk true nx ny nz dx dy (some bx) (some bz) xt zt scale = .ok (some o) ∧ o.x.length = nx ∧ o.y.length = ny ∧ o.z.length = nz ∧
      (∀ c, o.B c = (bx c * scale, 1, bz c * scale)) ∧ (∀ j < ny, o.y.getD j 0 = (j : K) * dy) ∧
      ∀ k < nz, o.z.getD k 0 = (k : K) * ((nx : K) * dx / (nz : K)) * scale := by
  refine ⟨_, rfl, by simp [linspaceClosed], by simp [linspaceOpen], by simp [linspaceOpen], fun _ => rfl, ?_, ?_⟩
  · intro j hj
    have hn : (ny : K) ≠ 0 := by exact_mod_cast (by omega : ny ≠ 0)
    rw [List.getD_eq_getElem _ _ (by simp [linspaceOpen, hj])]
    simp only [linspaceOpen, List.getElem_map, List.getElem_range]
    field_simp
    ring
  · intro k hk
    have hn : (nz : K) ≠ 0 := by exact_mod_cast (by omega : nz ≠ 0)
    rw [List.getD_eq_getElem _ _ (by simp [linspaceOpen, hk])]
    simp only [linspaceOpen, List.getElem_map, List.getElem_range]
    field_simp
    ring

/-- **C187 (refutation).** The points in x are further apart than the cells: `nx / (nx - 1)` times `dx`, for every file. -/
theorem C187_fails_x (nx ny nz : ℕ) (hn : 2 ≤ nx) (dx dy scale : K) (hdx : dx ≠ 0) (hs : scale ≠ 0) (bx bz : Cell → K) (xt zt : Option (Cell → K)) (o : VtkOut K)
    (h : fciToVtk true nx ny nz dx dy (some bx) (some bz) xt zt scale = .ok (some o)) :
    ∀ i < nx, o.x.getD i 0 = (i : K) * ((nx : K) / ((nx : K) - 1) * dx) * scale ∧ (i ≠ 0 → o.x.getD i 0 ≠ (i : K) * dx * scale) := by
  have hx : o.x = (linspaceClosed 0 ((nx : K) * dx) nx).map (· * scale) := by
    cases h; rfl
  have hn1 : (nx : K) - 1 ≠ 0 := nm1_ne hn
  intro i hi
  have e : o.x.getD i 0 = (i : K) * ((nx : K) / ((nx : K) - 1) * dx) * scale := by
    rw [hx, List.getD_eq_getElem _ _ (by simp [linspaceClosed_length, hi]), List.getElem_map, linspaceClosed_getElem _ _ _ _ hn]
    ring
  refine ⟨e, fun h0 hc => ?_⟩
  rw [e] at hc
  have hi0 : (i : K) ≠ 0 := by exact_mod_cast h0
  have h2 := mul_left_cancel₀ hi0 (mul_right_cancel₀ hs hc)
  have h3 : (nx : K) / ((nx : K) - 1) = 1 := mul_right_cancel₀ hdx (by rw [h2, one_mul])
  rw [div_eq_one_iff_eq hn1] at h3
  linarith

/-- **C187.** Without the library nothing is written, and there is no error. -/
theorem C187_without (nx ny nz : ℕ) (dx dy scale : K) (bx bz xt zt : Option (Cell → K)) :
    fciToVtk false nx ny nz dx dy bx bz xt zt scale = .ok none := rfl

end

example : ∃ o : VtkOut ℚ, fciToVtk true 2 1 1 (1 : ℚ) 1 (some fun _ => 1) (some fun _ => 0) none none 5 = .ok (some o) := ⟨_, rfl⟩

/-- What the statement says: a field and a grid are written. -/
def VtkField : Prop := ∀ gridAttrs : List String, "xarray" ∈ gridAttrs → writeVtk fieldAttributes gridAttrs (.ok ()) = .ok ()

/-- **C188 (refutation).** No field of zoidberg is accepted, with no grid. -/
theorem C188_fails : ¬ VtkField ∧ ∀ {α : Type} (gridAttrs : List String) (rest : Except Err α), writeVtk fieldAttributes gridAttrs rest = .error (.attribute "bx") := by
  have h : ∀ {α : Type} (gridAttrs : List String) (rest : Except Err α), writeVtk fieldAttributes gridAttrs rest = .error (.attribute "bx") := by
    intro α g rest
    unfold writeVtk
    rw [if_pos (by decide)]
  refine ⟨fun hw => ?_, h⟩
  have := hw ["xarray"] (by simp)
  rw [h] at this
  cases this

/-- **C188 (partial).** An object that has the three arrays is written, with a grid that has the coordinates.  Missing: the fields of zoidberg (`C188_fails`). -/
theorem C188_arrays_partial {α : Type} (fieldAttrs gridAttrs : List String) (rest : Except Err α) (h1 : "bx" ∈ fieldAttrs) (h2 : "by" ∈ fieldAttrs)
    (h3 : "bz" ∈ fieldAttrs) (h4 : "xarray" ∈ gridAttrs) : writeVtk fieldAttrs gridAttrs rest = rest := by
  unfold writeVtk
  rw [if_neg (by simpa using h1), if_neg (by simpa using h2), if_neg (by simpa using h3), if_neg (by simpa using h4)]

example : "bx" ∈ ["bx", "by", "bz"] ∧ "by" ∈ ["bx", "by", "bz"] ∧ "bz" ∈ ["bx", "by", "bz"] ∧ "xarray" ∈ ["xarray"] := by decide

end Zoidberg
