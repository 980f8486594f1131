import Verif.Model.FusionTracer
import Verif.Props.FieldTracer

/-!
# C77, C135: `FusionSCTracer.follow_field_lines`
-/

set_option linter.unusedSectionVars false

namespace Zoidberg

/-- What the statement says: with `rtol` the result is that of a tracer made with that `targetError`. -/
def RtolOverrides (V : Type) : Prop :=
  ∀ (fsc : FscCall V → Except Err (List (List (ℝ × ℝ × ℝ)))) (kw : Dict V) (x z : FArr ℝ) (ys : List ℝ) (r : V),
    fusionFollow fsc kw x z ys (some r) = fusionFollow fsc (kw.set "targetError" r) x z ys none

/-- **C77.** What the code does: `rtol` has no effect. -/
theorem C77_ignored {V : Type} (fsc : FscCall V → Except Err (List (List (ℝ × ℝ × ℝ)))) (kw : Dict V) (x z : FArr ℝ) (ys : List ℝ) (rtol : Option V) :
    fusionFollow fsc kw x z ys rtol = fusionFollow fsc kw x z ys none := rfl

/-- **C77 (partial).** It is so if the tracer was made with that `targetError`.  Missing: another one (`C77_fails`). -/
theorem C77_same_partial {V : Type} (fsc : FscCall V → Except Err (List (List (ℝ × ℝ × ℝ)))) (kw : Dict V) (x z : FArr ℝ) (ys : List ℝ) (r : V)
    (h : kw "targetError" = some r) : fusionFollow fsc kw x z ys (some r) = fusionFollow fsc (kw.set "targetError" r) x z ys none := by
  have : kw.set "targetError" r = kw := by
    unfold Dict.set
    rw [← h, Function.update_eq_self]
  rw [this, C77_ignored]

/-- **C77 (refutation).** -/
theorem C77_fails : ¬ RtolOverrides ℕ := by
  intro h
  have := h (fun c => if c.kwargs "targetError" = some 1 then .ok [] else .error (.value "")) (fun _ => none) ⟨[], [0]⟩ ⟨[], [0]⟩ [0, 1] 1
  unfold fusionFollow Dict.set at this
  simp [Except.map] at this

/-- The call for field lines: the points on the half plane of `y_values[0]`, the other values of `y`, and the direction to `y_values[1]`. -/
def GivesLines {V : Type} (fsc : FscCall V → Except Err (List (List (ℝ × ℝ × ℝ)))) (kw : Dict V) (line : ℝ × ℝ → List ℝ → ℕ → ℝ × ℝ) : Prop :=
  ∀ (p : List (ℝ × ℝ)) (y0 y1 : ℝ) (ys : List ℝ), (∀ q ∈ p, 0 ≤ q.1) →
    fsc ⟨p.map fun q => (q.1 * Real.cos y0, q.1 * Real.sin y0, q.2), y1 :: ys, decide (y0 < y1), kw⟩ =
      .ok ((List.range (y1 :: ys).length).map fun i => p.map fun q =>
        ((line q (y0 :: y1 :: ys) (i + 1)).1 * Real.cos ((y1 :: ys).getD i 0), (line q (y0 :: y1 :: ys) (i + 1)).1 * Real.sin ((y1 :: ys).getD i 0),
          (line q (y0 :: y1 :: ys) (i + 1)).2))

/-- **C135.** If fusionsc gives the field lines in Cartesian coordinates, the result is that of a `FieldTracer` for the same lines: the start, then the
radius and the height for each value of `y`. -/
theorem C135_coordinates {V : Type} (fsc : FscCall V → Except Err (List (List (ℝ × ℝ × ℝ)))) (kw : Dict V) (line : ℝ × ℝ → List ℝ → ℕ → ℝ × ℝ)
    (hfsc : GivesLines fsc kw line) (h0 : ∀ q ys, line q ys 0 = q) (hR : ∀ q ys i, 0 ≤ q.1 → 0 ≤ (line q ys i).1) (x z : FArr ℝ)
    (hpos : ∀ q ∈ x.data.zip z.data, 0 ≤ q.1) (hx : x.Ok) (hz : z.Ok)
    (hs : x.shape = z.shape) (hne : x.shape ≠ []) (ys : List ℝ) (hy : 2 ≤ ys.length) (rtol : Option V)
    (ode : List ℝ → List ℝ → Except Err (List (List ℝ))) (ho : LineWise ode line) :
    fusionFollow fsc kw x z ys rtol = followFieldLines ode x z ⟨[ys.length], ys⟩ := by
  obtain ⟨y0, y1, ys, rfl⟩ : ∃ y0 y1 l, ys = y0 :: y1 :: l := by
    match ys, hy with
    | y0 :: y1 :: l, _ => exact ⟨y0, y1, l, rfl⟩
  have e1 : x.atleast1d = x := by unfold FArr.atleast1d; rw [if_neg hne]
  have e2 : z.atleast1d = z := by unfold FArr.atleast1d; rw [if_neg (by rw [← hs]; exact hne)]
  have hc : checkInputs x z ⟨[(y0 :: y1 :: ys).length], y0 :: y1 :: ys⟩ = .ok (x, z, ⟨[(y0 :: y1 :: ys).length], y0 :: y1 :: ys⟩) := by
    unfold checkInputs
    rw [e1, e2]
    have e3 : (⟨[(y0 :: y1 :: ys).length], y0 :: y1 :: ys⟩ : FArr ℝ).atleast1d = ⟨[(y0 :: y1 :: ys).length], y0 :: y1 :: ys⟩ := by
      unfold FArr.atleast1d; simp
    rw [e3]
    dsimp only
    rw [if_neg (by unfold FArr.len; simp), if_neg (by simp), if_neg (by rw [hs]; simp)]
  have hxz : x.data.length = z.data.length := by rw [hx, hz, hs]
  unfold followFieldLines fusionFollow
  rw [hc]
  simp only [Except.bind]
  rw [if_neg (by rw [hs]; omega), traceChunks_eq ho]
  have hpts : ((x.data.zip z.data).map fun q => (Real.cos y0 * q.1, Real.sin y0 * q.1, q.2)) =
      (x.data.zip z.data).map fun q => (q.1 * Real.cos y0, q.1 * Real.sin y0, q.2) := by
    refine List.map_congr_left fun q _ => ?_
    rw [mul_comm (Real.cos y0), mul_comm (Real.sin y0)]
  rw [hpts, List.tail_cons, hfsc _ _ _ _ hpos]
  simp only [Except.map]
  have hdata : interleave (x.data.zip z.data) ++
      (((List.range (y1 :: ys).length).map fun i => (x.data.zip z.data).map fun q =>
        ((line q (y0 :: y1 :: ys) (i + 1)).1 * Real.cos ((y1 :: ys).getD i 0), (line q (y0 :: y1 :: ys) (i + 1)).1 * Real.sin ((y1 :: ys).getD i 0),
          (line q (y0 :: y1 :: ys) (i + 1)).2)).flatMap fun r => interleave (r.map fun p => (Real.sqrt (p.1 ^ 2 + p.2.1 ^ 2), p.2.2))) =
      ((List.range (y0 :: y1 :: ys).length).map fun i => interleave ((x.data.zip z.data).map fun q => line q (y0 :: y1 :: ys) i)).flatten := by
    rw [List.length_cons (a := y0), List.range_succ_eq_map, List.map_cons, List.flatten_cons]
    have e3 : ((x.data.zip z.data).map fun q => line q (y0 :: y1 :: ys) 0) = x.data.zip z.data := by
      rw [List.map_congr_left fun q _ => h0 q _]
      simp
    rw [e3, List.map_map, List.flatMap_map, List.flatMap_def]
    congr 2
    refine List.map_congr_left fun i _ => ?_
    simp only [Function.comp, List.map_map]
    congr 1
    refine List.map_congr_left fun q hq => ?_
    simp only [Function.comp]
    have h3 := Real.sin_sq_add_cos_sq ((y1 :: ys).getD i 0)
    generalize (y1 :: ys).getD i 0 = t at *
    have : (line q (y0 :: y1 :: ys) (i + 1)).1 * Real.cos t * ((line q (y0 :: y1 :: ys) (i + 1)).1 * Real.cos t) +
        (line q (y0 :: y1 :: ys) (i + 1)).1 * Real.sin t * ((line q (y0 :: y1 :: ys) (i + 1)).1 * Real.sin t) = (line q (y0 :: y1 :: ys) (i + 1)).1 ^ 2 := by
      calc _ = (line q (y0 :: y1 :: ys) (i + 1)).1 ^ 2 * (Real.sin t ^ 2 + Real.cos t ^ 2) := by ring
        _ = _ := by rw [h3, mul_one]
    rw [pow_two, pow_two, this, Real.sqrt_sq (hR _ _ _ (hpos q hq))]
  rw [hdata, if_neg]
  rw [not_not, flatten_length (2 * x.data.length)]
  · rw [List.prod_append, List.prod_append, ← show x.data.length = x.shape.prod from hx]
    simp
    ring
  · intro i
    rw [interleave_length, List.length_map, List.length_zip, ← hxz, min_self]

/-- A service for lines that run along a circle. -/
noncomputable def circleFsc (c : FscCall ℕ) : Except Err (List (List (ℝ × ℝ × ℝ))) :=
  .ok (c.planes.map fun t => c.points.map fun p => (Real.sqrt (p.1 ^ 2 + p.2.1 ^ 2) * Real.cos t, Real.sqrt (p.1 ^ 2 + p.2.1 ^ 2) * Real.sin t, p.2.2))

theorem circleFsc_lines (kw : Dict ℕ) : GivesLines circleFsc kw fun q _ _ => q := by
  intro p y0 y1 ys hp
  unfold circleFsc
  dsimp only
  refine congrArg Except.ok ?_
  refine List.ext_getElem (by simp) fun i h1 h2 => ?_
  rw [List.length_map] at h1
  simp only [List.getElem_map, List.getElem_range, List.map_map]
  refine List.map_congr_left fun q hq => ?_
  simp only [Function.comp]
  have : (q.1 * Real.cos y0) ^ 2 + (q.1 * Real.sin y0) ^ 2 = q.1 ^ 2 := by
    calc _ = q.1 ^ 2 * (Real.sin y0 ^ 2 + Real.cos y0 ^ 2) := by ring
      _ = _ := by rw [Real.sin_sq_add_cos_sq, mul_one]
  rw [this, Real.sqrt_sq (hp q hq), List.getD_eq_getElem _ _ h1]

/-- Two such lines, for three values of `y`, the last of which is beyond a full turn. -/
example (rtol : Option ℕ) : fusionFollow circleFsc (fun _ => none) ⟨[2], [1, 2]⟩ ⟨[2], [0, 5]⟩ [1 / 2, 3, 7] rtol =
    followFieldLines stillOde ⟨[2], [1, 2]⟩ ⟨[2], [0, 5]⟩ ⟨[3], [1 / 2, 3, 7]⟩ :=
  C135_coordinates circleFsc _ (fun q _ _ => q) (circleFsc_lines _) (fun _ _ => rfl) (fun q _ _ h => h) ⟨[2], [1, 2]⟩ ⟨[2], [0, 5]⟩ (by simp) rfl rfl rfl
    (List.cons_ne_nil _ _) _ (by simp) rtol stillOde stillOde_lineWise

end Zoidberg
