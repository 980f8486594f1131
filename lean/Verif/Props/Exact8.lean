import Verif.Props.DagpIO
import Verif.Props.Dagp
import Verif.Props.Emc3Tracer
import Verif.Props.Service
import Verif.Props.RzLine
import Verif.Props.MakeMaps
import Verif.Props.FieldMore
import Verif.Props.ArcLength
import Verif.Props.Amplify
import Verif.Props.Exact7

/-! # Further exact conditions (C33, C55, C76, C84, C187, C217, C219, C223, C258) -/

set_option linter.unusedSectionVars false

namespace Zoidberg

open Set MeasureTheory intervalIntegral

/-! ## C219 -/

/-- **C219.** The files are the other arguments exactly if `-p` is given at most once. -/
theorem C219_iff (prog : String) (hp : prog ≠ "-v" ∧ prog ≠ "-q" ∧ prog ≠ "-p") (args : List String) :
    (dagpArgs (prog :: args)).2.2 = (args.filter fun a => a ∉ ["-v", "-q", "-p"]) ↔ args.count "-p" ≤ 1 := by
  refine ⟨fun h => ?_, C219_files_partial prog hp args⟩
  rw [C219_args prog hp] at h
  have h1 := congrArg (List.count "-p") h
  dsimp only at h1
  rw [List.count_erase_self] at h1
  have h2 : (notVerbosity args).count "-p" = args.count "-p" := by
    unfold notVerbosity
    exact List.count_filter (by decide)
  have h3 : (args.filter fun a => a ∉ ["-v", "-q", "-p"]).count "-p" = 0 := by
    rw [List.count_eq_zero]
    intro hm
    have := (List.mem_filter.1 hm).2
    simp at this
  rw [h2, h3] at h1
  omega

example : (dagpArgs ("prog" :: ["-p", "a", "-p"])).2.2 ≠ (["-p", "a", "-p"].filter fun a => a ∉ ["-v", "-q", "-p"]) :=
  fun h => absurd ((C219_iff "prog" (by decide) _).1 h) (by decide)

/-! ## C217 -/

/-- **C217.** The configuration of the caller is left as it was exactly if its field was not inverted. -/
theorem C217_iff {κ : Type} (known : ℤ → Except Err κ) (reachable : Except Err Unit) (probe : WebConfig κ → Except Err ℝ) (c : WebConfig κ) (configId : Option ℤ) (t : WebTracer κ)
    (h : webInit known reachable probe (some c) configId = .ok t) : t.config = some c ↔ c.inverseField = false := by
  rw [C217_init known reachable probe c configId t h]
  cases c
  simp [eq_comm]

/-- **C217.** After tracing it is as it was exactly if it was already reversed as the line needs it. -/
theorem C217_traced_iff {κ : Type} (known : ℤ → Except Err κ) (empty : ℕ → ℕ → ℝ × ℝ) (t : WebTracer κ) (c : WebConfig κ) (hc : t.config = some c)
    (trace : WebConfig κ → ℝ → List (ℝ × ℝ × ℝ) → Except Err (List (ℝ × ℝ × ℝ))) (pts : List (ℝ × ℝ)) (ys : List ℝ) (r : List (List (ℝ × ℝ))) (d : Option (WebConfig κ))
    (h : webLinesOf known empty t trace pts ys = .ok (r, d)) : d = some c ↔ c.inverseField = pyXor (decide (ys.getD 0 0 < ys.getD 1 0)) t.isforward := by
  rw [C217_traced known empty t c hc trace pts ys r d h]
  cases c
  simp [eq_comm]

example : (⟨(), true⟩ : WebConfig Unit).inverseField ≠ pyXor (decide ((0 : ℝ) < 1)) true := by simp [pyXor]

section
variable {K : Type} [Field K] [LinearOrder K] [IsStrictOrderedRing K] [FloorRing K]

/-! ## C84 -/

/-- **C84.** On a rectangular grid the fluxes of a linear function through all faces in `z` are exact exactly if the function does not depend on `Z`. -/
theorem C84_iff (g : RectPol K) (sq : K → K) (hsq : SqrtPos sq) (n : ℕ) (hn : 2 ≤ n) (slab : Bool) (hR : 0 < g.dR) (hm : 0 ≤ g.Rmin) (hZ : 0 < g.dZ) (hz : 3 ≤ g.nz) (hx : 3 ≤ g.nx)
    (a b c : K) :
    (∀ i k, i + 2 < g.nx → k < g.nz → ∀ r, faceVector sq slab rotZ (zFace n g.dagpPol i k) = some r →
      fluxZ g.nz (fun i k => coefOf (coefZ sq n slab g.dagpPol i k)) (linearOn g.dagpPol a b c) i k = b * r.1 + c * r.2) ↔ c = 0 := by
  have hpos : ∀ i : ℕ, 0 < cylW slab (g.Rmin + ((i : K) + 1) * g.dR) * g.dR := by
    intro i
    refine mul_pos ?_ hR
    unfold cylW
    have : (0 : K) ≤ i := Nat.cast_nonneg i
    split_ifs
    · exact one_pos
    · nlinarith
  constructor
  · intro h
    have hr := rect_faceZ g sq hsq n hn slab hR.ne' 0 (g.nz - 1)
    have h1 := h 0 (g.nz - 1) hx (by omega) _ hr
    have h2 := C84_end g sq hsq n hn slab hR.ne' hZ hz 0 hx a b c _ hr
    have h3 := h2.symm.trans h1
    have hn : (3 : K) ≤ g.nz := by exact_mod_cast hz
    have h4 := hpos 0
    simp only [mul_zero, zero_add] at h3
    have h5 : (g.nz : K) * (cylW slab (g.Rmin + (((0 : ℕ) : K) + 1) * g.dR) * g.dR) * c = 0 := by
      linear_combination -h3
    rcases mul_eq_zero.1 h5 with h6 | h6
    · exact absurd h6 (mul_pos (by linarith : (0 : K) < g.nz) h4).ne'
    · exact h6
  · rintro rfl i k hi hk r hr
    rw [rect_faceZ g sq hsq n hn slab hR.ne'] at hr
    cases hr
    unfold fluxZ
    dsimp only
    rw [(C155_coefs_partial g sq hsq n hn slab hR.ne' hZ hz).2 i k hi hk]
    unfold coefOf linearOn RectPol.dagpPol RectPol.pol
    dsimp only
    ring

example (h : ∀ i k, i + 2 < 5 → k < 6 → ∀ r, faceVector id false rotZ (zFace 4 (RectPol.dagpPol (⟨5, 6, 1 / 2, 1 / 4, 3, 0⟩ : RectPol ℚ)) i k) = some r →
    fluxZ 6 (fun i k => coefOf (coefZ id 4 false (RectPol.dagpPol ⟨5, 6, 1 / 2, 1 / 4, 3, 0⟩) i k)) (linearOn (RectPol.dagpPol ⟨5, 6, 1 / 2, 1 / 4, 3, 0⟩) 1 2 3) i k = 2 * r.1 + 3 * r.2) :
    False :=
  absurd ((C84_iff (⟨5, 6, 1 / 2, 1 / 4, 3, 0⟩ : RectPol ℚ) id (fun _ ha => ha.ne') 4 (by norm_num) false (by norm_num) (by norm_num) (by norm_num) (by norm_num) (by norm_num) 1 2 3).1 h) (by norm_num)

/-! ## C76 -/

theorem touches_row (n r s k nr : ℕ) (hn : 0 < n) :
    (((r + s + r * n) / n = k ∨ (r + s + r * n) / n + 1 = k) ∧ ((r + s + r * n) % n = s ∨ (r + s + r * n) % n + 1 = s) ∧ (r + s + r * n) / n + 1 < nr) ↔
      (((r + s) / n + r = k ∨ (r + s) / n + r + 1 = k) ∧ ((r + s) % n = s ∨ (r + s) % n + 1 = s) ∧ (r + s) / n + r + 1 < nr) := by
  rw [Nat.add_mul_div_right _ _ hn, Nat.add_mul_mod_self_right]

/-- **C76.** The cell of the fallback touches the nearest node exactly if the node is in the first row, or in the second of only two, and is not the last of the row. -/
theorem C76_iff (m : PMesh K) (r s : ℕ) (hr : r < m.nr) (hs : s < m.nz) (h1 : 2 ≤ m.nr) (h2 : 2 ≤ m.nz) :
    Touches m (nodeCell m (r * m.nz + s)) r s ↔ s + 1 < m.nz ∧ (r = 0 ∨ r = 1 ∧ m.nr = 2) := by
  obtain ⟨n, hn⟩ : ∃ n, m.nz = n + 1 := ⟨m.nz - 1, by omega⟩
  have hn0 : 0 < n := by omega
  unfold Touches nodeCell
  by_cases hl : r + 1 = m.nr
  · obtain ⟨r, rfl⟩ : ∃ k, r = k + 1 := ⟨r - 1, by omega⟩
    rw [if_pos (by rw [← hl, Nat.add_sub_cancel]; exact Nat.le_add_right _ _), hn, Nat.add_sub_cancel,
      show (r + 1) * (n + 1) + s - (n + 1) = r + s + r * n by rw [Nat.succ_mul, Nat.add_right_comm, Nat.add_sub_cancel]; ring, touches_row n r s _ _ hn0]
    by_cases hlt : r + s < n
    · rw [Nat.div_eq_of_lt hlt, Nat.mod_eq_of_lt hlt]
      omega
    · have : 1 ≤ (r + s) / n := (Nat.one_le_div_iff hn0).2 (by omega)
      omega
  · have : (r + 1) * m.nz ≤ (m.nr - 1) * m.nz := Nat.mul_le_mul_right _ (by omega)
    rw [Nat.succ_mul] at this
    rw [if_neg (by omega), hn, Nat.add_sub_cancel, show r * (n + 1) + s = r + s + r * n by ring, touches_row n r s _ _ hn0]
    by_cases hlt : r + s < n
    · rw [Nat.div_eq_of_lt hlt, Nat.mod_eq_of_lt hlt]
      omega
    · have : 1 ≤ (r + s) / n := (Nat.one_le_div_iff hn0).2 (by omega)
      omega

example : ¬ Touches (⟨5, 4, fun i j => ((i : ℚ), (j : ℚ)), 0⟩ : PMesh ℚ) (nodeCell ⟨5, 4, fun i j => ((i : ℚ), (j : ℚ)), 0⟩ (2 * 4 + 1)) 2 1 := fun h =>
  absurd ((C76_iff (⟨5, 4, fun i j => ((i : ℚ), (j : ℚ)), 0⟩ : PMesh ℚ) 2 1 (by decide) (by decide) (by decide) (by decide)).1 h) (by decide)

/-! ## C55 -/

/-- **C55.** At a fraction of a segment the position is right exactly if the fraction is zero, the segment has no length, or the angle of a segment is 1. -/
theorem C55_iff (l : RZLine K) (pi : K) (hpi : 0 < pi) (hn : 0 < l.pts.length) (k : ℕ) (f : K) (h0 : 0 ≤ f) (h1 : f < 1) :
    l.positionPolygon pi (((k : K) + f) * (2 * pi / (l.pts.length : K))) = onSegment (ptAt l.pts k) (ptAt l.pts (k + 1)) f ↔
      f = 0 ∨ ptAt l.pts k = ptAt l.pts (k + 1) ∨ 2 * pi = l.pts.length := by
  have hn' : (0 : K) < (l.pts.length : K) := by exact_mod_cast hn
  rw [C55_segment_partial l pi hpi hn k f h0 h1]
  generalize ptAt l.pts k = p
  generalize ptAt l.pts (k + 1) = q
  unfold onSegment
  rw [Prod.mk.injEq]
  have hd : 2 * pi / (l.pts.length : K) = 1 ↔ 2 * pi = l.pts.length := div_eq_one_iff_eq hn'.ne'
  rw [← hd]
  generalize 2 * pi / (l.pts.length : K) = d
  constructor
  · rintro ⟨e1, e2⟩
    have g1 : f * (d - 1) * (q.1 - p.1) = 0 := by linear_combination e1
    have g2 : f * (d - 1) * (q.2 - p.2) = 0 := by linear_combination e2
    by_cases hf : f = 0
    · exact Or.inl hf
    · by_cases hd : d = 1
      · exact Or.inr (Or.inr hd)
      · have hne : f * (d - 1) ≠ 0 := mul_ne_zero hf (sub_ne_zero.2 hd)
        refine Or.inr (Or.inl (Prod.ext ?_ ?_))
        · exact (sub_eq_zero.1 ((mul_eq_zero.1 g1).resolve_left hne)).symm
        · exact (sub_eq_zero.1 ((mul_eq_zero.1 g2).resolve_left hne)).symm
  · rintro (rfl | rfl | rfl)
    · simp
    · constructor <;> ring
    · simp

example : (⟨[(0, 0), (1, 0), (1, 1), (0, 1)], 1, fun _ _ => 0, fun _ _ => 0⟩ : RZLine ℚ).positionPolygon 3 (((2 : ℕ) + 1 / 2 : ℚ) * (2 * 3 / ((4 : ℕ) : ℚ))) ≠ (1 / 2, 1) := by
  intro h
  have := (C55_iff (⟨[(0, 0), (1, 0), (1, 1), (0, 1)], 1, fun _ _ => 0, fun _ _ => 0⟩ : RZLine ℚ) 3 (by norm_num) (by decide) 2 (1 / 2) (by norm_num) (by norm_num)).1
    (h.trans (by norm_num [ptAt, onSegment]))
  norm_num [ptAt] at this

/-! ## C33 -/

/-- **C33.** The maps of the samples are filled exactly if the maps of the slices in between are zero everywhere (with `nslice = 1` there are none). -/
theorem C33_iff (e : MmEnv K) (hf : FollowOk e) (nslice mxg r nc : ℕ) (empty : JState K) (m : ODict (MapVal K)) (h : makeMaps e nslice mxg 1 r nc empty = .ok m) :
    SubMapsFilled e nslice m ↔ ∀ d : ℤ, d ≠ 0 → d.natAbs < nslice → ∃ xt zt, m.get? (sliceName "xt_prime" d) = some (.f3 xt) ∧
      m.get? (sliceName "zt_prime" d) = some (.f3 zt) ∧ ∀ j < e.grid.ny, ∀ x z, xt (x, j, z) = 0 ∧ zt (x, j, z) = 0 := by
  constructor
  · intro hS d hd0 hd
    obtain ⟨xt, zt, xts, zts, e1, e2, e3, e4, e5⟩ := hS d hd0 hd.le
    obtain ⟨xts', zts', f1, f2, f3⟩ := C33_zero_between e hf nslice mxg 1 r nc empty m h d hd0 hd
    rw [e3] at f1
    rw [e4] at f2
    cases f1
    cases f2
    refine ⟨xt, zt, e1, e2, fun j hj x z => ?_⟩
    have a1 := e5 j hj x z
    have a2 := f3 j hj x z 0
    exact ⟨a1.1.symm.trans a2.1, a1.2.symm.trans a2.2⟩
  · intro hS d hd0 hd
    rcases hd.lt_or_eq with hd | hd
    · obtain ⟨xt, zt, e1, e2, e3⟩ := hS d hd0 hd
      obtain ⟨xts, zts, f1, f2, f3⟩ := C33_zero_between e hf nslice mxg 1 r nc empty m h d hd0 hd
      refine ⟨xt, zt, xts, zts, e1, e2, f1, f2, fun j hj x z => ?_⟩
      have a1 := e3 j hj x z
      have a2 := f3 j hj x z 0
      exact ⟨a2.1.trans a1.1.symm, a2.2.trans a1.2.symm⟩
    · exact C33_farthest_partial e hf nslice mxg r nc empty m h d hd0 hd

example (empty : JState ℚ) : ∃ m, FollowOk wallMm ∧ makeMaps wallMm 2 1 1 1 3 empty = .ok m := by
  obtain ⟨m, h⟩ := wallMm_succeeds 2 1 1 1 3 (by norm_num) (by norm_num) (by norm_num) empty
  exact ⟨m, exMm_follow [0, 1, 2] false false, h⟩

/-! ## C187 -/

/-- **C187.** With a spacing and a scale that are not zero the x coordinates are those of the cells exactly if there is only one. -/
theorem C187_iff (nx ny nz : ℕ) (dx dy scale : K) (hdx : dx ≠ 0) (hs : scale ≠ 0) (bx bz : Cell → K) (xt zt : Option (Cell → K)) (o : VtkOut K)
    (h : fciToVtk true nx ny nz dx dy (some bx) (some bz) xt zt scale = .ok (some o)) :
    (∀ i < nx, o.x.getD i 0 = (i : K) * dx * scale) ↔ nx ≤ 1 := by
  constructor
  · intro hx
    by_contra hn
    push Not at hn
    exact (C187_fails_x nx ny nz hn dx dy scale hdx hs bx bz xt zt o h 1 (by omega)).2 one_ne_zero (hx 1 (by omega))
  · intro hn i hi
    obtain rfl : i = 0 := by omega
    obtain rfl : nx = 1 := by omega
    cases h
    simp [linspaceClosed]

end

/-! ## C223 -/

/-- A continuous function whose absolute value has no larger integral than the function keeps its sign. -/
theorem one_sign {g : ℝ → ℝ} (hg : Continuous g) (h : (∫ t in (0 : ℝ)..1, |g t|) ≤ |∫ t in (0 : ℝ)..1, g t|) :
    (∀ t ∈ Icc (0 : ℝ) 1, 0 ≤ g t) ∨ ∀ t ∈ Icc (0 : ℝ) 1, g t ≤ 0 := by
  have main : ∀ g : ℝ → ℝ, Continuous g → (∫ t in (0 : ℝ)..1, |g t|) ≤ ∫ t in (0 : ℝ)..1, g t → ∀ t ∈ Icc (0 : ℝ) 1, 0 ≤ g t := by
    intro g hg h t ht
    by_contra hn
    push Not at hn
    have : 0 < ∫ t in (0 : ℝ)..1, (|g t| - g t) := by
      refine integral_pos one_pos (hg.abs.sub hg).continuousOn (fun x _ => sub_nonneg.2 (le_abs_self _)) ⟨t, ht, ?_⟩
      rw [abs_of_neg hn]
      linarith
    rw [integral_sub (hg.abs.intervalIntegrable _ _) (hg.intervalIntegrable _ _)] at this
    linarith
  rcases le_total 0 (∫ t in (0 : ℝ)..1, g t) with h0 | h0
  · rw [abs_of_nonneg h0] at h
    exact Or.inl (main g hg h)
  · rw [abs_of_nonpos h0] at h
    refine Or.inr fun t ht => ?_
    have := main (fun t => -g t) hg.neg (by simpa using h) t ht
    linarith

/-- **C223.** Exactly when the lengths stay below the arc length and approach it: if the interpolated angle does not turn back. -/
theorem C223_iff (spline) (hs : Interpolates spline) (rz : List (ℝ × ℝ)) (ys : List ℝ) (hn : 2 ≤ ys.length) (y R Z : ℝ → ℝ)
    (h1 : spline (linspaceClosed 0 1 ys.length) ys = .ok y) (h2 : spline ys (rz.map Prod.fst) = .ok R) (h3 : spline ys (rz.map Prod.snd) = .ok Z)
    (hy : ContDiff ℝ 2 y) (hR : ContDiff ℝ 2 R) (hZ : ContDiff ℝ 2 Z) (hR0 : ∀ s, R s ≠ 0) :
    (∃ C, ∀ refine : ℕ, 1 ≤ refine → ∃ L, fieldLineLength (realLen spline) rz ys refine = .ok L ∧
      L ≤ |∫ s in (ys.getD 0 0)..(ys.getD (ys.length - 1) 0), √(deriv R s ^ 2 + R s ^ 2 + deriv Z s ^ 2)| ∧
      |∫ s in (ys.getD 0 0)..(ys.getD (ys.length - 1) 0), √(deriv R s ^ 2 + R s ^ 2 + deriv Z s ^ 2)| - C / ((ys.length - 1) * refine : ℕ) ≤ L) ↔
    ((∀ t ∈ Icc (0 : ℝ) 1, 0 ≤ deriv y t) ∨ ∀ t ∈ Icc (0 : ℝ) 1, deriv y t ≤ 0) := by
  refine ⟨fun ⟨D, hD⟩ => ?_, C223_arc_partial spline hs rz ys hn y R Z h1 h2 h3 hy hR hZ⟩
  obtain ⟨C, hC⟩ := polygon_length (spaceCurve_smooth hy hR hZ)
  have y0 : y 0 = ys.getD 0 0 := by
    have := hs _ _ _ h1 0 (by simp [linspaceClosed]; omega)
    rwa [fine_linspace_getD (by omega), if_neg (by omega), Nat.cast_zero, zero_mul, add_zero] at this
  have y1 : y 1 = ys.getD (ys.length - 1) 0 := by
    have := hs _ _ _ h1 (ys.length - 1) (by simp [linspaceClosed]; omega)
    rw [fine_linspace_getD (by omega), if_neg (by omega), Nat.cast_sub (by omega)] at this
    have hne : ((ys.length : ℝ)) - 1 ≠ 0 := by
      have : (2 : ℝ) ≤ ys.length := by exact_mod_cast hn
      intro h
      linarith
    rw [← this]
    congr 1
    push_cast
    field_simp
    ring
  have cs := lineSpeed_continuous hR hZ
  have pos : ∀ s, 0 < lineSpeed R Z s := by
    intro s
    unfold lineSpeed
    have := hR0 s
    positivity
  have sub : (∫ t in (0 : ℝ)..1, (lineSpeed R Z ∘ y) t * deriv y t) = ∫ s in (y 0)..(y 1), lineSpeed R Z s :=
    integral_comp_mul_deriv (fun x _ => (hy.differentiable (by norm_num) x).hasDerivAt) ((hy.continuous_deriv (by norm_num)).continuousOn) cs
  have hle : (∫ t in (0 : ℝ)..1, ‖deriv (spaceCurve y R Z) t‖) ≤ |∫ s in (y 0)..(y 1), lineSpeed R Z s| := by
    by_contra hlt
    push Not at hlt
    set lam := ∫ t in (0 : ℝ)..1, ‖deriv (spaceCurve y R Z) t‖
    set arc := |∫ s in (y 0)..(y 1), lineSpeed R Z s| with harc
    obtain ⟨r0, hr0⟩ := exists_nat_gt (max 1 (C / (lam - arc)))
    have q1 : (1 : ℝ) < r0 := (le_max_left _ _).trans_lt hr0
    have q2 : C / (lam - arc) < r0 := (le_max_right _ _).trans_lt hr0
    have hr : 1 ≤ r0 := by
      have : 1 < r0 := by exact_mod_cast q1
      omega
    obtain ⟨L, e1, e2, -⟩ := hD r0 hr
    rw [fieldLineLength_polygon spline rz ys r0 hn hr y R Z h1 h2 h3] at e1
    cases e1
    have hb := (hC _ (Nat.mul_pos (show 0 < ys.length - 1 by omega) hr)).2
    have hL : lam - C / ((ys.length - 1) * r0 : ℕ) ≤ arc := by
      rw [harc, y0, y1]
      exact hb.trans e2
    have hge : (r0 : ℝ) ≤ ((ys.length - 1) * r0 : ℕ) := by
      have : 1 * r0 ≤ (ys.length - 1) * r0 := Nat.mul_le_mul_right _ (by omega)
      rw [one_mul] at this
      exact_mod_cast this
    have hNp : (0 : ℝ) < ((ys.length - 1) * r0 : ℕ) := by linarith
    have hd : 0 < lam - arc := by linarith
    rw [div_lt_iff₀ hd] at q2
    have : C / ((ys.length - 1) * r0 : ℕ) < lam - arc := by
      rw [div_lt_iff₀ hNp]
      nlinarith
    linarith
  have hc : Continuous fun t => lineSpeed R Z (y t) * deriv y t := (cs.comp hy.continuous).mul (hy.continuous_deriv (by norm_num))
  have habs : (∫ t in (0 : ℝ)..1, |lineSpeed R Z (y t) * deriv y t|) ≤ |∫ t in (0 : ℝ)..1, lineSpeed R Z (y t) * deriv y t| := by
    have e1 : (∫ t in (0 : ℝ)..1, |lineSpeed R Z (y t) * deriv y t|) = ∫ t in (0 : ℝ)..1, ‖deriv (spaceCurve y R Z) t‖ := by
      refine integral_congr fun t _ => ?_
      rw [spaceCurve_speed hy hR hZ, abs_mul, abs_of_pos (pos _)]
    rw [e1]
    refine hle.trans_eq ?_
    rw [← sub]
    rfl
  rcases one_sign hc habs with h | h
  · exact Or.inl fun t ht => nonneg_of_mul_nonneg_right (h t ht) (pos _)
  · exact Or.inr fun t ht => by
      by_contra hn
      push Not at hn
      have := mul_pos (pos (y t)) hn
      linarith [h t ht]

/-- Three points of a line that turns back meet the hypotheses. -/
example : ∃ y R Z : ℝ → ℝ, parabola (linspaceClosed 0 1 3) [0, 1, 1] = .ok y ∧ ContDiff ℝ 2 y ∧ ¬ ((∀ t ∈ Icc (0 : ℝ) 1, 0 ≤ deriv y t) ∨ ∀ t ∈ Icc (0 : ℝ) 1, deriv y t ≤ 0) ∧
    ContDiff ℝ 2 R ∧ ContDiff ℝ 2 Z ∧ ∀ s, R s ≠ 0 := by
  have l3 : linspaceClosed (0 : ℝ) 1 3 = [0, 1 / 2, 1] := by
    simp [linspaceClosed, List.range_succ]
    norm_num
  have h1 := parabola_three 0 (1 / 2) 1 0 1 1 (by norm_num) (by norm_num)
  have e1 : (fun x : ℝ => 0 * ((x - 1 / 2) * (x - 1) / ((0 - 1 / 2) * (0 - 1))) + 1 * ((x - 0) * (x - 1) / ((1 / 2 - 0) * (1 / 2 - 1))) +
      1 * ((x - 0) * (x - 1 / 2) / ((1 - 0) * (1 - 1 / 2)))) = fun x => 3 * x + -2 * x ^ 2 := by
    funext x
    ring
  rw [e1, ← l3] at h1
  refine ⟨_, fun _ => 1, fun _ => 0, h1, parabola_smooth _ _ _ h1, ?_, contDiff_const, contDiff_const, fun _ => one_ne_zero⟩
  have hd : ∀ t : ℝ, deriv (fun x : ℝ => 3 * x + -2 * x ^ 2) t = 3 - 4 * t := by
    intro t
    have := (((hasDerivAt_id' t).const_mul 3).add ((hasDerivAt_pow 2 t).const_mul (-2))).deriv
    refine Eq.trans ?_ (this.trans ?_)
    · rfl
    · norm_num
      ring
  rintro (h | h)
  · have := h 1 (by norm_num)
    rw [hd] at this
    norm_num at this
  · have := h 0 (by norm_num)
    rw [hd] at this
    norm_num at this

end Zoidberg

namespace Zoidberg.Weights

/-! ## C258 -/

/-- Lines that end half way between the points in both directions. -/
noncomputable def saddleIn : Input ℝ := ⟨7, 1, 4, 1, 1, fun c _ => (c.1 : ℝ) + 1 / 2, fun _ _ => 3 / 2, fun c _ => (c.1 : ℝ) + 1 / 2, fun _ _ => 3 / 2, [1]⟩

noncomputable def saddleMaps : MapDict ℝ := fun k =>
  if k = "R" then some (.arr3 7 1 4 fun _ => 0)
  else if k = "MXG" then some (.nat 1)
  else if k = "forward_xt_prime" then some (.arr3 7 1 4 fun c => (c.1 : ℝ) + 1 / 2)
  else if k = "forward_zt_prime" then some (.arr3 7 1 4 fun _ => 3 / 2)
  else if k = "backward_xt_prime" then some (.arr3 7 1 4 fun c => (c.1 : ℝ) + 1 / 2)
  else if k = "backward_zt_prime" then some (.arr3 7 1 4 fun _ => 3 / 2)
  else none

theorem saddleMaps_represents : Represents saddleMaps saddleIn where
  shape := ⟨fun _ => 0, by simp [saddleMaps, saddleIn]⟩
  mxg := by simp [saddleMaps, saddleIn]
  fx := Or.inr ⟨by simp [saddleMaps], rfl, _, by simp [saddleMaps, saddleIn]; rfl, rfl⟩
  fz := Or.inr ⟨by simp [saddleMaps], rfl, _, by simp [saddleMaps, saddleIn]; rfl, rfl⟩
  bx := Or.inr ⟨by simp [saddleMaps], rfl, _, by simp [saddleMaps, saddleIn]; rfl, rfl⟩
  bz := Or.inr ⟨by simp [saddleMaps], rfl, _, by simp [saddleMaps, saddleIn]; rfl, rfl⟩
  w := Or.inr ⟨by simp [saddleMaps], rfl, rfl⟩

theorem saddleIn_good : saddleIn.GoodWeights where
  len := rfl
  sum := by norm_num [saddleIn]
  pos := by intro v hv; simp [saddleIn] at hv; simp [hv]

/-- 1 on the four cells around the end and at the corners, -1 at the sides. -/
noncomputable def saddle (k : ℤ) : ℝ := (if k / 4 = 1 ∨ k / 4 = 2 then 1 else -1) * if k % 4 = 1 ∨ k % 4 = 2 then 1 else -1

theorem saddle_le (k : ℤ) : |saddle k| ≤ 1 := by
  unfold saddle
  split_ifs <;> norm_num

theorem saddle_at (o : Ops ℝ) (ho : calculateOps (fun _ => 0) (fun _ => 0) saddleMaps = .ok o) (x z : ℕ) (h1 : 1 ≤ x) (h2 : x < 6) (h3 : z < 4) :
    saddle (o.cellNumber (x, 0, z)) = (if x = 2 ∨ x = 3 then 1 else -1) * if z = 1 ∨ z = 2 then 1 else -1 := by
  have := (C02_numbering_order _ _ _ _ saddleMaps_represents (by simp [saddleIn]) o ho).1 x 0 z (by simpa [saddleIn] using h1)
    (by simp only [saddleIn]; omega) (by simp [saddleIn]) (by simpa [saddleIn] using h3)
  rw [this]
  have : (((x - saddleIn.mxg) * saddleIn.ny + 0) * saddleIn.nz + z : ℕ) = (x - 1) * 4 + z := by simp [saddleIn]
  rw [this, saddle]
  congr 1
  · congr 1
    apply propext
    omega
  · congr 1
    apply propext
    omega

theorem saddle_interp (o : Ops ℝ) (ho : calculateOps (fun _ => 0) (fun _ => 0) saddleMaps = .ok o) :
    saddleIn.interp (fun d => saddle (o.cellNumber d)) 0 (5 / 2) (3 / 2) = 25 / 16 := by
  have f1 : ⌊(5 / 2 : ℝ)⌋ = 2 := by norm_num [Int.floor_eq_iff]
  have f2 : ⌊(3 / 2 : ℝ)⌋ = 1 := by norm_num [Int.floor_eq_iff]
  have c0 : saddleIn.clampX (2 + -1) = 1 := by simp [Input.clampX, saddleIn]
  have c1 : saddleIn.clampX (2 + 0) = 2 := by simp [Input.clampX, saddleIn]
  have c2 : saddleIn.clampX (2 + 1) = 3 := by simp [Input.clampX, saddleIn]
  have c3 : saddleIn.clampX (2 + 2) = 4 := by simp [Input.clampX, saddleIn]
  have z0 : ((1 + -1 : ℤ) % ((saddleIn.nz : ℕ) : ℤ)).toNat = 0 := by simp [saddleIn]
  have z1 : ((1 + 0 : ℤ) % ((saddleIn.nz : ℕ) : ℤ)).toNat = 1 := by simp [saddleIn]
  have z2 : ((1 + 1 : ℤ) % ((saddleIn.nz : ℕ) : ℤ)).toNat = 2 := by simp [saddleIn]
  have z3 : ((1 + 2 : ℤ) % ((saddleIn.nz : ℕ) : ℤ)).toNat = 3 := by simp [saddleIn]
  unfold Input.interp
  simp only [f1, f2]
  unfold catmullRomSpline
  simp only [c0, c1, c2, c3, z0, z1, z2, z3]
  have v := fun x z h1 h2 h3 => saddle_at o ho x z h1 h2 h3
  rw [v 1 0 (by norm_num) (by norm_num) (by norm_num), v 1 1 (by norm_num) (by norm_num) (by norm_num), v 1 2 (by norm_num) (by norm_num) (by norm_num),
    v 1 3 (by norm_num) (by norm_num) (by norm_num), v 2 0 (by norm_num) (by norm_num) (by norm_num), v 2 1 (by norm_num) (by norm_num) (by norm_num),
    v 2 2 (by norm_num) (by norm_num) (by norm_num), v 2 3 (by norm_num) (by norm_num) (by norm_num), v 3 0 (by norm_num) (by norm_num) (by norm_num),
    v 3 1 (by norm_num) (by norm_num) (by norm_num), v 3 2 (by norm_num) (by norm_num) (by norm_num), v 3 3 (by norm_num) (by norm_num) (by norm_num),
    v 4 0 (by norm_num) (by norm_num) (by norm_num), v 4 1 (by norm_num) (by norm_num) (by norm_num), v 4 2 (by norm_num) (by norm_num) (by norm_num),
    v 4 3 (by norm_num) (by norm_num) (by norm_num)]
  norm_num

/-- **C258.** The factor 25/16 of `C258_partial` cannot be improved (up to the weights that are skipped): it is reached half way between the points in both directions. -/
theorem C258_sharp : ∃ (maps : MapDict ℝ) (i : Input ℝ) (o : Ops ℝ) (c : Cell) (v : ℤ → ℝ), Represents maps i ∧ 2 * i.mxg ≤ i.nx ∧ i.GoodWeights ∧
    calculateOps (fun _ => 0) (fun _ => 0) maps = .ok o ∧ i.Interior c ∧ i.SomeStay true c ∧ (∀ s ∈ i.staying true c, 0 ≤ i.zs true c s) ∧ (∀ k, |v k| ≤ 1) ∧
    25 / 16 - 5 / 10 ^ 10 ≤ applyRow ((o.legs true).op.row ((o.legs true).legInterior c).toNat) v := by
  obtain ⟨o, ho⟩ := C10_assembly_succeeds (fun _ => 0) (fun _ => 0) saddleMaps saddleIn saddleMaps_represents (by simp [saddleIn]) saddleIn_good
  have hin : saddleIn.Interior (2, 0, 0) := by simp [Input.Interior, saddleIn]
  have hs : saddleIn.SomeStay true (2, 0, 0) := ⟨0, by simp [saddleIn], by norm_num [Input.Escapes, Input.xs, saddleIn]⟩
  have hz : ∀ s ∈ saddleIn.staying true (2, 0, 0), 0 ≤ saddleIn.zs true (2, 0, 0) s := fun s _ => by norm_num [Input.zs, saddleIn]
  refine ⟨saddleMaps, saddleIn, o, (2, 0, 0), saddle, saddleMaps_represents, by simp [saddleIn], saddleIn_good, ho, hin, hs, hz, saddle_le, ?_⟩
  have hst : saddleIn.staying true (2, 0, 0) = {0} := by
    ext s
    simp only [Input.staying, Finset.mem_filter, Finset.mem_range, Finset.mem_singleton]
    constructor
    · rintro ⟨h, -⟩
      simpa [saddleIn] using h
    · rintro rfl
      exact ⟨by simp [saddleIn], by norm_num [Input.Escapes, Input.xs, saddleIn]⟩
  have hx : saddleIn.xs true (2, 0, 0) 0 = 5 / 2 := by norm_num [Input.xs, saddleIn]
  have hz0 : saddleIn.zs true (2, 0, 0) 0 = 3 / 2 := rfl
  have hw : saddleIn.w.getD 0 0 = 1 := rfl
  have hpl : saddleIn.plane true 0 = 0 := by simp [Input.plane, saddleIn]
  have h2 := (C13_row_is_interpolation_partial _ _ saddleMaps saddleIn saddleMaps_represents (by simp [saddleIn]) saddleIn_good o ho true (2, 0, 0) hin hs hz saddle).1 1 saddle_le
  unfold Input.legAverage at h2
  rw [hst, Finset.sum_singleton, Finset.sum_singleton, hx, hw, hz0, hpl, saddle_interp o ho] at h2
  norm_num at h2 ⊢
  linarith [(abs_le.1 h2).1]

end Zoidberg.Weights
