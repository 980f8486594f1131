import Verif.Props.FusionTracer
import Verif.Props.FieldMore
import Verif.Props.FieldData
import Verif.Props.GetMetric
import Mathlib.Tactic.LinearCombination
import Mathlib.Tactic.FieldSimp
import Mathlib.Tactic.IntervalCases

/-!
# Exact conditions: C27, C77, C141, C179
-/

set_option linter.unusedSectionVars false

namespace Zoidberg

variable {K : Type} [Field K] [LinearOrder K] [IsStrictOrderedRing K] [FloorRing K]

/-- **C77**, exactly: `rtol` has the effect it should have on all tracers exactly if it is what they were made with. -/
theorem C77_iff {V : Type} (kw : Dict V) (r : V) :
    (∀ (fsc : FscCall V → Except Err (List (List (ℝ × ℝ × ℝ)))) (x z : FArr ℝ) (ys : List ℝ),
      fusionFollow fsc kw x z ys (some r) = fusionFollow fsc (kw.set "targetError" r) x z ys none) ↔ kw "targetError" = some r := by
  classical
  constructor
  · intro h
    by_contra hne
    have := h (fun c => if c.kwargs "targetError" = some r then .ok [] else .error (.value "")) ⟨[], [0]⟩ ⟨[], [0]⟩ [0, 1]
    unfold fusionFollow Dict.set at this
    simp [Except.map, hne] at this
  · intro h fsc x z ys
    exact C77_same_partial fsc kw x z ys r h

example : ¬ ∀ (fsc : FscCall ℕ → Except Err (List (List (ℝ × ℝ × ℝ)))) (x z : FArr ℝ) (ys : List ℝ),
    fusionFollow fsc (fun _ => some 1) x z ys (some 2) = fusionFollow fsc (Dict.set (fun _ => some 1) "targetError" 2) x z ys none := by
  rw [C77_iff]
  decide

/-- **C179**, exactly: a row of values does not depend on the memory it is written to exactly if the service does not give fewer lines than asked for. -/
theorem C179_iff (n i : ℕ) (vs : List (ℝ × ℝ × ℝ)) : (∀ e e', webRow e n i vs = webRow e' n i vs) ↔ n ≤ vs.length := by
  constructor
  · intro h
    by_contra hlt
    push Not at hlt
    have h1 := h (fun _ _ => (0, 0)) (fun _ _ => (1, 1))
    unfold webRow at h1
    rw [if_neg (by omega), if_neg (by omega)] at h1
    injection h1 with h1
    have h2 := congrArg (fun l => l[vs.length]?) h1
    simp [hlt] at h2
  · intro h e e'
    unfold webRow
    split_ifs
    · rfl
    · congr 1
      apply List.map_congr_left
      intro j hj
      rw [List.mem_range] at hj
      rw [List.getElem?_eq_getElem (by omega)]

example : (∀ e e', webRow e 1 0 [(1, 2, 3)] = webRow e' 1 0 [(1, 2, 3)]) ∧ ¬ ∀ e e', webRow e 2 0 [(1, 2, 3)] = webRow e' 2 0 [(1, 2, 3)] := by
  rw [C179_iff, C179_iff]
  decide

theorem rolling_getD (f r : List K) (h : rollingAverage f = .ok r) (i : ℕ) (hi : i < f.length) :
    3 ≤ f.length ∧ r.getD i 0 = if i + 1 = f.length then 2 * f.getD (f.length - 2) 0 - f.getD (f.length - 3) 0
    else if 2 ≤ i ∧ i + 2 < f.length then 1 / 2 * (f.getD i 0 + f.getD (i + 1) 0)
    else if i = 0 then f.getD 1 0 - 1 / 2 * f.getD 2 0
    else 0 := by
  unfold rollingAverage at h
  split_ifs at h with h3
  injection h with h
  refine ⟨by omega, ?_⟩
  rw [← h, List.getD_eq_getElem _ _ (by simpa using hi)]
  simp

/-- **C141**, exactly: the means are right exactly if the second and third surface, and the last two, have opposite values. -/
theorem C141_iff (f r : List K) (h : rollingAverage f = .ok r) :
    (∀ i, 1 ≤ i → i + 1 < f.length → r.getD i 0 = (f.getD i 0 + f.getD (i + 1) 0) / 2) ↔
      f.getD 1 0 + f.getD 2 0 = 0 ∧ f.getD (f.length - 2) 0 + f.getD (f.length - 1) 0 = 0 := by
  have h3 : 3 ≤ f.length := by
    unfold rollingAverage at h
    split_ifs at h with h3
    omega
  constructor
  · intro hm
    constructor
    · have a := hm 1 le_rfl (by omega)
      rw [(rolling_getD f r h 1 (by omega)).2, if_neg (by omega), if_neg (by omega), if_neg (by omega)] at a
      have := a.symm
      field_simp at this
      simpa using this
    · have a := hm (f.length - 2) (by omega) (by omega)
      rw [(rolling_getD f r h (f.length - 2) (by omega)).2, if_neg (by omega), if_neg (by omega), if_neg (by omega)] at a
      have e : f.length - 2 + 1 = f.length - 1 := by omega
      rw [e] at a
      have := a.symm
      field_simp at this
      simpa using this
  · rintro ⟨h1, h2⟩ i hi1 hi2
    rw [(rolling_getD f r h i (by omega)).2, if_neg (by omega)]
    by_cases hm : 2 ≤ i ∧ i + 2 < f.length
    · rw [if_pos hm]
      ring
    · rw [if_neg hm, if_neg (by omega)]
      rcases (by omega : i = 1 ∨ i = f.length - 2) with rfl | rfl
      · rw [h1]
        simp
      · rw [show f.length - 2 + 1 = f.length - 1 by omega, h2]
        simp

/-- **C141**, exactly: of the constants only zero is kept. -/
theorem C141_const_iff (c : K) (n : ℕ) (hn : 3 ≤ n) : rollingAverage (List.replicate n c) = .ok (List.replicate n c) ↔ c = 0 := by
  have hg : ∀ i, i < n → (List.replicate n c).getD i 0 = c := fun i hi => by
    rw [List.getD_eq_getElem _ _ (by simpa using hi), List.getElem_replicate]
  constructor
  · intro h
    have := (rolling_getD _ _ h 1 (by simp; omega)).2
    rw [if_neg (by simp; omega), if_neg (by omega), if_neg (by omega), hg 1 (by omega)] at this
    exact this
  · rintro rfl
    unfold rollingAverage
    rw [if_neg (by simp; omega)]
    have hz : ∀ i, (List.replicate n (0 : K)).getD i 0 = 0 := fun i => by
      by_cases hi : i < n
      · exact hg i hi
      · rw [List.getD_eq_default _ _ (by simpa using hi)]
    simp only [hz]
    congr 1
    apply List.ext_getElem
    · simp
    · intro i h1 h2
      simp

example : (∀ r, rollingAverage [5, -1, 1, 2, -2] = .ok r → ∀ i, 1 ≤ i → i + 1 < 5 → r.getD i 0 = (([5, -1, 1, 2, -2] : List ℚ).getD i 0 + [5, -1, 1, 2, -2].getD (i + 1) 0) / 2) := by
  intro r h
  exact (C141_iff _ r h).2 ⟨by norm_num, by norm_num⟩

/-- **C27**, exactly: in Cartesian coordinates every call gives the same component exactly if the field has no poloidal part or vanishes at each point. -/
theorem C27_iff (sqrt : K → K) (g : Grid (PolGrid K) K) (l : List (PolGrid K)) (ys : List K) (h : MetricGrid g l ys) (f : MagField K) (hR : f.Rfunc = none) :
    (∀ n m b a m0 b0 a0, nthCall sqrt g f n = .ok (m, b) → nthCall sqrt g f 0 = .ok (m0, b0) → m.get? "g_yy" = some a → m0.get? "g_yy" = some a0 →
      ∀ c : Cell, c.2.1 < ys.length → a c = a0 c) ↔
    ∀ c : Cell, c.2.1 < ys.length → |evalAt l ys f.Bmag c / evalAt l ys f.Byfunc c| = 1 ∨ evalAt l ys f.Bmag c / evalAt l ys f.Byfunc c = 0 := by
  constructor
  · intro hs c hc
    obtain ⟨m, b, a, e1, e2, e3⟩ := C27_cartesian_history_partial sqrt g l ys h f hR 1
    obtain ⟨m0, b0, a0, f1, f2, f3⟩ := C27_cartesian_history_partial sqrt g l ys h f hR 0
    have := hs 1 m b a m0 b0 a0 e1 f1 e2 f2 c hc
    rw [e3 c hc, f3 c hc] at this
    set q := evalAt l ys f.Bmag c / evalAt l ys f.Byfunc c
    have e : q ^ 2 * (q ^ 2 - 1) = 0 := by linear_combination this
    rcases mul_eq_zero.1 e with e | e
    · right
      exact pow_eq_zero_iff (two_ne_zero) |>.1 e
    · left
      have : |q| ^ 2 = 1 := by rw [sq_abs]; linear_combination e
      have h2 : (|q| - 1) * (|q| + 1) = 0 := by linear_combination this
      rcases mul_eq_zero.1 h2 with h2 | h2
      · linarith
      · linarith [abs_nonneg q]
  · intro hq n m b a m0 b0 a0 e1 f1 e2 f2 c hc
    obtain ⟨m', b', a', e1', e2', e3'⟩ := C27_cartesian_history_partial sqrt g l ys h f hR n
    obtain ⟨m0', b0', a0', f1', f2', f3'⟩ := C27_cartesian_history_partial sqrt g l ys h f hR 0
    rw [e1] at e1'
    rw [f1] at f1'
    injection e1' with e1'
    injection e1' with ea _
    injection f1' with f1'
    injection f1' with fa _
    subst ea fa
    rw [e2] at e2'
    rw [f2] at f2'
    injection e2' with e2'
    injection f2' with f2'
    subst e2' f2'
    rw [e3' c hc, f3' c hc]
    rcases hq c hc with hq | hq
    · have : (evalAt l ys f.Bmag c / evalAt l ys f.Byfunc c) ^ 2 = 1 := by rw [← sq_abs, hq, one_pow]
      rw [this, one_pow, one_pow]
    · rw [hq]
      simp

/-- A case: |B| = 1 and By = -1. -/
example : ∀ n m b a m0 b0 a0, nthCall id exMetricGrid ⟨none, fun _ _ _ => 1, fun _ _ _ => 0, fun _ _ _ => -1, []⟩ n = .ok (m, b) →
    nthCall id exMetricGrid ⟨none, fun _ _ _ => 1, fun _ _ _ => 0, fun _ _ _ => -1, []⟩ 0 = .ok (m0, b0) → m.get? "g_yy" = some a → m0.get? "g_yy" = some a0 →
      ∀ c : Cell, c.2.1 < 3 → a c = a0 c := by
  have hmg : MetricGrid exMetricGrid [exPol true, exPol true, exPol true] [0, 1, 3] :=
    ⟨⟨_, _, _, exMetricGrid_init⟩, by simp [exPol_complete], Or.inl (by simp [PolGrid.ProvidesJ, exPol])⟩
  refine (C27_iff id exMetricGrid _ _ hmg _ rfl).2 fun c hc => Or.inl ?_
  have hc' : c.2.1 < 3 := hc
  unfold evalAt
  obtain ⟨x, y, z⟩ := c
  simp only at hc'
  interval_cases y <;> simp

end Zoidberg
