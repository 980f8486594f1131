import Verif.Proofs.WeightsOps
import Mathlib.Algebra.BigOperators.Ring.Finset
import Mathlib.Algebra.BigOperators.Field
import Mathlib.Algebra.Order.BigOperators.Group.Finset
import Mathlib.Algebra.Order.BigOperators.Ring.Finset
import Mathlib.Tactic.Linarith
import Mathlib.Tactic.Positivity
import Mathlib.Tactic.NormNum

/-! The assembled rows as interpolation. -/

set_option linter.unusedSectionVars false

namespace Zoidberg.Weights

variable {K : Type} [Field K] [LinearOrder K] [IsStrictOrderedRing K] [FloorRing K]

theorem applyRow_append (a b : List (ℤ × K)) (v : ℤ → K) :
    applyRow (a ++ b) v = applyRow a v + applyRow b v := by
  simp [applyRow]

theorem applyRow_flatMap {ε : Type} (L : List ε) (f : ε → List (ℤ × K)) (v : ℤ → K) :
    applyRow (L.flatMap f) v = (L.map fun e => applyRow (f e) v).sum := by
  induction L with
  | nil => simp [applyRow]
  | cons e L ih => rw [List.flatMap_cons, applyRow_append, ih]; simp

theorem list_range_sum (n : ℕ) (f : ℕ → K) :
    ((List.range n).map f).sum = ∑ s ∈ Finset.range n, f s := by
  induction n with
  | zero => simp
  | succ n ih => rw [List.range_succ, Finset.sum_range_succ, ← ih]; simp

theorem samples_eq (n : ℕ) (x z : ℕ → K) (w : List K) (m : ℕ → Bool) (hw : w.length = n) :
    ((List.range n).map x).zip (((List.range n).map z).zip (w.zip ((List.range n).map m))) =
      (List.range n).map fun s => (x s, z s, w.getD s 0, m s) := by
  apply List.ext_getElem
  · simp [hw]
  · intro k h1 h2
    simp only [List.length_map, List.length_range] at h2
    simp [List.getD_eq_getElem?_getD, List.getElem?_eq_getElem (by omega : k < w.length)]

theorem sum_filter_list (L : List (K × Bool)) :
    ((L.filter (fun p => p.2)).map (fun p => p.1)).sum =
      (L.map fun p => if p.2 then p.1 else 0).sum := by
  induction L with
  | nil => simp
  | cons p L ih =>
    rw [List.filter_cons, List.map_cons, List.sum_cons, ← ih]
    cases h : p.2 <;> simp

/-- A masked sum as a sum over the selected indices. -/
theorem maskedSum_eq (n : ℕ) (w : List K) (m : ℕ → Bool) (hw : w.length = n) :
    maskedSum w ((List.range n).map m) = ∑ s ∈ (Finset.range n).filter (fun s => m s = true),
      w.getD s 0 := by
  have e : w.zip ((List.range n).map m) = (List.range n).map fun s => (w.getD s 0, m s) := by
    apply List.ext_getElem
    · simp [hw]
    · intro k h1 h2
      simp only [List.length_map, List.length_range] at h2
      simp [List.getD_eq_getElem?_getD, List.getElem?_eq_getElem (by omega : k < w.length)]
  rw [maskedSum, e, sum_filter_list, List.map_map, list_range_sum, Finset.sum_filter]
  rfl

theorem maskedSum_staying (i : Input K) (fwd : Bool) (c : Cell) (hw : i.w.length = i.n) :
    maskedSum i.w (((((SubArr.mk i.n (i.xs fwd)).row c).map fun x => hits x i.nx i.mxg)).map not) =
      ∑ s ∈ i.staying fwd c, i.w.getD s 0 := by
  rw [SubArr.row, List.map_map, List.map_map, maskedSum_eq _ _ _ hw]
  apply Finset.sum_congr _ (fun _ _ => rfl)
  unfold Input.staying
  apply Finset.filter_congr
  intro s _
  rw [← hits_iff]
  simp [Function.comp_apply]

theorem maskedSum_escaping (i : Input K) (fwd : Bool) (c : Cell) (hw : i.w.length = i.n) :
    maskedSum i.w ((((SubArr.mk i.n (i.xs fwd)).row c).map fun x => hits x i.nx i.mxg)) =
      ∑ s ∈ Finset.range i.n \ i.staying fwd c, i.w.getD s 0 := by
  rw [SubArr.row, List.map_map, maskedSum_eq _ _ _ hw]
  apply Finset.sum_congr _ (fun _ _ => rfl)
  ext s
  simp only [Input.staying, Finset.mem_sdiff, Finset.mem_filter, Finset.mem_range,
    Function.comp_apply]
  rw [← hits_iff]
  tauto

/-- The value of the z-interpolation in one X row. -/
def zApply (shape : ℕ × ℕ × ℕ) (cellNumber : Cell → ℤ) (xBase zBase y yOff : ℤ) (wz : List K)
    (v : ℤ → K) (xo : ℤ) : K :=
  ((xOffsets.zip wz).map fun p => p.2 * v (cellNumber
    ( (npClip (xBase + xo) 0 ((shape.1 : ℤ) - 1)).toNat
    , (pyMod (y + yOff + shape.2.1) shape.2.1).toNat
    , (pyMod (zBase + p.1 + shape.2.2) shape.2.2).toNat ))).sum

theorem applyRow_contribX (shape : ℕ × ℕ × ℕ) (cellNumber : Cell → ℤ) (xBase zBase y yOff : ℤ)
    (scale : K) (wz : List K) (p : ℤ × K) (v : ℤ → K) :
    applyRow (contribX shape cellNumber xBase zBase y yOff scale wz p) v =
      scale * ((if |p.2| < 1 / 10 ^ 10 then 0 else p.2) *
        zApply shape cellNumber xBase zBase y yOff wz v p.1) := by
  unfold contribX
  split
  · simp [applyRow]
  · unfold applyRow zApply
    rw [List.map_map]
    generalize xOffsets.zip wz = L
    induction L with
    | nil => simp
    | cons q L ih =>
      simp only [List.map_cons, List.sum_cons, mul_add, ← ih, contribZ, Function.comp_apply]
      ring

/-- Thresholding of small weights. -/
def thr (a : K) : K := if |a| < 1 / 10 ^ 10 then 0 else a

theorem abs_sub_thr (a : K) : |a - thr a| ≤ 1 / 10 ^ 10 := by
  unfold thr
  split
  · rename_i h; simpa using h.le
  · simp

/-- Contribution of a staying sub-sample, applied to a vector. -/
theorem applyRow_contribSample (shape : ℕ × ℕ × ℕ) (cellNumber : Cell → ℤ) (y yOff : ℤ) (mxg : ℕ)
    (iw : K) (s : K × K × K × Bool) (v : ℤ → K) :
    applyRow (contribSample shape cellNumber y yOff mxg iw s) v =
      if s.2.2.2 then 0 else s.2.2.1 / iw *
        ((xOffsets.zip (shiftedCR (s.1 - (pyInt s.1 : K)) (pyInt s.1) shape.1 mxg)).map
          fun p => thr p.2 * zApply shape cellNumber (pyInt s.1) (pyInt s.2.1) y yOff
            (catmullRom (s.2.1 - (pyInt s.2.1 : K))) v p.1).sum := by
  unfold contribSample
  split
  · simp [applyRow]
  · rw [applyRow_flatMap]
    generalize xOffsets.zip (shiftedCR (s.1 - (pyInt s.1 : K)) (pyInt s.1) shape.1 mxg) = L
    induction L with
    | nil => simp
    | cons q L ih =>
      rw [List.map_cons, List.sum_cons, ih, applyRow_contribX, List.map_cons, List.sum_cons]
      unfold thr; ring

theorem list_sum_sub (L : List (ℤ × K)) (g h : ℤ × K → K) :
    (L.map g).sum - (L.map h).sum = (L.map fun p => g p - h p).sum := by
  induction L with
  | nil => simp
  | cons q L ih =>
    simp only [List.map_cons, List.sum_cons, ← ih]; ring

theorem list_abs_sum_le (L : List (ℤ × K)) (g : ℤ × K → K) (B : K)
    (h : ∀ p ∈ L, |g p| ≤ B) : |(L.map g).sum| ≤ L.length * B := by
  induction L with
  | nil => simp
  | cons q L ih =>
    simp only [List.map_cons, List.sum_cons, List.length_cons]
    have h1 := h q (by simp)
    have h2 := ih (fun p hp => h p (by simp [hp]))
    calc |g q + (L.map g).sum| ≤ |g q| + |(L.map g).sum| := abs_add_le _ _
      _ ≤ B + L.length * B := add_le_add h1 h2
      _ = _ := by push_cast; ring

/-- Dropping small weights changes the sum by at most four tolerances. -/
theorem thr_error (L : List (ℤ × K)) (hL : L.length = 4) (g : ℤ → K) (B : K) (hB : ∀ o, |g o| ≤ B) :
    |(L.map fun p => thr p.2 * g p.1).sum - (L.map fun p => p.2 * g p.1).sum| ≤ 4 / 10 ^ 10 * B := by
  rw [list_sum_sub]
  have := list_abs_sum_le L (fun p => thr p.2 * g p.1 - p.2 * g p.1) (1 / 10 ^ 10 * B) (by
    intro p _
    have e : thr p.2 * g p.1 - p.2 * g p.1 = -((p.2 - thr p.2) * g p.1) := by ring
    rw [e, abs_neg, abs_mul]
    exact mul_le_mul (abs_sub_thr _) (hB _) (abs_nonneg _) (by positivity))
  rw [hL] at this
  calc _ ≤ _ := this
    _ = _ := by push_cast; ring

theorem length_zip_shiftedCR (u : K) (xb : ℤ) (nx mxg : ℕ) :
    (xOffsets.zip (shiftedCR u xb nx mxg)).length = 4 := by
  rw [List.length_zip, shiftedCR, length_shifted]; rfl

/-- Catmull-Rom weights compute the textbook spline. -/
theorem catmullRom_apply (u : K) (g : ℤ → K) :
    ((xOffsets.zip (catmullRom u)).map fun p => p.2 * g p.1).sum = catmullRomSpline g u := by
  simp only [xOffsets, catmullRom, catmullRomSpline, List.zip_cons_cons, List.zip_nil_right,
    List.map_cons, List.map_nil, List.sum_cons, List.sum_nil]
  ring

/-- Adjusted weights compute the spline of the continued field. -/
theorem shiftedCR_apply (u : K) (xb : ℤ) (nx mxg : ℕ) (hlo : (mxg : ℤ) ≤ xb)
    (hhi : xb ≤ (nx : ℤ) - mxg - 1) (g : ℤ → K) :
    ((xOffsets.zip (shiftedCR u xb nx mxg)).map (fun p => p.2 * g (xb + p.1))).sum =
      catmullRomSpline (fun o => g (max (mxg : ℤ) (min (xb + o) ((nx : ℤ) - mxg - 1)))) u := by
  rw [shiftedCR, shifted_apply _ _ _ _ xb nx mxg hlo hhi g]
  simp only [catmullRomSpline]
  ring

/-- Sum of absolute Catmull-Rom weights. -/
theorem catmullRom_l1 (u : K) (h0 : 0 ≤ u) (h1 : u ≤ 1) (g : ℤ → K) (M : K)
    (hg : ∀ o, |g o| ≤ M) : |catmullRomSpline g u| ≤ 5 / 4 * M := by
  have hM : 0 ≤ M := le_trans (abs_nonneg _) (hg 0)
  have e : catmullRomSpline g u =
      -(1 / 2 * (u * (1 - u) ^ 2)) * g (-1) + (1 / 2 * ((1 - u) * (2 + 2 * u - 3 * u ^ 2))) * g 0 +
      (1 / 2 * (u * (1 + 4 * u - 3 * u ^ 2))) * g 1 + -(1 / 2 * (u ^ 2 * (1 - u))) * g 2 := by
    simp only [catmullRomSpline]; ring
  have p0 : 0 ≤ 1 / 2 * (u * (1 - u) ^ 2) := by positivity
  have p1 : 0 ≤ 1 / 2 * ((1 - u) * (2 + 2 * u - 3 * u ^ 2)) := by
    have : 0 ≤ 2 + 2 * u - 3 * u ^ 2 := by nlinarith
    have : 0 ≤ 1 - u := by linarith
    positivity
  have p2 : 0 ≤ 1 / 2 * (u * (1 + 4 * u - 3 * u ^ 2)) := by
    have : 0 ≤ 1 + 4 * u - 3 * u ^ 2 := by nlinarith
    positivity
  have p3 : 0 ≤ 1 / 2 * (u ^ 2 * (1 - u)) := by
    have : 0 ≤ 1 - u := by linarith
    positivity
  have b : ∀ (p : K) (o : ℤ), 0 ≤ p → |p * g o| ≤ p * M := by
    intro p o hp
    rw [abs_mul, abs_of_nonneg hp]
    exact mul_le_mul_of_nonneg_left (hg o) hp
  have b' : ∀ (p : K) (o : ℤ), 0 ≤ p → |-p * g o| ≤ p * M := by
    intro p o hp
    rw [abs_mul, abs_neg, abs_of_nonneg hp]
    exact mul_le_mul_of_nonneg_left (hg o) hp
  rw [e]
  refine le_trans (abs_add_le _ _) ?_
  refine le_trans (add_le_add (abs_add_le _ _) le_rfl) ?_
  refine le_trans (add_le_add (add_le_add (abs_add_le _ _) le_rfl) le_rfl) ?_
  refine le_trans (add_le_add (add_le_add (add_le_add (b' _ _ p0) (b _ _ p1)) (b _ _ p2))
    (b' _ _ p3)) ?_
  have : 1 / 2 * (u * (1 - u) ^ 2) * M + 1 / 2 * ((1 - u) * (2 + 2 * u - 3 * u ^ 2)) * M +
      1 / 2 * (u * (1 + 4 * u - 3 * u ^ 2)) * M + 1 / 2 * (u ^ 2 * (1 - u)) * M =
      (1 + u * (1 - u)) * M := by ring
  rw [this]
  apply mul_le_mul_of_nonneg_right _ hM
  nlinarith [sq_nonneg (2 * u - 1)]

/-- A weight far enough from the nodes is never dropped. -/
theorem thr_shiftedCR (u : K) (hu : u = 0 ∨ (1 / 10 ^ 4 ≤ u ∧ u ≤ 1 - 1 / 10 ^ 4)) (xb : ℤ)
    (nx mxg : ℕ) (p : ℤ × K) (hp : p ∈ xOffsets.zip (shiftedCR u xb nx mxg)) : thr p.2 = p.2 := by
  have z0 : thr (0 : K) = 0 := by simp [thr]
  have big : ∀ a : K, 1 / 10 ^ 10 ≤ |a| → thr a = a := by
    intro a h; unfold thr; rw [if_neg (not_lt.2 h)]
  rcases hu with rfl | ⟨h1, h2⟩
  · have one : thr (1 : K) = 1 := by
      apply big; rw [abs_one]; norm_num
    simp only [shiftedCR, shifted, xOffsets] at hp
    split_ifs at hp <;>
      norm_num at hp <;>
      (rcases hp with rfl | rfl | rfl | rfl <;> first | exact z0 | exact one)
  · have hu0 : (0 : K) < u := lt_of_lt_of_le (by norm_num) h1
    have hu1 : (0 : K) < 1 - u := by
      have : (0 : K) < 1 / 10 ^ 4 := by norm_num
      linarith
    have h2' : 1 / 10 ^ 4 ≤ 1 - u := by linarith
    have pos : ∀ a : K, 1 / 10 ^ 10 ≤ a → thr a = a := fun a h => big a (le_trans h (le_abs_self a))
    have neg : ∀ a : K, 1 / 10 ^ 10 ≤ -a → thr a = a := fun a h => big a (le_trans h (neg_le_abs a))
    -- products of three factors bounded below
    have m2 : (1 : K) / 10 ^ 4 * (1 / 10 ^ 4) ≤ u * u := mul_le_mul h1 h1 (by norm_num) hu0.le
    have m2' : (1 : K) / 10 ^ 4 * (1 / 10 ^ 4) ≤ u * (1 - u) := mul_le_mul h1 h2' (by norm_num) hu0.le
    have half : (1 : K) / 2 ≤ u ∨ 1 / 2 ≤ 1 - u := by
      rcases le_total (1 / 2) u with h | h
      · exact Or.inl h
      · right; linarith
    have t1 : (1 : K) / 10 ^ 10 ≤ 1 / 2 * (u * (1 - u) * (1 - u)) := by
      rcases half with h | h
      · have : (1 : K) / 10 ^ 4 * (1 / 10 ^ 4) ≤ (1 - u) * (1 - u) :=
          mul_le_mul h2' h2' (by norm_num) hu1.le
        have := mul_le_mul h this (by norm_num) hu0.le
        calc (1 : K) / 10 ^ 10 ≤ 1 / 2 * (1 / 2 * (1 / 10 ^ 4 * (1 / 10 ^ 4))) := by norm_num
          _ ≤ 1 / 2 * (u * ((1 - u) * (1 - u))) := by linarith
          _ = _ := by ring
      · have := mul_le_mul m2' h (by norm_num) (by positivity)
        calc (1 : K) / 10 ^ 10 ≤ 1 / 2 * (1 / 10 ^ 4 * (1 / 10 ^ 4) * (1 / 2)) := by norm_num
          _ ≤ _ := by linarith
    have t2 : (1 : K) / 10 ^ 10 ≤ 1 / 2 * (u * u * (1 - u)) := by
      rcases half with h | h
      · have := mul_le_mul m2' h (by norm_num) (by positivity)
        calc (1 : K) / 10 ^ 10 ≤ 1 / 2 * (1 / 10 ^ 4 * (1 / 10 ^ 4) * (1 / 2)) := by norm_num
          _ ≤ 1 / 2 * (u * (1 - u) * u) := by linarith
          _ = _ := by ring
      · have := mul_le_mul m2 h (by norm_num) (by positivity)
        calc (1 : K) / 10 ^ 10 ≤ 1 / 2 * (1 / 10 ^ 4 * (1 / 10 ^ 4) * (1 / 2)) := by norm_num
          _ ≤ _ := by linarith
    have s1 : (1 : K) / 10 ^ 10 ≤ 1 / 2 * (1 - u) := by
      calc (1 : K) / 10 ^ 10 ≤ 1 / 2 * (1 / 10 ^ 4) := by norm_num
        _ ≤ _ := by linarith
    have s2 : (1 : K) / 10 ^ 10 ≤ 1 / 2 * u := by
      calc (1 : K) / 10 ^ 10 ≤ 1 / 2 * (1 / 10 ^ 4) := by norm_num
        _ ≤ _ := by linarith
    have hA : thr (1 / 2 * (-(u ^ 3) + 2 * u ^ 2 - u)) = 1 / 2 * (-(u ^ 3) + 2 * u ^ 2 - u) := by
      apply neg; calc _ ≤ _ := t1
        _ = _ := by ring
    have hD : thr (1 / 2 * (u ^ 3 - u ^ 2)) = 1 / 2 * (u ^ 3 - u ^ 2) := by
      apply neg; calc _ ≤ _ := t2
        _ = _ := by ring
    have nn1 : 0 ≤ (1 - u) * (u * (1 - u)) := by positivity
    have nn2 : 0 ≤ u * (u * (1 - u)) := by positivity
    have nn3 : 0 ≤ u * u := by positivity
    have hB : thr (1 / 2 * (3 * u ^ 3 - 5 * u ^ 2 + 2)) = 1 / 2 * (3 * u ^ 3 - 5 * u ^ 2 + 2) := by
      apply pos
      calc _ ≤ _ := s1
        _ ≤ 1 / 2 * (1 - u) + 1 / 2 * (3 * ((1 - u) * (u * (1 - u)))
            + (1 - u) * (1 - u)) := by
          have : 0 ≤ (1 - u) * (1 - u) := by positivity
          linarith
        _ = 1 / 2 * (3 * u ^ 3 - 5 * u ^ 2 + 2) := by ring
    have hC : thr (1 / 2 * (-3 * u ^ 3 + 4 * u ^ 2 + u)) = 1 / 2 * (-3 * u ^ 3 + 4 * u ^ 2 + u) := by
      apply pos
      calc _ ≤ _ := s2
        _ ≤ 1 / 2 * u + 1 / 2 * (3 * (u * (u * (1 - u))) + u * u) := by linarith
        _ = _ := by ring
    have hBA : thr (1 / 2 * (3 * u ^ 3 - 5 * u ^ 2 + 2) + 1 / 2 * (-(u ^ 3) + 2 * u ^ 2 - u)) =
        1 / 2 * (3 * u ^ 3 - 5 * u ^ 2 + 2) + 1 / 2 * (-(u ^ 3) + 2 * u ^ 2 - u) := by
      apply pos
      calc _ ≤ _ := s1
        _ ≤ 1 / 2 * (1 - u) + 1 / 2 * (2 * ((1 - u) * (u * (1 - u))) + (1 - u) * (1 - u)) := by
          have : 0 ≤ (1 - u) * (1 - u) := by positivity
          linarith
        _ = _ := by ring
    have hCD : thr (1 / 2 * (-3 * u ^ 3 + 4 * u ^ 2 + u) + 1 / 2 * (u ^ 3 - u ^ 2)) =
        1 / 2 * (-3 * u ^ 3 + 4 * u ^ 2 + u) + 1 / 2 * (u ^ 3 - u ^ 2) := by
      apply pos
      calc _ ≤ _ := s2
        _ ≤ 1 / 2 * u + 1 / 2 * (2 * (u * (u * (1 - u))) + u * u) := by linarith
        _ = _ := by ring
    have hBCD : thr (1 / 2 * (3 * u ^ 3 - 5 * u ^ 2 + 2) +
        (1 / 2 * (-3 * u ^ 3 + 4 * u ^ 2 + u) + 1 / 2 * (u ^ 3 - u ^ 2))) =
        1 / 2 * (3 * u ^ 3 - 5 * u ^ 2 + 2) +
        (1 / 2 * (-3 * u ^ 3 + 4 * u ^ 2 + u) + 1 / 2 * (u ^ 3 - u ^ 2)) := by
      apply pos
      calc (1 : K) / 10 ^ 10 ≤ 1 := by norm_num
        _ ≤ 1 + 1 / 2 * ((1 - u) * (u * (1 - u))) := by linarith
        _ = _ := by ring
    have hABCD : thr (1 / 2 * (3 * u ^ 3 - 5 * u ^ 2 + 2) + 1 / 2 * (-(u ^ 3) + 2 * u ^ 2 - u) +
        (1 / 2 * (-3 * u ^ 3 + 4 * u ^ 2 + u) + 1 / 2 * (u ^ 3 - u ^ 2))) =
        1 / 2 * (3 * u ^ 3 - 5 * u ^ 2 + 2) + 1 / 2 * (-(u ^ 3) + 2 * u ^ 2 - u) +
        (1 / 2 * (-3 * u ^ 3 + 4 * u ^ 2 + u) + 1 / 2 * (u ^ 3 - u ^ 2)) := by
      apply pos
      calc (1 : K) / 10 ^ 10 ≤ 1 := by norm_num
        _ = _ := by ring
    simp only [shiftedCR, shifted, xOffsets] at hp
    split_ifs at hp <;>
      simp only [List.zip_cons_cons, List.zip_nil_right, List.mem_cons, List.not_mem_nil, or_false]
        at hp <;>
      (rcases hp with rfl | rfl | rfl | rfl <;>
        first | exact z0 | exact hA | exact hB | exact hC | exact hD | exact hBA | exact hCD
              | exact hBCD | exact hABCD)

end Zoidberg.Weights
