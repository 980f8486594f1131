import Verif.Props.Smooth
import Verif.Props.Tighten
import Verif.Props.Iota
import Verif.Props.EndToEndModify

/-!
# Where the statements of C162, C189, C209 and C212 do not hold as they are written, and the rest of C203
-/

set_option linter.unusedSectionVars false

namespace Zoidberg

open Weights

section
variable {K : Type} [Field K] [LinearOrder K] [IsStrictOrderedRing K]

/-- **C162 (refutation).** A line without points has fewer than `2 bounds` points, and `find_outliers` returns. -/
theorem C162_fails (sqrt : K → K) (cutoff : K) : ∃ bounds : ℕ, ¬ 2 * bounds ≤ ([] : List K).length ∧ findOutliers sqrt [] [] cutoff bounds = .ok [] :=
  ⟨1, by simp, by simp [findOutliers]; rfl⟩

/-- **C189 (refutation).** For no points at all the direction cannot be asked for. -/
theorem C189_fails (y : K) : (baseField (K := K)).slopes y [] ≠ .ok (([] : List (K × K)).map fun _ => (0, 0)) := by
  simp [FieldFns.slopes]

/-- **C189.** Direction 0 at a list of points exactly if the list is not empty. -/
theorem C189_iff (pts : List (K × K)) (y : K) : (baseField (K := K)).slopes y pts = .ok (pts.map fun _ => (0, 0)) ↔ pts ≠ [] := by
  constructor
  · rintro h rfl
    exact C189_fails y h
  · exact fun h => C189_direction pts h y

end

/-- **C203.** With fewer than two maxima the error is an `IndexError`, and an error of the tracer is passed on. -/
theorem C203_error (follow : List ℝ → Except Err (List ℝ)) : (∀ r, follow iotaAngles = .ok r → (relMaxima 10 r).length < 2 → ∃ s, calcIota follow = .error (.index s)) ∧
    ∀ err, follow iotaAngles = .error err → calcIota follow = .error err := by
  constructor
  · intro r hr h2
    unfold calcIota
    rw [hr]
    simp only [Except.bind]
    match hm : relMaxima 10 r with
    | [] => exact ⟨_, rfl⟩
    | [_] => exact ⟨_, rfl⟩
    | p0 :: p1 :: t => rw [hm] at h2; simp at h2
  · intro err he
    unfold calcIota
    rw [he]
    rfl

/-- **C209 (refutation).** With partial boundaries `modify_maps` also writes into entries that were there before: in the example with two slices
`forward_xt_prime` is not what `make_maps` returned. -/
theorem C209_fails (empty : JState ℚ) : ∃ m m', makeMaps (exMm [0, 1] true false) 2 1 1 1 1 empty = .ok m ∧
    modifyMaps (fun _ => 0) (fun _ => 0) (asMapDict 3 2 4 (1 ^ 2) m) true = .ok m' ∧
    m' "forward_xt_prime" ≠ asMapDict 3 2 4 (1 ^ 2) m "forward_xt_prime" := by
  obtain ⟨m, m', i, cx, cz, h, _, hcen, hm', _, hne⟩ := C211_fails empty
  refine ⟨m, m', h, hm', fun heq => ?_⟩
  have hc := (hcen true).1
  have hget : asMapDict 3 2 4 (1 ^ 2) m "forward_xt_prime" = some (.arr3 3 2 4 (cx true)) := by
    unfold asMapDict
    have h1 : m.get? "forward_xt_prime" = some (.f3 (cx true)) := hc
    rw [h1]
    rfl
  exact (hne (cx true) (heq.trans hget)).2 rfl

/-- **C212 (refutation).** With more guard cells in x than cells, `calculate_parallel_map_operators` raises an `IndexError` for the numbers of the
cells before it asks for a map. -/
theorem C212_fails (empty : JState ℚ) : ∃ m, makeMaps (exMm [0, 1] true false) 0 4 1 1 1 empty = .ok m ∧
    calculateOps (fun _ => 0) (fun _ => 0) (asMapDict 3 2 4 1 m) = .error (.index "cell_number") := by
  obtain ⟨m, h⟩ := exMm_succeeds [0, 1] true false (by simp) 0 4 1 1 1 (by norm_num) (by norm_num) (by norm_num) empty
  exact ⟨m, h, (C212_no_slices _ _ _ (exMm_follow _ _ _) (exMm_grid _ _ _ (by simp)) 4 1 1 1 empty m h 3 2 4 1).2.1 ⟨by norm_num, by norm_num, by norm_num⟩⟩

end Zoidberg
