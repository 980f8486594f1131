import Verif.Model.ParMetricInt
import Verif.Props.ParCoords

/-!
# C267: slices of grids with integer y coordinates
-/

set_option linter.unusedSectionVars false

namespace Zoidberg

variable {K : Type} [Field K] [LinearOrder K] [IsStrictOrderedRing K] [FloorRing K]

/-- All numbers are integers. -/
def AllInt (p : List K) : Prop := ∀ i, ∃ k : ℤ, p.getD i 0 = k

theorem pyInt_cast (k : ℤ) : pyInt (k : K) = k := by
  unfold pyInt
  split <;> simp

theorem allInt_set {p : List K} (h : AllInt p) (i : ℕ) (k : ℤ) : AllInt (p.set i (k : K)) := by
  intro j
  by_cases hi : i < p.length
  · rw [getD_set p i j _ 0 hi]
    split
    · exact ⟨k, rfl⟩
    · exact h j
  · rw [List.set_eq_of_length_le (by omega)]
    exact h j

theorem allInt_fold (m s : K) : ∀ (l : List ℕ) (p : List K), AllInt p → AllInt (l.foldl (fun p i =>
    if m * (p.getD i 0 - p.getD (i - 1) 0) < 0 then p.set i ((pyInt (p.getD i 0 + s) : ℤ) : K) else p) p)
  | [], _, h => h
  | i :: t, p, h => by
    rw [List.foldl_cons]
    apply allInt_fold m s t
    split
    · exact allInt_set h _ _
    · exact h

/-- The array stays one of integers. -/
theorem unwrapInt_allInt (m s : K) (p : List K) (h : AllInt p) : AllInt (unwrapInt m s p) := allInt_fold m s _ p h

theorem allInt_rollBack {y : List K} (h : AllInt y) (offset : ℤ) : AllInt (rollBack y offset) := by
  intro i
  unfold rollBack
  by_cases hi : i < y.length
  · rw [List.getD_eq_getElem?_getD, List.getElem?_map, List.getElem?_range hi]
    exact h _
  · rw [List.getD_eq_getElem?_getD, List.getElem?_eq_none (by simp; omega)]
    exact ⟨0, by simp⟩

theorem fold_same (m s s' : K) (hs : ∀ k : ℤ, ((pyInt ((k : K) + s) : ℤ) : K) = (k : K) + s') : ∀ (l : List ℕ) (p : List K), AllInt p →
    l.foldl (fun p i => if m * (p.getD i 0 - p.getD (i - 1) 0) < 0 then p.set i ((pyInt (p.getD i 0 + s) : ℤ) : K) else p) p =
      l.foldl (fun p i => if m * (p.getD i 0 - p.getD (i - 1) 0) < 0 then p.set i (p.getD i 0 + s') else p) p
  | [], _, _ => rfl
  | i :: t, p, h => by
    rw [List.foldl_cons, List.foldl_cons]
    obtain ⟨k, hk⟩ := h i
    have e : ((pyInt (p.getD i 0 + s) : ℤ) : K) = p.getD i 0 + s' := by rw [hk]; exact hs k
    rw [e]
    apply fold_same m s s' hs t
    split
    · rw [← e]; exact allInt_set h _ _
    · exact h

/-- **C267 (partial).** For integer coordinates and a period that is an integer, the slices are those of the same numbers as floating point numbers.
Missing: all other periods (`C267_iff`, `C267_fails`). -/
theorem C267_partial (y : List K) (hy : AllInt y) (L : ℤ) (per : Bool) (offset : ℤ) : parCoordsInt y (L : K) per offset = parCoords y (L : K) per offset := by
  have hs : ∃ S : ℤ, npSign (meanDiff y) * (L : K) = S := by
    unfold npSign
    split
    · exact ⟨-L, by push_cast; ring⟩
    · split
      · exact ⟨L, by ring⟩
      · exact ⟨0, by simp⟩
  obtain ⟨S, hS⟩ := hs
  have e : unwrapInt (meanDiff y) (npSign (meanDiff y) * (L : K)) (rollBack y offset) =
      unwrap (meanDiff y) (npSign (meanDiff y) * (L : K)) (rollBack y offset) := by
    unfold unwrapInt unwrap
    refine fold_same _ _ _ ?_ _ _ (allInt_rollBack hy offset)
    intro k
    rw [hS]
    have : ((k : K) + (S : K)) = ((k + S : ℤ) : K) := by push_cast; ring
    rw [this, pyInt_cast]
  unfold parCoordsInt parCoords
  simp only [e]

/-- **C267**, the exact condition: for increasing integer coordinates and a slice that goes around the torus, the result is that for floating point numbers
exactly if the period is an integer. -/
theorem C267_iff (y : List K) (hy : AllInt y) (Ly : K) (h : Increasing y Ly) (hn : 2 ≤ y.length) (offset : ℤ) (ho : offset % (y.length : ℤ) ≠ 0) (p : List K)
    (hp : parCoords y Ly true offset = .ok p) : parCoordsInt y Ly true offset = .ok p ↔ ∃ L : ℤ, Ly = L := by
  constructor
  · intro hi
    have hall : AllInt p := by
      unfold parCoordsInt at hi
      simp only [if_true] at hi
      split at hi
      · simp at hi
      · injection hi with hi
        rw [← hi]
        exact unwrapInt_allInt _ _ _ (allInt_rollBack hy offset)
    rw [parCoords_increasing h hn] at hp
    split at hp
    swap
    · simp at hp
    injection hp with hp
    have hn' : (0 : ℤ) < y.length := by omega
    have b0 := Int.emod_nonneg offset hn'.ne'
    have b1 := Int.emod_lt_of_pos offset hn'
    -- the plane after the end of the period
    obtain ⟨i, hi1⟩ : ∃ i : ℕ, (i : ℤ) = y.length - offset % (y.length : ℤ) := ⟨((y.length : ℤ) - offset % (y.length : ℤ)).toNat, by omega⟩
    have hi2 : i < y.length := by omega
    obtain ⟨k, hk⟩ := hall i
    rw [← hp, List.getD_eq_getElem?_getD, List.getElem?_map, List.getElem?_range hi2] at hk
    simp only [Option.map_some, Option.getD_some] at hk
    rcases wraps y.length offset i hi2 with ⟨a, b⟩ | ⟨a, b⟩
    · exfalso
      have d1 := Int.emod_lt_of_pos ((i : ℤ) + offset) hn'
      omega
    · unfold sliceCoord at hk
      rw [a] at hk
      obtain ⟨k', hk'⟩ := hy (((i : ℤ) + offset) % (y.length : ℤ)).toNat
      rw [hk'] at hk
      refine ⟨k - k', ?_⟩
      push_cast
      push_cast at hk
      linarith
  · rintro ⟨L, rfl⟩
    rw [C267_partial y hy L true offset, hp]

/-- **C267.** What comes out for coordinates that are not negative: the slices of a torus whose period is the integer part of `Ly`, compared with the mean
distance of the planes. -/
theorem C267_floor (y : List K) (hy : AllInt y) (Ly : K) (hm : 0 < meanDiff y) (hL : 0 ≤ Ly) (h0 : ∀ i, 0 ≤ y.getD i 0) (offset : ℤ) :
    parCoordsInt y Ly true offset = parCoords y ((⌊Ly⌋ : ℤ) : K) true offset := by
  have hsign : npSign (meanDiff y) = 1 := by
    unfold npSign
    rw [if_neg (by linarith), if_pos hm]
  have hfl : (0 : K) ≤ ((⌊Ly⌋ : ℤ) : K) := by exact_mod_cast Int.floor_nonneg.2 hL
  have key : ∀ (l : List ℕ) (p : List K), AllInt p → (∀ i, 0 ≤ p.getD i 0) →
      l.foldl (fun p i => if meanDiff y * (p.getD i 0 - p.getD (i - 1) 0) < 0 then p.set i ((pyInt (p.getD i 0 + Ly) : ℤ) : K) else p) p =
      l.foldl (fun p i => if meanDiff y * (p.getD i 0 - p.getD (i - 1) 0) < 0 then p.set i (p.getD i 0 + ((⌊Ly⌋ : ℤ) : K)) else p) p := by
    intro l
    induction l with
    | nil => intro p _ _; rfl
    | cons i t ih =>
      intro p hp hp0
      rw [List.foldl_cons, List.foldl_cons]
      obtain ⟨k, hk⟩ := hp i
      have e : ((pyInt (p.getD i 0 + Ly) : ℤ) : K) = p.getD i 0 + ((⌊Ly⌋ : ℤ) : K) := by
        have e2 : pyInt (p.getD i 0 + Ly) = ⌊p.getD i 0 + Ly⌋ := by
          unfold pyInt
          split
          · rfl
          · exfalso
            linarith [hp0 i]
        rw [e2, hk, Int.floor_intCast_add]
        push_cast
        ring
      rw [e]
      apply ih
      · split
        · rw [← e]; exact allInt_set hp _ _
        · exact hp
      · intro j
        split
        · by_cases hi : i < p.length
          · rw [getD_set p i j _ 0 hi]
            split
            · linarith [hp0 i]
            · exact hp0 j
          · rw [List.set_eq_of_length_le (by omega)]
            exact hp0 j
        · exact hp0 j
  have hroll : ∀ i, 0 ≤ (rollBack y offset).getD i 0 := by
    intro i
    unfold rollBack
    by_cases hi : i < y.length
    · rw [List.getD_eq_getElem?_getD, List.getElem?_map, List.getElem?_range hi]
      exact h0 _
    · rw [List.getD_eq_getElem?_getD, List.getElem?_eq_none (by simp; omega)]
      simp
  have e : unwrapInt (meanDiff y) Ly (rollBack y offset) = unwrap (meanDiff y) ((⌊Ly⌋ : ℤ) : K) (rollBack y offset) :=
    key _ _ (allInt_rollBack hy offset) hroll
  unfold parCoordsInt parCoords
  simp only [hsign, one_mul, e]

/-- The full claim. -/
def IntRight : Prop := ∀ (y : List ℚ) (Ly : ℚ) (per : Bool) (offset : ℤ), AllInt y → checkLy y Ly = .ok () → parCoordsInt y Ly per offset = parCoords y Ly per offset

/-- **C267 is false**: with the planes 0, 1, 2 and a period that is a little less than 3, the slices of the floating point numbers are right, while those of
the integers end with an AssertionError. -/
theorem C267_fails : ¬ IntRight ∧ (∃ p, parCoords ([0, 1, 2] : List ℚ) (3 - 1 / 10 ^ 6) true 1 = .ok p) ∧
    parCoordsInt ([0, 1, 2] : List ℚ) (3 - 1 / 10 ^ 6) true 1 = .error (.assertion "Mean of dy changes") := by
  have h1 : (parCoords ([0, 1, 2] : List ℚ) (3 - 1 / 10 ^ 6) true 1).toBool = true := by decide +kernel
  have h2 : (parCoordsInt ([0, 1, 2] : List ℚ) (3 - 1 / 10 ^ 6) true 1).toBool = false := by decide +kernel
  have h3 : (checkLy ([0, 1, 2] : List ℚ) (3 - 1 / 10 ^ 6)).toBool = true := by decide +kernel
  have hy : AllInt ([0, 1, 2] : List ℚ) := by
    intro i
    match i with
    | 0 => exact ⟨0, rfl⟩
    | 1 => exact ⟨1, rfl⟩
    | 2 => exact ⟨2, rfl⟩
    | n + 3 => exact ⟨0, rfl⟩
  refine ⟨?_, ?_, ?_⟩
  · intro hall
    rw [hall _ _ _ 1 hy (by
      cases h : checkLy ([0, 1, 2] : List ℚ) (3 - 1 / 10 ^ 6) with
      | ok u => rfl
      | error e => rw [h] at h3; simp [Except.toBool] at h3), h1] at h2
    exact Bool.noConfusion h2
  · cases h : parCoords ([0, 1, 2] : List ℚ) (3 - 1 / 10 ^ 6) true 1 with
    | ok p => exact ⟨p, rfl⟩
    | error e => rw [h] at h1; simp [Except.toBool] at h1
  · unfold parCoordsInt at h2 ⊢
    simp only [if_true] at h2 ⊢
    split at h2
    · rw [if_pos (by assumption)]
    · simp [Except.toBool] at h2

/-- A case for the exact condition: planes 0, 1, 2 and a period of 3. -/
example : parCoordsInt ([0, 1, 2] : List ℚ) ((3 : ℤ) : ℚ) true 1 = parCoords ([0, 1, 2] : List ℚ) ((3 : ℤ) : ℚ) true 1 := by
  refine C267_partial _ ?_ 3 true 1
  intro i
  match i with
  | 0 => exact ⟨0, rfl⟩
  | 1 => exact ⟨1, rfl⟩
  | 2 => exact ⟨2, rfl⟩
  | n + 3 => exact ⟨0, rfl⟩

end Zoidberg
