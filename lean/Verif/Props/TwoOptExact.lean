import Verif.Props.TwoOptLocal

/-!
# C229: exactly when the line of `line_from_points_two_opt` is 2-optimal
-/

set_option linter.unusedSectionVars false

namespace Zoidberg

theorem corner_reverse (r : List (ℝ × ℝ)) (i j : ℕ) (h : i + j + 1 = 2 * r.length ∨ i + j + 1 = r.length) : corner r.reverse i = corner r j := by
  unfold corner
  rw [List.length_reverse]
  rcases Nat.eq_zero_or_pos r.length with h0 | h0
  · have : r = [] := List.length_eq_zero_iff.1 h0
    subst this
    rfl
  have e : i % r.length + j % r.length + 1 = r.length := by
    have h1 := Nat.mod_lt i h0
    have h2 := Nat.mod_lt j h0
    have h3 := Nat.div_add_mod i r.length
    have h4 := Nat.div_add_mod j r.length
    have h5 : (i % r.length + j % r.length + 1) % r.length = 0 := by
      rw [show i % r.length + j % r.length + 1 = i % r.length + (j % r.length + 1) by ring, Nat.add_mod, Nat.mod_mod, ← Nat.add_mod, show i + (j % r.length + 1) = j % r.length + (i + 1) by ring,
        Nat.add_mod, Nat.mod_mod, ← Nat.add_mod]
      rcases h with h | h
      · rw [show j + (i + 1) = 2 * r.length by omega, Nat.mul_mod_left]
      · rw [show j + (i + 1) = r.length by omega, Nat.mod_self]
    obtain ⟨m, hm⟩ := Nat.dvd_of_mod_eq_zero h5
    have h6 : m < 2 := by
      by_contra hc
      have : r.length * 2 ≤ r.length * m := Nat.mul_le_mul_left _ (by omega)
      omega
    have h7 : m ≠ 0 := by
      rintro rfl
      omega
    have : m = 1 := by omega
    subst this
    omega
  have h1 : i % r.length < r.reverse.length := by rw [List.length_reverse]; exact Nat.mod_lt _ h0
  rw [List.getD_eq_getElem _ _ h1, List.getElem_reverse, List.getD_eq_getElem _ _ (Nat.mod_lt _ h0)]
  congr 1
  omega

theorem saving_reverse (r : List (ℝ × ℝ)) (p q : ℕ) (hpq : p < q) (hq : q + 1 < r.length) :
    saving r.reverse p q = saving r (r.length - 2 - q) (r.length - 2 - p) := by
  unfold saving
  rw [corner_reverse r p (r.length - 2 - p + 1) (by omega), corner_reverse r (p + 1) (r.length - 2 - p) (by omega),
    corner_reverse r q (r.length - 2 - q + 1) (by omega), corner_reverse r (q + 1) (r.length - 2 - q) (by omega),
    euclid_comm (corner r (r.length - 2 - p + 1)), euclid_comm (corner r (r.length - 2 - q + 1)), euclid_comm (corner r (r.length - 2 - p + 1)),
    euclid_comm (corner r (r.length - 2 - p)) (corner r (r.length - 2 - q))]
  ring

theorem saving_reverse_last (r : List (ℝ × ℝ)) (p : ℕ) (hp : p + 1 < r.length) :
    saving r.reverse p (r.length - 1) = saving r (r.length - 2 - p) (r.length - 1) := by
  unfold saving
  rw [corner_reverse r p (r.length - 2 - p + 1) (by omega), corner_reverse r (p + 1) (r.length - 2 - p) (by omega),
    corner_reverse r (r.length - 1) (r.length - 1 + 1) (by omega), corner_reverse r (r.length - 1 + 1) (r.length - 1) (by omega),
    euclid_comm (corner r (r.length - 2 - p + 1)) (corner r (r.length - 2 - p)), euclid_comm (corner r (r.length - 1 + 1)) (corner r (r.length - 1))]
  ring

theorem twoOpt_line_length (e : RzEnv ℝ) (atan2 : ℝ → ℝ → ℝ) (argsort : List ℝ → List ℕ) (thr : ℝ) (ht : thr < 1) (fuel : ℕ) (pts : List (ℝ × ℝ))
    (order smooth : Option ℕ) (l : RZLine ℝ) (h : lineFromPointsTwoOpt e atan2 argsort thr fuel pts order smooth = .ok l) : 4 ≤ l.pts.length := by
  unfold lineFromPointsTwoOpt at h
  cases hf : lineFromPointsFast e atan2 argsort pts order smooth with
  | error x => rw [hf] at h; cases h
  | ok ln =>
    rw [hf] at h
    simp only [Except.bind] at h
    cases hr : twoOpt e.sqrt ln.pts thr fuel with
    | error x => rw [hr] at h; cases h
    | ok r =>
      rw [hr] at h
      simp only at h
      have h4 : 4 ≤ ln.pts.length := by
        by_contra hc
        rw [C60_three_cities e.sqrt ln.pts thr ht (by omega) fuel] at hr
        cases hr
      have hp := (C60_route e.sqrt ln.pts thr fuel r hr).1.length_eq
      rw [List.length_range] at hp
      have hl : (takePts ln.pts r).length = r.length := by simp [takePts]
      rcases (C54_anticlockwise e _ _ _ _ h).2 with hh | hh <;> rw [hh] <;> simp <;> omega

/-- **C229, the exact condition**: with `opt=0` the line that is returned saves nothing when any two edges are exchanged exactly if it saves nothing for the last edge together with the
second one or with the last but two. -/
theorem C229_iff (e : RzEnv ℝ) (he : e.sqrt = Real.sqrt) (atan2 : ℝ → ℝ → ℝ) (argsort : List ℝ → List ℕ) (fuel : ℕ) (pts : List (ℝ × ℝ))
    (order smooth : Option ℕ) (l : RZLine ℝ) (h : lineFromPointsTwoOpt e atan2 argsort 0 fuel pts order smooth = .ok l) :
    (∀ p q, p < q → q < l.pts.length → saving l.pts p q ≤ 0) ↔
      saving l.pts 1 (l.pts.length - 1) ≤ 0 ∧ saving l.pts (l.pts.length - 3) (l.pts.length - 1) ≤ 0 := by
  have hn := twoOpt_line_length e atan2 argsort 0 (by norm_num) fuel pts order smooth l h
  constructor
  · intro ha
    exact ⟨ha _ _ (by omega) (by omega), ha _ _ (by omega) (by omega)⟩
  rintro ⟨h1, h3⟩ p q hpq hq
  obtain ⟨r, hr | hr, hc⟩ := C229_partial e he atan2 argsort fuel pts order smooth l h
  · rw [hr] at h1 h3 hq hn ⊢
    by_cases hx : p + 3 = r.length ∧ q + 1 = r.length
    · rw [show p = r.length - 3 by omega, show q = r.length - 1 by omega]
      exact h3
    · exact (hc p q hpq hq hx).1
  · rw [hr] at h1 h3 hq hn ⊢
    rw [List.length_reverse] at h1 h3 hq hn
    by_cases hx : q + 1 = r.length
    · rw [show q = r.length - 1 by omega]
      by_cases hp : p = 1
      · rw [hp]
        exact h1
      · rw [saving_reverse_last r p (by omega)]
        exact (hc _ _ (by omega) (by omega) (by omega)).1
    · rw [saving_reverse r p q hpq (by omega)]
      exact (hc _ _ (by omega) (by omega) (by omega)).1

/-- Such a line: the points of the refutation stay in their order, and the condition is false for them. -/
example {e : RzEnv ℝ} (hsq : e.sqrt = Real.sqrt) (he : SplrepTotal e) {argsort : List ℝ → List ℕ} (ha : IsArgsort argsort) :
    ∃ l, lineFromPointsTwoOpt e (fun y x => Complex.arg ⟨x, y⟩) argsort 0 2 flatPts none none = .ok l :=
  (flat_line hsq he ha le_rfl).imp fun _ h => h.1

end Zoidberg
