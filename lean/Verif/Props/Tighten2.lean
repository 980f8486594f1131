import Verif.Props.SmoothCurve
import Verif.Props.Curvature

/-!
# Further theorems for C89 and C193

Found missing by the mutations in `/verif/seeded/LOG.jsonl`.
-/

set_option linter.unusedSectionVars false

namespace Zoidberg

section
variable {K : Type} [Field K] [LinearOrder K]

/-- **C89.** A single replacement value is put at all the places, and any other number of values that does not fit is refused. -/
theorem C89_single (a : List K) (s : ℤ) (n : ℕ) (h : n ≤ a.length) (v : K) : rollup a s n [v] = rollup a s n (List.replicate n v) := by
  unfold rollup assignFirst
  rw [rollZ_length, min_eq_left h]
  simp only [List.length_replicate, if_true, List.length_singleton]
  split_ifs with h1
  · subst h1; rfl
  · rfl

theorem C89_refused (a rep : List K) (s : ℤ) (n : ℕ) (h : n ≤ a.length) (h1 : rep.length ≠ n) (h2 : rep.length ≠ 1) : ∃ e, rollup a s n rep = .error (.value e) := by
  unfold rollup assignFirst
  rw [rollZ_length, min_eq_left h]
  simp only [if_neg h1]
  match rep, h2 with
  | [], _ => exact ⟨_, rfl⟩
  | [v], h2 => exact absurd rfl h2
  | _ :: _ :: _, _ => exact ⟨_, rfl⟩

end

example : (rollup [(1 : ℚ), 2, 3, 4] 3 2 [7]).toOption = some [7, 2, 3, 7] := by decide +kernel
example : (rollup [(1 : ℚ), 2, 3, 4] 3 2 [7, 8, 9]).toBool = false := by decide +kernel

section
variable {K : Type} [Field K]

/-- A rule for derivatives that is exact for straight lines. -/
def AffineRule (deriv : ℕ → (ℕ → K) → ℕ → K) : Prop := ∀ n (a b : K) i, i < n → 2 ≤ n → deriv n (fun j => a + b * j) i = b

/-- The points of the planes are evenly spaced along two vectors. -/
def CurvIn.Even (i : CurvIn K) (o : ℕ → K × K) (u v : K × K) : Prop :=
  ∀ c : Cell, i.polR c = (o c.2.1).1 + u.1 * (c.1 : K) + v.1 * (c.2.2 : K) ∧ i.polZ c = (o c.2.1).2 + u.2 * (c.1 : K) + v.2 * (c.2.2 : K)

/-- **C193.** On a grid of equal parallelograms with the sides `u` and `v` and with a rule exact for straight lines, `J dx dz` is the radius in the file times the area of a
cell, and the two components of the field in the plane are those with respect to `u / dx` and `v / dz`. -/
theorem C193_even (deriv : ℕ → (ℕ → K) → ℕ → K) (hd : AffineRule deriv) (i : CurvIn K) (o : ℕ → K × K) (u v : K × K) (hE : i.Even o u v) (c : Cell)
    (hx : c.1 < i.nx) (hz : c.2.2 < i.nz) (hx2 : 2 ≤ i.nx) (hz2 : 2 ≤ i.nz) (hdx : i.dx c ≠ 0) (hdz : i.dz c ≠ 0) :
    i.J deriv c * (i.dx c * i.dz c) = i.R c * (u.1 * v.2 - u.2 * v.1) ∧
      (i.J deriv c ≠ 0 → i.Gx deriv c / i.dx c * u.1 + i.Gz deriv c / i.dz c * v.1 = i.GR c ∧ i.Gx deriv c / i.dx c * u.2 + i.Gz deriv c / i.dz c * v.2 = i.GZ c) := by
  have d1 : i.dRdx deriv c = u.1 / i.dx c := by
    unfold CurvIn.dRdx derX
    rw [show (fun j => i.polR (j, c.2.1, c.2.2)) = fun j : ℕ => ((o c.2.1).1 + v.1 * (c.2.2 : K)) + u.1 * (j : K) from funext fun j => by rw [(hE _).1]; ring, hd _ _ _ _ hx hx2]
  have d2 : i.dZdx deriv c = u.2 / i.dx c := by
    unfold CurvIn.dZdx derX
    rw [show (fun j => i.polZ (j, c.2.1, c.2.2)) = fun j : ℕ => ((o c.2.1).2 + v.2 * (c.2.2 : K)) + u.2 * (j : K) from funext fun j => by rw [(hE _).2]; ring, hd _ _ _ _ hx hx2]
  have d3 : i.dRdz deriv c = v.1 / i.dz c := by
    unfold CurvIn.dRdz derZ
    rw [show (fun j => i.polR (c.1, c.2.1, j)) = fun j : ℕ => ((o c.2.1).1 + u.1 * (c.1 : K)) + v.1 * (j : K) from funext fun j => by rw [(hE _).1], hd _ _ _ _ hz hz2]
  have d4 : i.dZdz deriv c = v.2 / i.dz c := by
    unfold CurvIn.dZdz derZ
    rw [show (fun j => i.polZ (c.1, c.2.1, j)) = fun j : ℕ => ((o c.2.1).2 + u.2 * (c.1 : K)) + v.2 * (j : K) from funext fun j => by rw [(hE _).2], hd _ _ _ _ hz hz2]
  have hJ : i.J deriv c * (i.dx c * i.dz c) = i.R c * (u.1 * v.2 - u.2 * v.1) := by
    unfold CurvIn.J
    rw [d1, d2, d3, d4]
    field_simp
  refine ⟨hJ, fun hJ0 => ?_⟩
  have hprod : i.R c * (u.1 * v.2 - u.2 * v.1) ≠ 0 := by
    rw [← hJ]
    exact mul_ne_zero hJ0 (mul_ne_zero hdx hdz)
  have e : i.R c / i.J deriv c = i.dx c * i.dz c / (u.1 * v.2 - u.2 * v.1) := by
    have h0 : u.1 * v.2 - u.2 * v.1 ≠ 0 := right_ne_zero_of_mul hprod
    rw [div_eq_div_iff hJ0 h0, ← hJ]
    ring
  have h0 : u.1 * v.2 - u.2 * v.1 ≠ 0 := right_ne_zero_of_mul hprod
  unfold CurvIn.Gx CurvIn.Gz
  rw [e, d1, d2, d3, d4]
  obtain ⟨D, hD⟩ : ∃ D, D = u.1 * v.2 - u.2 * v.1 := ⟨_, rfl⟩
  rw [← hD] at h0 ⊢
  constructor <;> (field_simp; rw [hD]; ring)

end

/-- A sheared grid of two by two points. -/
def evenCurv : CurvIn ℚ :=
  ⟨2, 1, 2, fun _ => 1, fun _ => 1 / 2, fun _ => 1 / 3, fun _ => 1, fun _ => 1, fun _ => 1, fun _ => 0, fun c => 1 + 2 * c.1 + 1 * c.2.2, fun c => 0 + 1 * c.1 + 3 * c.2.2,
    fun c => 1 + 2 * c.1 + 1 * c.2.2, fun _ => 1, fun R _ _ => R, fun _ _ _ => 1, fun _ _ Z => Z + 1⟩

example : evenCurv.Even (fun _ => (1, 0)) (2, 1) (1, 3) := fun _ => ⟨rfl, rfl⟩

example : AffineRule (fun n f i => if i + 1 < n then f (i + 1) - f i else f i - f (i - 1) : ℕ → (ℕ → ℚ) → ℕ → ℚ) := by
  intro n a b i hi hn
  dsimp only
  split_ifs with h
  · push_cast; ring
  · obtain ⟨k, rfl⟩ : ∃ k, i = k + 1 := ⟨i - 1, by omega⟩
    simp only [Nat.add_sub_cancel]
    push_cast; ring

end Zoidberg
