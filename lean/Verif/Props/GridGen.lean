import Verif.Model.GridGen
import Mathlib.Tactic.FieldSimp
import Mathlib.Tactic.LinearCombination
import Mathlib.Tactic.IntervalCases

/-!
# C50-C53: `grid_annulus` and `grid_elliptic`
-/

set_option linter.unusedSectionVars false

namespace Zoidberg

variable {K : Type} [Field K] [LinearOrder K] [IsStrictOrderedRing K] [FloorRing K]

theorem linspaceClosed_getD (a b : K) {n i : ℕ} (h : i < n) :
    (linspaceClosed a b n).getD i 0 = a + (i : K) * ((b - a) / ((n : K) - 1)) := by
  unfold linspaceClosed
  rw [List.getD_eq_getElem?_getD, List.getElem?_map, List.getElem?_range h]
  simp only [Option.map_some, Option.getD_some]
  split
  · have : i = 0 := by omega
    rw [this]
    simp
  · rfl

theorem linspaceOpen_getD (a b : K) {n i : ℕ} (h : i < n) :
    (linspaceOpen a b n).getD i 0 = a + (i : K) * ((b - a) / (n : K)) := by
  unfold linspaceOpen
  rw [List.getD_eq_getElem?_getD, List.getElem?_map, List.getElem?_range h]
  rfl

/-! ## `grid_annulus` -/

/-- **C50.** `grid_annulus` returns if `nx ≥ 2` and `nz ≥ 2`; the point in row `i` and column `j`
is at the fraction `i / (nx - 1)` of the way from the inner to the outer line, both at the angle
`2 π j / nz`. -/
theorem C50_annulus (pi : K) (inner outer : LineFn K) (nx nz : ℕ) (hx : 2 ≤ nx) (hz : 2 ≤ nz) :
    ∃ R Z, gridAnnulus pi inner outer nx nz = .ok (R, Z) ∧ ∀ i < nx, ∀ j < nz,
      let t : K := 2 * pi * j / nz
      let f : K := (i : K) / ((nx : K) - 1)
      R i j = inner.Rvalue t + f * (outer.Rvalue t - inner.Rvalue t) ∧
      Z i j = inner.Zvalue t + f * (outer.Zvalue t - inner.Zvalue t) := by
  unfold gridAnnulus
  rw [if_neg (by omega), if_neg (by omega)]
  refine ⟨_, _, rfl, ?_⟩
  intro i hi j hj
  simp only [Int.toNat_natCast]
  rw [linspaceClosed_getD _ _ hi, linspaceOpen_getD _ _ hj]
  have e : (0 : K) + (j : K) * ((2 * pi - 0) / (nz : K)) = 2 * pi * j / nz := by ring
  have e2 : (0 : K) + (i : K) * ((1 - 0) / ((nx : K) - 1)) = (i : K) / ((nx : K) - 1) := by ring
  rw [e, e2]
  constructor <;> ring

/-- **C50.** In particular the first row is the inner line and the last row the outer one. -/
theorem C50_rows (pi : K) (inner outer : LineFn K) (nx nz : ℕ) (hx : 2 ≤ nx) (hz : 2 ≤ nz)
    (R Z : Arr2 K) (h : gridAnnulus pi inner outer nx nz = .ok (R, Z)) (j : ℕ) (hj : j < nz) :
    (R 0 j, Z 0 j) = (inner.Rvalue (2 * pi * j / nz), inner.Zvalue (2 * pi * j / nz)) ∧
    (R (nx - 1) j, Z (nx - 1) j) = (outer.Rvalue (2 * pi * j / nz), outer.Zvalue (2 * pi * j / nz)) := by
  obtain ⟨R', Z', e, hv⟩ := C50_annulus pi inner outer nx nz hx hz
  rw [h, Except.ok.injEq, Prod.mk.injEq] at e
  obtain ⟨rfl, rfl⟩ := e
  have h0 := hv 0 (by omega) j hj
  have h1 := hv (nx - 1) (by omega) j hj
  simp only at h0 h1
  have hn : ((nx - 1 : ℕ) : K) = (nx : K) - 1 := by rw [Nat.cast_sub (by omega)]; simp
  have hne : (nx : K) - 1 ≠ 0 := by
    have : (2 : K) ≤ nx := by exact_mod_cast hx
    intro hc
    linarith
  rw [h0.1, h0.2, h1.1, h1.2, hn, div_self hne]
  simp

/-- **C50.** Smaller sizes are refused. -/
theorem C50_sizes (pi : K) (inner outer : LineFn K) (nx nz : ℤ) :
    (∃ g, gridAnnulus pi inner outer nx nz = .ok g) ↔ 2 ≤ nx ∧ 2 ≤ nz := by
  unfold gridAnnulus
  constructor
  · rintro ⟨g, h⟩
    split at h
    · cases h
    · split at h
      · cases h
      · omega
  · rintro ⟨h1, h2⟩
    rw [if_neg (by omega), if_neg (by omega)]
    exact ⟨_, rfl⟩

/-! ## The solver -/

/-- A sweep leaves the first and the last row as they are. -/
theorem ellSweep_rows {nx nz : ℕ} {lam dx dz : K} {g g' : Arr2 K × Arr2 K}
    (h : ellSweep nx nz lam dx dz g = .ok g') (j : ℕ) :
    (g'.1 0 j = g.1 0 j ∧ g'.2 0 j = g.2 0 j) ∧
      (g'.1 (nx - 1) j = g.1 (nx - 1) j ∧ g'.2 (nx - 1) j = g.2 (nx - 1) j) := by
  unfold ellSweep at h
  simp only at h
  split at h
  · injection h with h
    subst h
    simp only
    refine ⟨⟨?_, ?_⟩, ⟨?_, ?_⟩⟩ <;> rw [if_neg (by omega)]
  · cases h

/-- The loop too; and its result is the sweep of a grid that differs by less than the
tolerance. -/
theorem ellLoop_ok {nx nz : ℕ} {lam dx dz tol : K} : ∀ {n} {g g' : Arr2 K × Arr2 K},
    ellLoop nx nz lam dx dz tol n g = .ok g' →
    (∀ j, (g'.1 0 j = g.1 0 j ∧ g'.2 0 j = g.2 0 j) ∧
      (g'.1 (nx - 1) j = g.1 (nx - 1) j ∧ g'.2 (nx - 1) j = g.2 (nx - 1) j)) ∧
    ∃ p, ellSweep nx nz lam dx dz p = .ok g' ∧
      ∀ i < nx, ∀ j < nz, (g'.1 i j - p.1 i j) ^ 2 + (g'.2 i j - p.2 i j) ^ 2 < tol
  | 0, _, _, h => by cases h
  | n + 1, g, g', h => by
    unfold ellLoop at h
    cases hs : ellSweep nx nz lam dx dz g with
    | error e => simp only [hs, bind, Except.bind] at h; cases h
    | ok q =>
      simp only [hs, bind, Except.bind] at h
      split at h
      · rename_i hc
        injection h with h
        subst h
        refine ⟨ellSweep_rows hs, g, hs, ?_⟩
        rw [List.all_eq_true] at hc
        intro i hi j hj
        have := hc i (List.mem_range.2 hi)
        rw [List.all_eq_true] at this
        simpa using this j (List.mem_range.2 hj)
      · obtain ⟨h1, h2⟩ := ellLoop_ok h
        refine ⟨fun j => ?_, h2⟩
        obtain ⟨⟨a1, a2⟩, a3, a4⟩ := h1 j
        obtain ⟨⟨b1, b2⟩, b3, b4⟩ := ellSweep_rows hs j
        exact ⟨⟨a1.trans b1, a2.trans b2⟩, a3.trans b3, a4.trans b4⟩

/-- The first row of the starting guess is on the inner line, the last on the outer. -/
theorem ellCore_rows {e : EllEnv K} {o : EllOpts K} {inner outer : LineFn K} {fuel nx nz : ℕ}
    {g : Arr2 K × Arr2 K} (h : ellCore e o inner outer fuel nx nz = .ok g) :
    2 ≤ nx ∧ 2 ≤ nz ∧ ∃ ti, ellInnerTheta e o inner outer (linspaceOpen 0 (2 * e.pi) nz) = .ok ti ∧
      ∀ j < nz, (g.1 0 j = inner.Rvalue (ti.getD j 0) ∧ g.2 0 j = inner.Zvalue (ti.getD j 0)) ∧
        (g.1 (nx - 1) j = outer.Rvalue (2 * e.pi * j / nz) ∧ g.2 (nx - 1) j = outer.Zvalue (2 * e.pi * j / nz)) := by
  cases fuel with
  | zero => cases h
  | succ fuel =>
    unfold ellCore at h
    split at h
    · cases h
    · split at h
      · cases h
      · rename_i hx hz
        have hx : 2 ≤ nx := by omega
        have hz : 2 ≤ nz := by omega
        refine ⟨hx, hz, ?_⟩
        have hne : (nx : K) - 1 ≠ 0 := by
          have : (2 : K) ≤ nx := by exact_mod_cast hx
          intro hc
          linarith
        have hn : ((nx - 1 : ℕ) : K) = (nx : K) - 1 := by rw [Nat.cast_sub (by omega)]; simp
        have hth : ∀ j < nz, (linspaceOpen 0 (2 * e.pi) nz).getD j 0 = 2 * e.pi * j / nz := by
          intro j hj
          rw [linspaceOpen_getD _ _ hj]
          ring
        have hx0 : (linspaceClosed (0 : K) 1 nx).getD 0 0 = 0 := by
          rw [linspaceClosed_getD _ _ (by omega)]; simp
        have hx1 : (linspaceClosed (0 : K) 1 nx).getD (nx - 1) 0 = 1 := by
          rw [linspaceClosed_getD _ _ (by omega), hn]; field_simp; ring
        have key : ∀ start, (∃ ti, ellInnerTheta e o inner outer (linspaceOpen 0 (2 * e.pi) nz) = .ok ti ∧
            ∀ j < nz, (start.1 0 j = inner.Rvalue (ti.getD j 0) ∧ start.2 0 j = inner.Zvalue (ti.getD j 0)) ∧
            (start.1 (nx - 1) j = outer.Rvalue (2 * e.pi * j / nz) ∧
              start.2 (nx - 1) j = outer.Zvalue (2 * e.pi * j / nz))) →
            ellSolve e o nx nz start = .ok g →
            ∃ ti, ellInnerTheta e o inner outer (linspaceOpen 0 (2 * e.pi) nz) = .ok ti ∧
            ∀ j < nz, (g.1 0 j = inner.Rvalue (ti.getD j 0) ∧ g.2 0 j = inner.Zvalue (ti.getD j 0)) ∧
            (g.1 (nx - 1) j = outer.Rvalue (2 * e.pi * j / nz) ∧ g.2 (nx - 1) j = outer.Zvalue (2 * e.pi * j / nz)) := by
          rintro start ⟨ti, h1, h2⟩ hs
          refine ⟨ti, h1, fun j hj => ?_⟩
          obtain ⟨⟨a1, a2⟩, a3, a4⟩ := (ellLoop_ok hs).1 j
          rw [a1, a2, a3, a4]
          exact h2 j hj
        by_cases hr : nx > o.restrictSize ∨ nz > o.restrictSize
        · rw [if_pos hr] at h
          simp only [Except.bind] at h
          split at h
          · cases h
          · rename_i start hst
            refine key start ?_ h
            split at hst
            · cases hst
            · unfold ellFromCoarse at hst
              simp only [bind, Except.bind] at hst
              split at hst
              · cases hst
              · rename_i ti hti
                injection hst with hst
                refine ⟨ti, hti, fun j hj => ?_⟩
                subst hst
                dsimp only
                rw [if_pos rfl, if_pos rfl, if_neg (by omega), if_pos rfl, if_neg (by omega), if_pos rfl, hth j hj]
                exact ⟨⟨rfl, rfl⟩, rfl, rfl⟩
        · rw [if_neg hr] at h
          simp only [Except.bind] at h
          split at h
          · cases h
          · rename_i start hst
            refine key start ?_ h
            unfold ellDirect at hst
            simp only [bind, Except.bind] at hst
            split at hst
            · cases hst
            · rename_i ti hti
              injection hst with hst
              refine ⟨ti, hti, fun j hj => ?_⟩
              subst hst
              simp only
              rw [hx0, hx1, hth j hj]
              refine ⟨⟨by ring, by ring⟩, by ring, by ring⟩

/-- The lines after the alignment. -/
def ellLines (e : EllEnv K) (o : EllOpts K) (align : Bool) (inner outer : LineFn K) : LineFn K × LineFn K :=
  if align && !o.innerOrt then e.align inner outer else (inner, outer)

theorem gridElliptic_ok {e : EllEnv K} {o : EllOpts K} {align : Bool} {fuel : ℕ} {inner outer : LineFn K}
    {nx nz nxo nxi : ℤ} {R Z : Arr2 K} (h : gridElliptic e o align fuel inner outer nx nz nxo nxi = .ok (R, Z)) :
    0 ≤ nxo ∧ 0 ≤ nxi ∧ ∃ g, ellCore e o (ellLines e o align inner outer).1 (ellLines e o align inner outer).2 fuel
      (nx - nxo - nxi).toNat nz.toNat = .ok g ∧
      R = ellExtend (nx - nxo - nxi).toNat nxi.toNat g.1 ∧ Z = ellExtend (nx - nxo - nxi).toNat nxi.toNat g.2 := by
  unfold gridElliptic at h
  split at h
  · cases h
  · split at h
    · cases h
    · refine ⟨by omega, by omega, ?_⟩
      simp only [bind, Except.bind] at h
      split at h
      · cases h
      · rename_i g hg
        injection h with h
        rw [Prod.mk.injEq] at h
        exact ⟨g, hg, h.1.symm, h.2.symm⟩

/-- **C51.** When `grid_elliptic` returns: row `nx_inner` is on the inner line, at the angles that
were determined for it, row `nx - nx_outer - 1` is the outer line at equidistant angles, and the
additional rows continue the two rows next to them linearly. -/
theorem C51_rows (e : EllEnv K) (o : EllOpts K) (align : Bool) (fuel : ℕ) (inner outer : LineFn K)
    (nx nz nxo nxi : ℕ) (R Z : Arr2 K)
    (h : gridElliptic e o align fuel inner outer nx nz nxo nxi = .ok (R, Z)) :
    nxi + 2 + nxo ≤ nx ∧ 2 ≤ nz ∧
    let i0 := nxi
    let i1 := nx - nxo - 1
    let lines := ellLines e o align inner outer
    ∃ ti, ellInnerTheta e o lines.1 lines.2 (linspaceOpen 0 (2 * e.pi) nz) = .ok ti ∧ ∀ j < nz,
      (R i0 j = lines.1.Rvalue (ti.getD j 0) ∧ Z i0 j = lines.1.Zvalue (ti.getD j 0)) ∧
      (R i1 j = lines.2.Rvalue (2 * e.pi * j / nz) ∧ Z i1 j = lines.2.Zvalue (2 * e.pi * j / nz)) ∧
      (∀ k ≤ nxi, R (i0 - k) j = R i0 j + k * (R i0 j - R (i0 + 1) j) ∧
        Z (i0 - k) j = Z i0 j + k * (Z i0 j - Z (i0 + 1) j)) ∧
      (∀ k ≤ nxo, R (i1 + k) j = R i1 j + k * (R i1 j - R (i1 - 1) j) ∧
        Z (i1 + k) j = Z i1 j + k * (Z i1 j - Z (i1 - 1) j)) := by
  obtain ⟨-, -, g, hg, hR, hZ⟩ := gridElliptic_ok h
  obtain ⟨hn, hz, ti, hti, hv⟩ := ellCore_rows hg
  have hnat : ((nx : ℤ) - nxo - nxi).toNat = nx - nxo - nxi := by omega
  rw [hnat] at hn hv hR hZ
  simp only [Int.toNat_natCast] at hz hv hti hR hZ
  have hsz : nxi + 2 + nxo ≤ nx := by omega
  refine ⟨hsz, hz, ti, hti, ?_⟩
  generalize hm : nx - nxo - nxi = m at *
  have hi1 : nx - nxo - 1 = nxi + (m - 1) := by omega
  rw [hi1]
  intro j hj
  obtain ⟨⟨a1, a2⟩, a3, a4⟩ := hv j hj
  have inner_row : ∀ A : Arr2 K, ∀ i < m, ellExtend m nxi A (nxi + i) j = A i j := by
    intro A i hi
    unfold ellExtend
    rw [if_neg (by omega), if_pos (by omega), Nat.add_sub_cancel_left]
  have e0 : ∀ A : Arr2 K, ellExtend m nxi A nxi j = A 0 j := fun A => inner_row A 0 (by omega)
  have ext1 : ∀ A : Arr2 K, ∀ k ≤ nxi, ellExtend m nxi A (nxi - k) j = A 0 j + k * (A 0 j - A 1 j) := by
    intro A k hk
    rcases Nat.eq_zero_or_pos k with rfl | hp
    · rw [Nat.sub_zero, e0]; simp
    · unfold ellExtend
      rw [if_pos (by omega), show nxi - (nxi - k) = k by omega]
      ring
  have ext2 : ∀ A : Arr2 K, ∀ k ≤ nxo, ellExtend m nxi A (nxi + (m - 1) + k) j =
      A (m - 1) j + k * (A (m - 1) j - A (m - 2) j) := by
    intro A k hk
    rcases Nat.eq_zero_or_pos k with rfl | hp
    · rw [Nat.add_zero, inner_row A (m - 1) (by omega)]; simp
    · unfold ellExtend
      rw [if_neg (by omega), if_neg (by omega), show nxi + (m - 1) + k - (nxi + m) + 1 = k by omega]
      ring
  subst hR hZ
  refine ⟨⟨?_, ?_⟩, ⟨?_, ?_⟩, fun k hk => ⟨?_, ?_⟩, fun k hk => ⟨?_, ?_⟩⟩
  · rw [e0, a1]
  · rw [e0, a2]
  · rw [inner_row _ (m - 1) (by omega), a3]
  · rw [inner_row _ (m - 1) (by omega), a4]
  · rw [ext1 _ k hk, e0, inner_row _ 1 (by omega)]
  · rw [ext1 _ k hk, e0, inner_row _ 1 (by omega)]
  · rw [ext2 _ k hk, inner_row _ (m - 1) (by omega), show nxi + (m - 1) - 1 = nxi + (m - 2) by omega,
      inner_row _ (m - 2) (by omega)]
  · rw [ext2 _ k hk, inner_row _ (m - 1) (by omega), show nxi + (m - 1) - 1 = nxi + (m - 2) by omega,
      inner_row _ (m - 2) (by omega)]

/-! ## The equation -/

/-- `a A_xx - 2 b A_xz + c A_zz` in central differences at an inner point, where `a`, `b`, `c` are
formed with the `z` derivatives multiplied by `lam`; the documented equation has `lam = 1`. -/
def ellResidual (nz : ℕ) (lam dx dz : K) (R Z A : Arr2 K) (i j : ℕ) : K :=
  let zm := (j + nz - 1) % nz
  let zp := (j + 1) % nz
  let Rx := (R (i + 1) j - R (i - 1) j) / (2 * dx)
  let Zx := (Z (i + 1) j - Z (i - 1) j) / (2 * dx)
  let Rz := lam * ((R i zp - R i zm) / (2 * dz))
  let Zz := lam * ((Z i zp - Z i zm) / (2 * dz))
  let Axx := (A (i + 1) j - 2 * A i j + A (i - 1) j) / dx ^ 2
  let Azz := (A i zp - 2 * A i j + A i zm) / dz ^ 2
  let Axz := (A (i + 1) zp - A (i - 1) zp - A (i + 1) zm + A (i - 1) zm) / (4 * dx * dz)
  (Rz ^ 2 + Zz ^ 2) * Axx - 2 * (Rz * Rx + Zx * Zz) * Axz + (Rx ^ 2 + Zx ^ 2) * Azz

/-- The scale of the residual: `2 a / dx² + 2 c / dz²`. -/
def ellScale (nz : ℕ) (lam dx dz : K) (R Z : Arr2 K) (i j : ℕ) : K :=
  ellDiag dx dz (ellCoeffs lam dx dz (Stencil.at nz R i j) (Stencil.at nz Z i j))

/-- The change of one sweep is the residual over the scale. -/
theorem ellSweep_residual {nx nz : ℕ} {lam dx dz : K} (hdx : dx ≠ 0) (hdz : dz ≠ 0) {g g' : Arr2 K × Arr2 K}
    (h : ellSweep nx nz lam dx dz g = .ok g') {i j : ℕ} (h1 : 1 ≤ i) (h2 : i + 1 < nx) (hj : j < nz) :
    0 < ellScale nz lam dx dz g.1 g.2 i j ∧
    (g'.1 i j - g.1 i j) * ellScale nz lam dx dz g.1 g.2 i j = ellResidual nz lam dx dz g.1 g.2 g.1 i j ∧
    (g'.2 i j - g.2 i j) * ellScale nz lam dx dz g.1 g.2 i j = ellResidual nz lam dx dz g.1 g.2 g.2 i j := by
  unfold ellSweep at h
  simp only at h
  split at h
  · rename_i hc
    rw [List.all_eq_true] at hc
    have := hc (i - 1) (List.mem_range.2 (by omega))
    rw [List.all_eq_true] at this
    have hd := this j (List.mem_range.2 hj)
    rw [decide_eq_true_eq, show i - 1 + 1 = i by omega] at hd
    have hs : ellScale nz lam dx dz g.1 g.2 i j ≠ 0 := hd
    injection h with h
    subst h
    simp only
    rw [if_pos ⟨h1, h2⟩, if_pos ⟨h1, h2⟩]
    have key : ∀ A : Arr2 K, (ellUpdate dx dz
        (ellCoeffs lam dx dz (Stencil.at nz g.1 i j) (Stencil.at nz g.2 i j)) (Stencil.at nz A i j) - A i j) *
        ellScale nz lam dx dz g.1 g.2 i j = ellResidual nz lam dx dz g.1 g.2 A i j := by
      intro A
      unfold ellUpdate
      rw [show ellDiag dx dz (ellCoeffs lam dx dz (Stencil.at nz g.1 i j) (Stencil.at nz g.2 i j)) =
        ellScale nz lam dx dz g.1 g.2 i j from rfl, sub_mul, mul_assoc, one_div, inv_mul_cancel₀ hs, mul_one]
      unfold ellScale ellDiag ellResidual ellCoeffs Stencil.at
      simp only
      field_simp
      ring
    refine ⟨lt_of_le_of_ne ?_ hs.symm, key g.1, key g.2⟩
    unfold ellScale ellDiag ellCoeffs
    simp only
    positivity
  · cases h

/-- A grid that a sweep does not change. -/
def EllFixed (nx nz : ℕ) (lam dx dz : K) (R Z : Arr2 K) : Prop :=
  ∃ g', ellSweep nx nz lam dx dz (R, Z) = .ok g' ∧ ∀ i < nx, ∀ j < nz, g'.1 i j = R i j ∧ g'.2 i j = Z i j

/-- A grid that satisfies the equation with the factor `lam`. -/
def EllEquation (nx nz : ℕ) (lam dx dz : K) (R Z : Arr2 K) : Prop :=
  ∀ i j, 1 ≤ i → i + 1 < nx → j < nz →
    ellResidual nz lam dx dz R Z R i j = 0 ∧ ellResidual nz lam dx dz R Z Z i j = 0

/-- **C52**, the claim for a value of `dz_relax`: grids that a sweep does not change satisfy the
documented equation. -/
def FixedSolves (lam : K) : Prop :=
  ∀ nx nz dx dz (R Z : Arr2 K), dx ≠ 0 → dz ≠ 0 → EllFixed nx nz lam dx dz R Z → EllEquation nx nz 1 dx dz R Z

/-- A grid that is not changed satisfies the equation in which the derivatives in `z` that are in
the coefficients are multiplied by `dz_relax`. -/
theorem C52_scaled (nx nz : ℕ) (lam dx dz : K) (R Z : Arr2 K) (hdx : dx ≠ 0) (hdz : dz ≠ 0)
    (h : EllFixed nx nz lam dx dz R Z) : EllEquation nx nz lam dx dz R Z := by
  obtain ⟨g', hs, he⟩ := h
  intro i j h1 h2 hj
  obtain ⟨-, r1, r2⟩ := ellSweep_residual hdx hdz hs h1 h2 hj
  obtain ⟨e1, e2⟩ := he i (by omega) j hj
  rw [e1, sub_self, zero_mul] at r1
  rw [e2, sub_self, zero_mul] at r2
  exact ⟨r1.symm, r2.symm⟩

/-- And the other way round, where the scale is not zero. -/
theorem C52_solution_fixed (nx nz : ℕ) (lam dx dz : K) (R Z : Arr2 K) (hdx : dx ≠ 0) (hdz : dz ≠ 0)
    (h : EllEquation nx nz lam dx dz R Z)
    (hs : ∀ i j, 1 ≤ i → i + 1 < nx → j < nz → ellScale nz lam dx dz R Z i j ≠ 0) :
    EllFixed nx nz lam dx dz R Z := by
  have hok : ∃ g', ellSweep nx nz lam dx dz (R, Z) = .ok g' := by
    unfold ellSweep
    simp only
    rw [if_pos]
    · exact ⟨_, rfl⟩
    · rw [List.all_eq_true]
      intro i hi
      rw [List.all_eq_true]
      intro j hj
      rw [List.mem_range] at hi hj
      rw [decide_eq_true_eq]
      exact hs (i + 1) j (by omega) (by omega) hj
  obtain ⟨g', hg⟩ := hok
  refine ⟨g', hg, fun i hi j hj => ?_⟩
  by_cases hb : 1 ≤ i ∧ i + 1 < nx
  · obtain ⟨p, r1, r2⟩ := ellSweep_residual hdx hdz hg hb.1 hb.2 hj
    obtain ⟨e1, e2⟩ := h i j hb.1 hb.2 hj
    simp only at r1 r2 p
    rw [e1] at r1
    rw [e2] at r2
    rcases mul_eq_zero.1 r1 with q | q
    · rcases mul_eq_zero.1 r2 with q' | q'
      · exact ⟨sub_eq_zero.1 q, sub_eq_zero.1 q'⟩
      · exact absurd q' p.ne'
    · exact absurd q p.ne'
  · obtain ⟨⟨a1, a2⟩, a3, a4⟩ := ellSweep_rows hg j
    rcases Nat.eq_zero_or_pos i with e | e
    · rw [e]; exact ⟨a1, a2⟩
    · have : i = nx - 1 := by omega
      rw [this]
      exact ⟨a3, a4⟩

/-- **C52** for `dz_relax = 1`.  Missing: other values, in particular the default 10/3, for which
`C52_fails` shows that it is false. -/
theorem C52_fixed_partial : FixedSolves (1 : K) :=
  fun nx nz dx dz R Z hdx hdz h => C52_scaled nx nz 1 dx dz R Z hdx hdz h

/-- What holds of a grid that `grid_elliptic` returns, with the tolerance: it is the sweep of a
grid for which the residuals of the scaled equation are smaller than the tolerance times the
scale, in squares. -/
theorem C52_result (e : EllEnv K) (o : EllOpts K) (align : Bool) (fuel : ℕ) (inner outer : LineFn K)
    (nx nz : ℕ) (R Z : Arr2 K) (hpi : e.pi ≠ 0)
    (h : gridElliptic e o align fuel inner outer nx nz 0 0 = .ok (R, Z)) :
    ∃ P Q : Arr2 K, let dx : K := 1 / ((nx : K) - 1)
      let dz : K := 2 * e.pi / nz
      (∀ i < nx, ∀ j < nz, (R i j - P i j) ^ 2 + (Z i j - Q i j) ^ 2 < o.tol) ∧
      ∀ i j, 1 ≤ i → i + 1 < nx → j < nz →
        ellResidual nz o.dzRelax dx dz P Q P i j ^ 2 + ellResidual nz o.dzRelax dx dz P Q Q i j ^ 2 <
          o.tol * ellScale nz o.dzRelax dx dz P Q i j ^ 2 := by
  obtain ⟨-, -, g, hg, hR, hZ⟩ := gridElliptic_ok h
  have hn : ((nx : ℤ) - 0 - 0).toNat = nx := by omega
  rw [hn] at hg hR hZ
  simp only [Int.toNat_natCast, Int.toNat_zero] at hg hR hZ
  obtain ⟨hx, hz, -⟩ := ellCore_rows hg
  have hxK : (2 : K) ≤ nx := by exact_mod_cast hx
  have hzK : (2 : K) ≤ nz := by exact_mod_cast hz
  have hrow : ∀ A : Arr2 K, ∀ i < nx, ∀ j, ellExtend nx 0 A i j = A i j := by
    intro A i hi j
    unfold ellExtend
    rw [if_neg (by omega), if_pos (by omega), Nat.sub_zero]
  have hsolve : ∃ start, ellSolve e o nx nz start = .ok g := by
    cases fuel with
    | zero => cases hg
    | succ fuel =>
      unfold ellCore at hg
      rw [if_neg (by omega), if_neg (by omega)] at hg
      unfold Except.bind at hg
      split at hg
      · cases hg
      · exact ⟨_, hg⟩
  obtain ⟨start, hs⟩ := hsolve
  unfold ellSolve at hs
  simp only at hs
  rw [linspaceClosed_getD _ _ (by omega), linspaceClosed_getD _ _ (by omega), linspaceOpen_getD _ _ (by omega),
    linspaceOpen_getD _ _ (by omega)] at hs
  have e1 : (0 : K) + ((1 : ℕ) : K) * ((1 - 0) / ((nx : K) - 1)) - (0 + ((0 : ℕ) : K) * ((1 - 0) / ((nx : K) - 1))) =
      1 / ((nx : K) - 1) := by push_cast; ring
  have e2 : (0 : K) + ((1 : ℕ) : K) * ((2 * e.pi - 0) / (nz : K)) - (0 + ((0 : ℕ) : K) * ((2 * e.pi - 0) / (nz : K))) =
      2 * e.pi / nz := by push_cast; ring
  rw [e1, e2] at hs
  obtain ⟨-, p, hp, hc⟩ := ellLoop_ok hs
  refine ⟨p.1, p.2, ?_, ?_⟩
  · intro i hi j hj
    rw [hR, hZ, hrow _ i hi, hrow _ i hi]
    exact hc i hi j hj
  · intro i j h1 h2 hj
    have hdx : (1 : K) / ((nx : K) - 1) ≠ 0 := one_div_ne_zero (by intro hc; linarith)
    have hdz : 2 * e.pi / (nz : K) ≠ 0 := div_ne_zero (mul_ne_zero two_ne_zero hpi) (by intro hc; linarith)
    obtain ⟨q, r1, r2⟩ := ellSweep_residual hdx hdz hp h1 h2 hj
    rw [← r1, ← r2, mul_pow, mul_pow, ← add_mul]
    exact mul_lt_mul_of_pos_right (hc i (by omega) j hj) (pow_pos q 2)

/-- Three square rings: the factors of the unit vectors. -/
def exRing (i : ℕ) : ℚ := if i = 0 then 203 / 300 else if i = 1 then 1 else 403 / 300

def exRingR : Arr2 ℚ := fun i j => exRing i * (if j = 0 then 1 else if j = 2 then -1 else 0)

def exRingZ : Arr2 ℚ := fun i j => exRing i * (if j = 1 then 1 else if j = 3 then -1 else 0)

/-- They are not changed by the solver with the default `dz_relax`. -/
theorem exRing_fixed : EllFixed 3 4 (10 / 3 : ℚ) (1 / 2) 1 exRingR exRingZ := by
  apply C52_solution_fixed
  · norm_num
  · norm_num
  · intro i j h1 h2 hj
    obtain rfl : i = 1 := by omega
    interval_cases j <;> norm_num [ellResidual, exRingR, exRingZ, exRing]
  · intro i j h1 h2 hj
    obtain rfl : i = 1 := by omega
    interval_cases j <;> norm_num [ellScale, ellDiag, ellCoeffs, Stencil.at, exRingR, exRingZ, exRing]

/-- **C52** is false for the default `dz_relax = 10/3`: the rings do not satisfy the documented
equation. -/
theorem C52_fails : ¬ FixedSolves (10 / 3 : ℚ) := by
  intro h
  have := (h 3 4 (1 / 2) 1 exRingR exRingZ (by norm_num) (by norm_num) exRing_fixed 1 0 (by decide) (by decide)
    (by decide)).1
  norm_num [ellResidual, exRingR, exRingZ, exRing] at this

/-! ## The recursion -/

/-- **C53.** With a factor of at least two the recursion ends: `nx + nz + 1` levels are enough. -/
theorem C53_terminates (e : EllEnv K) (o : EllOpts K) (hf : 2 ≤ o.restrictFactor) (inner outer : LineFn K) :
    ∀ (fuel nx nz : ℕ), nx + nz + 1 ≤ fuel →
      ellCore e o inner outer fuel nx nz = ellCore e o inner outer (nx + nz + 1) nx nz := by
  have key : ∀ (n fuel fuel' nx nz : ℕ), nx + nz + 1 ≤ n → n ≤ fuel → n ≤ fuel' →
      ellCore e o inner outer fuel nx nz = ellCore e o inner outer fuel' nx nz := by
    intro n
    induction n with
    | zero => intro fuel fuel' nx nz h; omega
    | succ n ih =>
      intro fuel fuel' nx nz h h1 h2
      obtain ⟨fuel, rfl⟩ : ∃ k, fuel = k + 1 := ⟨fuel - 1, by omega⟩
      obtain ⟨fuel', rfl⟩ : ∃ k, fuel' = k + 1 := ⟨fuel' - 1, by omega⟩
      unfold ellCore
      split
      · rfl
      · split
        · rfl
        · split
          · rename_i hx hz hr
            have hle : ∀ m, ellCoarse o.restrictSize o.restrictFactor m ≤ m := by
              intro m
              unfold ellCoarse
              split
              · exact Nat.div_le_self _ _
              · exact le_refl _
            have hlt : ∀ m, 1 < m → m > o.restrictSize → ellCoarse o.restrictSize o.restrictFactor m < m := by
              intro m hm hs
              unfold ellCoarse
              rw [if_pos hs]
              exact Nat.div_lt_self (by omega) (by omega)
            have hdec : ellCoarse o.restrictSize o.restrictFactor nx + ellCoarse o.restrictSize o.restrictFactor nz <
                nx + nz := by
              have a := hle nx
              have b := hle nz
              rcases hr with hr | hr
              · have := hlt nx (by omega) hr; omega
              · have := hlt nz (by omega) hr; omega
            rw [ih fuel fuel' (ellCoarse o.restrictSize o.restrictFactor nx)
              (ellCoarse o.restrictSize o.restrictFactor nz) (by omega) (by omega) (by omega)]
          · rfl
  intro fuel nx nz h
  exact key (nx + nz + 1) fuel (nx + nz + 1) nx nz (le_refl _) h (le_refl _)

/-- **C53.** With the factor one it does not end, if one of the sizes is larger than
`restrict_size`: whatever depth is allowed, it is exceeded. -/
theorem C53_endless (e : EllEnv K) (o : EllOpts K) (hf : o.restrictFactor = 1) (inner outer : LineFn K) (nx nz : ℕ)
    (hx : 2 ≤ nx) (hz : 2 ≤ nz) (hr : nx > o.restrictSize ∨ nz > o.restrictSize) (fuel : ℕ) :
    ellCore e o inner outer fuel nx nz = .error (.runtime "maximum recursion depth exceeded") := by
  induction fuel with
  | zero => rfl
  | succ fuel ih =>
    have hc : ∀ m, ellCoarse o.restrictSize o.restrictFactor m = m := by
      intro m
      unfold ellCoarse
      rw [hf, Nat.div_one, ite_self]
    unfold ellCore
    rw [if_neg (by omega), if_neg (by omega), if_pos hr, hc, hc, ih]
    rfl

/-- **C53**, the claim about the sizes: for every size of at least two, after finitely many steps
the size is at most `restrict_size`, and it is at least two all the way. -/
def SizesOk (s f : ℕ) : Prop :=
  ∀ n, 2 ≤ n → ∃ k, (ellCoarse s f)^[k] n ≤ s ∧ ∀ l, 2 ≤ (ellCoarse s f)^[l] n

/-- **C53** if `restrict_size` is at least `2 restrict_factor - 1`, which includes every
`restrict_size ≥ 3` for the default factor two.  Missing: larger factors, for which `C53_fails`
shows that the size may become one. -/
theorem C53_sizes_partial (s f : ℕ) (hf : 2 ≤ f) (hs : 2 * f ≤ s + 1) : SizesOk s f := by
  intro n hn
  have h2 : ∀ m, 2 ≤ m → 2 ≤ ellCoarse s f m := by
    intro m hm
    unfold ellCoarse
    split
    · rw [Nat.le_div_iff_mul_le (by omega)]; omega
    · exact hm
  have hit : ∀ l m, 2 ≤ m → 2 ≤ (ellCoarse s f)^[l] m := by
    intro l
    induction l with
    | zero => exact fun m h => h
    | succ l ih => intro m h; rw [Function.iterate_succ_apply]; exact ih _ (h2 m h)
  refine ⟨n, ?_, fun l => hit l n hn⟩
  have hdec : ∀ k m, m ≤ s + k → (ellCoarse s f)^[k] m ≤ s := by
    intro k
    induction k with
    | zero => intro m h; simpa using h
    | succ k ih =>
      intro m h
      rw [Function.iterate_succ_apply]
      apply ih
      unfold ellCoarse
      split
      · have : m / f < m := Nat.div_lt_self (by omega) (by omega)
        omega
      · omega
  exact hdec n n (by omega)

/-- **C53** is false if the factor is large in comparison: for `restrict_size = 20` and the factor
20 a size of 21 becomes 1. -/
theorem C53_fails : ¬ SizesOk 20 20 := by
  intro h
  obtain ⟨k, -, hl⟩ := h 21 (by decide)
  have := hl 1
  revert this
  decide

/-- **C53.** With the consequence that such a grid cannot be made. -/
theorem C53_fails_grid (e : EllEnv K) (o : EllOpts K) (h1 : o.restrictSize = 20) (h2 : o.restrictFactor = 20)
    (inner outer : LineFn K) (fuel : ℕ) : ellCore e o inner outer (fuel + 2) 21 21 = .error (.assertion "nx > 1") := by
  unfold ellCore
  rw [if_neg (by decide), if_neg (by decide), if_pos (by rw [h1]; decide), h1, h2]
  have : ellCoarse 20 20 21 = 1 := by decide
  rw [this]
  unfold ellCore
  rw [if_pos (by decide)]
  rfl

/-! ## Examples -/

/-- A square and a larger one. -/
def exSq (r : ℚ) : LineFn ℚ :=
  ⟨fun t => r * (if t = 0 then 1 else if t = 2 then -1 else 0),
    fun t => r * (if t = 1 then 1 else if t = 3 then -1 else 0)⟩

def exEnv : EllEnv ℚ :=
  ⟨2, fun a b => (a, b), fun _ ps => .ok (linspaceOpen 0 4 ps.length), fun _ _ data _ _ => data 0 0⟩

def exOpts : EllOpts ℚ := ⟨1 / 4, 20, 2, true, 1⟩

example : ∃ R Z, gridAnnulus 2 (exSq 1) (exSq 2) (3 : ℕ) (4 : ℕ) = .ok (R, Z) :=
  let ⟨R, Z, h, _⟩ := C50_annulus 2 (exSq 1) (exSq 2) 3 4 (by decide) (by decide)
  ⟨R, Z, h⟩

/-- A grid of five rows of which two are additional. -/
theorem exElliptic : ∃ R Z, gridElliptic exEnv exOpts true 5 (exSq 1) (exSq 2) (5 : ℕ) (4 : ℕ) (1 : ℕ) (1 : ℕ) =
    .ok (R, Z) := by
  have h : (gridElliptic exEnv exOpts true 5 (exSq 1) (exSq 2) (5 : ℕ) (4 : ℕ) (1 : ℕ) (1 : ℕ)).toBool = true := by
    decide +kernel
  cases hg : gridElliptic exEnv exOpts true 5 (exSq 1) (exSq 2) (5 : ℕ) (4 : ℕ) (1 : ℕ) (1 : ℕ) with
  | ok g => exact ⟨g.1, g.2, rfl⟩
  | error e => rw [hg] at h; cases h

example : ¬ SizesOk 20 20 ∧ SizesOk 20 2 := ⟨C53_fails, C53_sizes_partial 20 2 (by decide) (by decide)⟩

/-- The hypothesis of C52_result, with a coarse grid for the start. -/
example : ∃ R Z, gridElliptic exEnv ⟨100, 3, 2, false, 1⟩ true 9 (exSq 1) (exSq 2) (3 : ℕ) (4 : ℕ) 0 0 = .ok (R, Z) := by
  have h : (gridElliptic exEnv ⟨100, 3, 2, false, 1⟩ true 9 (exSq 1) (exSq 2) (3 : ℕ) (4 : ℕ) 0 0).toBool =
      true := by
    decide +kernel
  cases hg : gridElliptic exEnv ⟨100, 3, 2, false, 1⟩ true 9 (exSq 1) (exSq 2) (3 : ℕ) (4 : ℕ) 0 0 with
  | ok g => exact ⟨g.1, g.2, rfl⟩
  | error e => rw [hg] at h; cases h

example : ellCore exEnv ⟨1 / 4, 20, 1, true, 1⟩ (exSq 1) (exSq 2) 1000 30 16 =
    .error (.runtime "maximum recursion depth exceeded") :=
  C53_endless exEnv _ rfl _ _ 30 16 (by decide) (by decide) (Or.inl (by decide)) 1000

end Zoidberg
