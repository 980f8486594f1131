import Verif.Model.Examples
import Verif.Props.GetMetric
import Verif.Proofs.MakeMaps
import Mathlib.Tactic.FieldSimp
import Mathlib.Tactic.IntervalCases
import Mathlib.Tactic.LinearCombination
import Mathlib.Algebra.BigOperators.Ring.Finset
import Mathlib.Algebra.BigOperators.Intervals
import Mathlib.Algebra.BigOperators.Field

/-! # C192-C196: `calc_curvilinear_curvature` -/

set_option linter.unusedSectionVars false

namespace Zoidberg

open Finset

section
variable {K : Type} [Field K] [LinearOrder K] [IsStrictOrderedRing K] [FloorRing K]

/-- The inputs, read off a call that works. -/
theorem curvInputs_ok (g : Grid (PolGrid K) K) (cache : Option (Metric K)) (file : Dict (Cell → K)) (Bx By Bz : K → K → K → K) (i : CurvIn K)
    (h : curvInputs g cache file Bx By Bz = .ok i) : ∃ (m : Metric K) (pols : List (PolGrid K)), g.metric cache = .ok m ∧
      m.getE "g_yy" = .ok i.g_22 ∧ m.getE "dx" = .ok i.dx ∧ m.getE "dz" = .ok i.dz ∧ m.getE "g_xx" = .ok i.g_11 ∧
      m.getE "g_zz" = .ok i.g_33 ∧ m.getE "g_xz" = .ok i.g_13 ∧
      ((List.range g.ny).mapM fun y => (sliceOf g y).map Prod.fst) = .ok pols ∧ file "B" = some i.B ∧ file "R" = some i.R ∧ file "dy" = some i.dy ∧
      i.nx = g.nx ∧ i.ny = g.ny ∧ i.nz = g.nz ∧ i.Bx = Bx ∧ i.By = By ∧ i.Bz = Bz ∧
      i.polR = (fun c => (pols.map fun p => p.R c.1 c.2.2).getD c.2.1 0) ∧ i.polZ = (fun c => (pols.map fun p => p.Z c.1 c.2.2).getD c.2.1 0) := by
  have rd : ∀ (k : String) (v : Cell → K), fileRead file k = .ok v → file k = some v := by
    intro k v hk
    unfold fileRead at hk
    cases hf : file k with
    | none => rw [hf] at hk; cases hk
    | some w => rw [hf] at hk; injection hk with hk; rw [hk]
  unfold curvInputs at h
  cases h1 : fileRead file "B" with
  | error e => rw [h1] at h; cases h
  | ok B =>
  rw [h1] at h
  cases h2 : g.metric cache with
  | error e => rw [h2] at h; cases h
  | ok m =>
  rw [h2] at h
  cases h3 : m.getE "dx" with
  | error e => simp only [Except.bind, h3] at h; cases h
  | ok dx =>
  cases h4 : m.getE "dz" with
  | error e => simp only [Except.bind, h3, h4] at h; cases h
  | ok dz =>
  cases h5 : m.getE "g_xx" with
  | error e => simp only [Except.bind, h3, h4, h5] at h; cases h
  | ok g11 =>
  cases h6 : m.getE "g_yy" with
  | error e => simp only [Except.bind, h3, h4, h5, h6] at h; cases h
  | ok g22 =>
  cases h7 : m.getE "g_zz" with
  | error e => simp only [Except.bind, h3, h4, h5, h6, h7] at h; cases h
  | ok g33 =>
  cases h8 : m.getE "g_xz" with
  | error e => simp only [Except.bind, h3, h4, h5, h6, h7, h8] at h; cases h
  | ok g13 =>
  cases h9 : (List.range g.ny).mapM fun y => (sliceOf g y).map Prod.fst with
  | error e => simp only [Except.bind, h3, h4, h5, h6, h7, h8, h9] at h; cases h
  | ok pols =>
  cases h10 : fileRead file "R" with
  | error e => simp only [Except.bind, h3, h4, h5, h6, h7, h8, h9, h10] at h; cases h
  | ok R =>
  cases h11 : fileRead file "dy" with
  | error e => simp only [Except.bind, h3, h4, h5, h6, h7, h8, h9, h10, h11] at h; cases h
  | ok dy =>
  simp only [Except.bind, h3, h4, h5, h6, h7, h8, h9, h10, h11] at h
  injection h with h
  subst h
  exact ⟨m, pols, rfl, h6, h3, h4, h5, h7, h8, rfl, rd _ _ h1, rd _ _ h10, rd _ _ h11, rfl, rfl, rfl, rfl, rfl, rfl, rfl, rfl⟩

/-! ### C192: where the field is evaluated -/

/-- The claim: fields that agree at all points of the grid give the same file. -/
def CurvatureSeesGrid (K : Type) [Field K] [LinearOrder K] [FloorRing K] : Prop :=
  ∀ (deriv : ℕ → (ℕ → K) → ℕ → K) (g : Grid (PolGrid K) K) (file : Dict (Cell → K)) (Bx By Bz Bx' By' Bz' : K → K → K → K),
    (∀ y < g.ny, ∀ (p : PolGrid K) (phi : K), sliceOf g y = .ok (p, phi) → ∀ x < g.nx, ∀ z < g.nz,
      Bx (p.R x z) (p.Z x z) phi = Bx' (p.R x z) (p.Z x z) phi ∧ By (p.R x z) (p.Z x z) phi = By' (p.R x z) (p.Z x z) phi ∧
        Bz (p.R x z) (p.Z x z) phi = Bz' (p.R x z) (p.Z x z) phi) →
    calcCurvature deriv g none file Bx By Bz = calcCurvature deriv g none file Bx' By' Bz'

/-- **C192.** What is evaluated in fact: the field at `R`, with the number of the slice for `z` and with `Z` for the angle. -/
theorem C192_arguments (i : CurvIn K) (c : Cell) : i.GR c = i.Bx (i.polR c) (c.2.1 : K) (i.polZ c) / i.B c ^ 2 ∧
    i.Gphi c = i.By (i.polR c) (c.2.1 : K) (i.polZ c) / i.B c ^ 2 ∧ i.GZ c = i.Bz (i.polR c) (c.2.1 : K) (i.polZ c) / i.B c ^ 2 := ⟨rfl, rfl, rfl⟩

/-- **C192 (partial).** Fields that depend on `R` only are taken at the right points.  Missing: all other fields (`C192_fails`). -/
theorem C192_partial (g : Grid (PolGrid K) K) (cache : Option (Metric K)) (file : Dict (Cell → K)) (bx by' bz : K → K) (i : CurvIn K)
    (h : curvInputs g cache file (fun x _ _ => bx x) (fun x _ _ => by' x) (fun x _ _ => bz x) = .ok i) (hl : g.polGrids.length = g.ycoords.length)
    (c : Cell) (hc : c.2.1 < g.ny) : ∃ (p : PolGrid K) (phi : K) (B : Cell → K), sliceOf g c.2.1 = .ok (p, phi) ∧ file "B" = some B ∧
      i.GR c = bx (p.R c.1 c.2.2) / B c ^ 2 ∧ i.Gphi c = by' (p.R c.1 c.2.2) / B c ^ 2 ∧ i.GZ c = bz (p.R c.1 c.2.2) / B c ^ 2 := by
  obtain ⟨m, pols, h1, h2, h3, h4, h5, h6, h7, h8, h9, h10, h11, h12, h13, h14, hx, hy, hz, hR, hZ⟩ := curvInputs_ok _ _ _ _ _ _ _ h
  obtain ⟨p, hp, hs⟩ := sliceOf_eq g hl c.2.1 hc
  refine ⟨p, _, i.B, hs, h9, ?_⟩
  have hget : pols[c.2.1]? = some p := by
    obtain ⟨q, hq1, hq2⟩ := mapM_getElem? h8 c.2.1 c.2.1 (List.getElem?_range hc)
    rw [hs] at hq2
    injection hq2 with hq2
    rw [hq1, ← hq2]
  have hpr : i.polR c = p.R c.1 c.2.2 := by
    rw [hR]
    simp [List.getD_eq_getElem?_getD, hget]
  unfold CurvIn.GR CurvIn.Gphi CurvIn.GZ
  rw [hx, hy, hz]
  simp only [hpr]
  exact ⟨trivial, trivial, trivial⟩

/-- A grid with two times two points and one slice. -/
def exCurvGrid : Grid (PolGrid ℚ) ℚ :=
  ⟨[⟨2, 2, fun x _ => (x : ℚ) + 1, fun _ z => (z : ℚ) + 1, fun n => if n = "J" then none else if n = "gxz" ∨ n = "g_xz" then some fun _ _ => 0 else some fun _ _ => 1⟩],
    [0], 1, true, 2, 2⟩

/-- A file for it. -/
def exCurvFile : Dict (Cell → ℚ) := fun n =>
  if n = "B" then some fun _ => 1 else if n = "R" then some fun c => (c.1 : ℚ) + 1 else if n = "dy" then some fun _ => 1 else none

/-- Differences of the first two entries, for arrays with two entries. -/
def exDeriv : ℕ → (ℕ → ℚ) → ℕ → ℚ := fun n f _ => if n < 2 then 0 else f 1 - f 0

/-- **C192 (refutation).** Two fields that agree on the plane `phi = 0`, where all points of the grid are, with different curvatures in the file. -/
theorem C192_fails : ¬ CurvatureSeesGrid ℚ := by
  intro h
  have := h exDeriv exCurvGrid exCurvFile (fun _ _ _ => 0) (fun _ _ phi => phi) (fun _ _ _ => 0) (fun _ _ _ => 0) (fun _ _ _ => 0)
    (fun _ _ _ => 0) (by
      intro y hy p phi hs x _ z _
      obtain ⟨q, -, hq⟩ := sliceOf_eq exCurvGrid rfl y hy
      rw [hs] at hq
      injection hq with hq
      have hphi : phi = 0 := by
        rw [show phi = _ from congrArg Prod.snd hq]
        have : y = 0 := by
          change y < 1 at hy
          omega
        rw [this]
        rfl
      simp [hphi])
  have h2 := congrArg (fun r => r.toOption.bind fun f => (f "bxcvx").map fun a => a (0, 0, 0)) this
  revert h2
  decide +kernel

/-- The call works and the field at the points of this grid is not the zero field. -/
example : ((calcCurvature exDeriv exCurvGrid none exCurvFile (fun x _ _ => x) (fun x _ _ => x) (fun x _ _ => x)).toOption.bind fun f =>
    (f "J").map fun a => a (1, 0, 0)) = some 2 := by decide +kernel

/-! ### C193: the components in the plane -/

/-- **C193.** Where the Jacobian is not zero, the contravariant components give back the components along `R` and `Z`, and the vector of
which the curl is taken is orthogonal to whatever the field is orthogonal to. -/
theorem C193_components (deriv : ℕ → (ℕ → K) → ℕ → K) (i : CurvIn K) (c : Cell) (hJ : i.J deriv c ≠ 0) :
    i.Gx deriv c * i.dRdx deriv c + i.Gz deriv c * i.dRdz deriv c = i.GR c ∧
      i.Gx deriv c * i.dZdx deriv c + i.Gz deriv c * i.dZdz deriv c = i.GZ c := by
  have hJe : i.J deriv c = i.R c * (i.dZdz deriv c * i.dRdx deriv c - i.dZdx deriv c * i.dRdz deriv c) := rfl
  have hR : i.R c ≠ 0 := by
    intro h0
    apply hJ
    rw [hJe, h0, zero_mul]
  have hD : i.dZdz deriv c * i.dRdx deriv c - i.dZdx deriv c * i.dRdz deriv c ≠ 0 := by
    intro h0
    apply hJ
    rw [hJe, h0, mul_zero]
  have hq : i.R c / i.J deriv c = 1 / (i.dZdz deriv c * i.dRdx deriv c - i.dZdx deriv c * i.dRdz deriv c) := by
    rw [hJe]
    field_simp
  unfold CurvIn.Gx CurvIn.Gz
  rw [hq]
  have hi := mul_one_div_cancel hD
  constructor
  · linear_combination i.GR c * hi
  · linear_combination i.GZ c * hi

/-- **C193.** With the metric of the same derivatives, the covariant components are the products with the two tangents. -/
theorem C193_covariant (deriv : ℕ → (ℕ → K) → ℕ → K) (i : CurvIn K) (c : Cell) (hJ : i.J deriv c ≠ 0)
    (h11 : i.g_11 c = i.dRdx deriv c ^ 2 + i.dZdx deriv c ^ 2) (h33 : i.g_33 c = i.dRdz deriv c ^ 2 + i.dZdz deriv c ^ 2)
    (h13 : i.g_13 c = i.dRdx deriv c * i.dRdz deriv c + i.dZdx deriv c * i.dZdz deriv c) :
    i.G_x deriv c = i.GR c * i.dRdx deriv c + i.GZ c * i.dZdx deriv c ∧ i.G_z deriv c = i.GR c * i.dRdz deriv c + i.GZ c * i.dZdz deriv c := by
  obtain ⟨h1, h2⟩ := C193_components deriv i c hJ
  unfold CurvIn.G_x CurvIn.G_z
  rw [h11, h33, h13, ← h1, ← h2]
  constructor <;> ring

/-- **C193.** The file gets the curvature and the Jacobian, and nothing else in it changes. -/
theorem C193_written (deriv : ℕ → (ℕ → K) → ℕ → K) (g : Grid (PolGrid K) K) (cache : Option (Metric K)) (file file' : Dict (Cell → K))
    (Bx By Bz : K → K → K → K) (h : calcCurvature deriv g cache file Bx By Bz = .ok file') : ∃ i, curvInputs g cache file Bx By Bz = .ok i ∧
      file' "bxcvx" = some (i.bxcvx deriv) ∧ file' "bxcvy" = some (i.bxcvy deriv) ∧ file' "bxcvz" = some (i.bxcvz deriv) ∧ file' "J" = some (i.J deriv) ∧
      ∀ n, n ∉ ["bxcvx", "bxcvy", "bxcvz", "J"] → file' n = file n := by
  unfold calcCurvature at h
  cases hi : curvInputs g cache file Bx By Bz with
  | error e => rw [hi] at h; cases h
  | ok i =>
    rw [hi] at h
    injection h with h
    subst h
    refine ⟨i, rfl, ?_, ?_, ?_, ?_, ?_⟩
    · simp [CurvIn.write, Dict.set, Function.update]
    · simp [CurvIn.write, Dict.set, Function.update]
    · simp [CurvIn.write, Dict.set, Function.update]
    · simp [CurvIn.write, Dict.set, Function.update]
    · intro n hn
      simp only [List.mem_cons, List.not_mem_nil, or_false, not_or] at hn
      simp [CurvIn.write, Dict.set, Function.update, hn.1, hn.2.1, hn.2.2.1, hn.2.2.2]

/-! ### C194: the component along the angle -/

/-- The claim: the covariant component along `y`, the angle, is `R` times the component along the unit vector. -/
def CovariantAngle (K : Type) [Field K] [LinearOrder K] [FloorRing K] : Prop :=
  ∀ (deriv : ℕ → (ℕ → K) → ℕ → K) (g : Grid (PolGrid K) K) (file : Dict (Cell → K)) (Bx By Bz : K → K → K → K) (i : CurvIn K),
    curvInputs g none file Bx By Bz = .ok i → ∀ c : Cell, c.1 < g.nx → c.2.1 < g.ny → c.2.2 < g.nz → i.G_y deriv c = i.R c * i.Gphi c

/-- **C194.** What it is in fact, on a grid with an empty metric cache, as `write_maps` leaves it: the component along the unit vector itself. -/
theorem C194_value (deriv : ℕ → (ℕ → K) → ℕ → K) (g : Grid (PolGrid K) K) (l : List (PolGrid K)) (ys : List K) (hg : MetricGrid g l ys)
    (file : Dict (Cell → K)) (Bx By Bz : K → K → K → K) (i : CurvIn K) (h : curvInputs g none file Bx By Bz = .ok i) (c : Cell) :
    i.G_y deriv c = i.Gphi c := by
  obtain ⟨m, pols, h1, h2, -⟩ := curvInputs_ok _ _ _ _ _ _ _ h
  obtain ⟨-, -, -, m', xx, zz, xz, hm, hyy, -⟩ := hg.facts
  rw [h1] at hm
  injection hm with hm
  subst hm
  have : i.g_22 = fun _ => 1 := by
    unfold ODict.getE at h2
    rw [hyy] at h2
    injection h2 with h2
    exact h2.symm
  unfold CurvIn.G_y
  rw [this]
  ring

/-- **C194 (partial).** So it is right where the radius is one or the field has no component along the angle, and nowhere else.  Missing: all other
points (`C194_fails`). -/
theorem C194_partial (deriv : ℕ → (ℕ → K) → ℕ → K) (g : Grid (PolGrid K) K) (l : List (PolGrid K)) (ys : List K) (hg : MetricGrid g l ys)
    (file : Dict (Cell → K)) (Bx By Bz : K → K → K → K) (i : CurvIn K) (h : curvInputs g none file Bx By Bz = .ok i) (c : Cell) :
    i.G_y deriv c = i.R c * i.Gphi c ↔ i.R c = 1 ∨ i.Gphi c = 0 := by
  rw [C194_value deriv g l ys hg file Bx By Bz i h c]
  constructor
  · intro e
    by_cases h0 : i.Gphi c = 0
    · exact Or.inr h0
    · left
      have : (i.R c - 1) * i.Gphi c = 0 := by linear_combination -e
      rcases mul_eq_zero.1 this with h' | h'
      · linear_combination h'
      · exact absurd h' h0
  · rintro (e | e) <;> rw [e] <;> ring

/-- **C194 (refutation).** -/
theorem C194_fails : ¬ CovariantAngle ℚ := by
  intro h
  have key : ((curvInputs exCurvGrid none exCurvFile (fun _ _ _ => 0) (fun _ _ _ => 1) (fun _ _ _ => 0)).toOption.map fun i =>
      (i.G_y exDeriv (1, 0, 0), i.R (1, 0, 0) * i.Gphi (1, 0, 0))) = some (1, 2) := by decide +kernel
  cases hc : curvInputs exCurvGrid none exCurvFile (fun _ _ _ => 0) (fun _ _ _ => 1) (fun _ _ _ => 0) with
  | error e => rw [hc] at key; cases key
  | ok i =>
    rw [hc] at key
    injection key with key
    have h1 := congrArg Prod.fst key
    have h2 := congrArg Prod.snd key
    have := h exDeriv exCurvGrid exCurvFile _ _ _ i hc (1, 0, 0) (by decide) (by decide) (by decide)
    rw [show i.G_y exDeriv (1, 0, 0) = 1 from h1, show i.R (1, 0, 0) * i.Gphi (1, 0, 0) = 2 from h2] at this
    norm_num at this

/-! ### C195: the curl has no divergence -/

/-- A rule for derivatives that is linear in the values. -/
def LinearRule (deriv : ℕ → (ℕ → K) → ℕ → K) : Prop := ∃ w : ℕ → ℕ → ℕ → K, ∀ n f i, deriv n f i = ∑ j ∈ range n, w n i j * f j

/-- **C195.** If the spacings along each direction depend on the index in that direction only, and the Jacobian is nowhere zero, the
divergence `(d(J bxcvx)/dx + d(J bxcvy)/dy + d(J bxcvz)/dz) / J` of the curvature written, formed with the same rule, is zero. -/
theorem C195_divergence (deriv : ℕ → (ℕ → K) → ℕ → K) (hl : LinearRule deriv) (i : CurvIn K) (hx hy hz : ℕ → K)
    (h1 : ∀ c, i.dx c = hx c.1) (h2 : ∀ c, i.dy c = hy c.2.1) (h3 : ∀ c, i.dz c = hz c.2.2)
    (hJ : ∀ c : Cell, c.1 < i.nx → c.2.1 < i.ny → c.2.2 < i.nz → i.J deriv c ≠ 0) (c : Cell)
    (c1 : c.1 < i.nx) (c2 : c.2.1 < i.ny) (c3 : c.2.2 < i.nz) :
    derX deriv i.nx (fun c => i.J deriv c * i.bxcvx deriv c) i.dx c + derY deriv i.ny (fun c => i.J deriv c * i.bxcvy deriv c) i.dy c +
      derZ deriv i.nz (fun c => i.J deriv c * i.bxcvz deriv c) i.dz c = 0 := by
  obtain ⟨w, hw⟩ := hl
  obtain ⟨x, y, z⟩ := c
  simp only at c1 c2 c3
  -- the numerators
  have e1 : ∀ j < i.nx, i.J deriv (j, y, z) * i.bxcvx deriv (j, y, z) =
      (∑ k ∈ range i.ny, w i.ny y k * i.G_z deriv (j, k, z)) / hy y - (∑ k ∈ range i.nz, w i.nz z k * i.G_y deriv (j, y, k)) / hz z := by
    intro j hj
    unfold CurvIn.bxcvx derY derZ
    rw [mul_div_cancel₀ _ (hJ (j, y, z) hj c2 c3), hw, hw, h2, h3]
  have e2 : ∀ j < i.ny, i.J deriv (x, j, z) * i.bxcvy deriv (x, j, z) =
      (∑ k ∈ range i.nz, w i.nz z k * i.G_x deriv (x, j, k)) / hz z - (∑ k ∈ range i.nx, w i.nx x k * i.G_z deriv (k, j, z)) / hx x := by
    intro j hj
    unfold CurvIn.bxcvy derX derZ
    rw [mul_div_cancel₀ _ (hJ (x, j, z) c1 hj c3), hw, hw, h1, h3]
  have e3 : ∀ j < i.nz, i.J deriv (x, y, j) * i.bxcvz deriv (x, y, j) =
      (∑ k ∈ range i.nx, w i.nx x k * i.G_y deriv (k, y, j)) / hx x - (∑ k ∈ range i.ny, w i.ny y k * i.G_x deriv (x, k, j)) / hy y := by
    intro j hj
    unfold CurvIn.bxcvz derX derY
    rw [mul_div_cancel₀ _ (hJ (x, y, j) c1 c2 hj), hw, hw, h1, h2]
  unfold derX derY derZ
  simp only
  rw [hw, hw, hw, h1, h2, h3]
  simp only
  have ds : ∀ (A : ℕ) (u F f g : ℕ → K) (p q : K), (∀ j < A, F j = f j / p - g j / q) →
      ∑ j ∈ range A, u j * F j = (∑ j ∈ range A, u j * f j) / p - (∑ j ∈ range A, u j * g j) / q := by
    intro A u F f g p q hF
    rw [Finset.sum_div, Finset.sum_div, ← Finset.sum_sub_distrib]
    refine Finset.sum_congr rfl fun j hj => ?_
    rw [hF j (Finset.mem_range.1 hj)]
    ring
  have comm : ∀ (A B : ℕ) (u v : ℕ → K) (f : ℕ → ℕ → K),
      ∑ p ∈ range A, u p * ∑ q ∈ range B, v q * f p q = ∑ q ∈ range B, v q * ∑ p ∈ range A, u p * f p q := by
    intro A B u v f
    simp only [Finset.mul_sum]
    rw [Finset.sum_comm]
    exact Finset.sum_congr rfl fun q _ => Finset.sum_congr rfl fun p _ => by ring
  rw [ds i.nx (w i.nx x) _ _ _ _ _ e1, ds i.ny (w i.ny y) _ _ _ _ _ e2, ds i.nz (w i.nz z) _ _ _ _ _ e3,
    comm i.nx i.ny (w i.nx x) (w i.ny y) fun p q => i.G_z deriv (p, q, z), comm i.nx i.nz (w i.nx x) (w i.nz z) fun p q => i.G_y deriv (p, y, q),
    comm i.ny i.nz (w i.ny y) (w i.nz z) fun p q => i.G_x deriv (x, p, q)]
  ring

theorem exDeriv_linear : LinearRule exDeriv := by
  refine ⟨fun n _ j => if n < 2 then 0 else if j = 1 then 1 else if j = 0 then -1 else 0, ?_⟩
  intro n f i
  unfold exDeriv
  by_cases h : n < 2
  · simp [h]
  · rw [if_neg h]
    obtain ⟨m, rfl⟩ : ∃ m, n = m + 2 := ⟨n - 2, by omega⟩
    rw [Finset.sum_range_succ', Finset.sum_range_succ', Finset.sum_eq_zero (fun k _ => by simp)]
    simp
    ring

/-- Two points in each direction, on a grid that is not orthogonal. -/
def exCurvIn : CurvIn ℚ :=
  { nx := 2, ny := 2, nz := 2, B := fun c => (c.1 : ℚ) + c.2.1 + 1, dx := fun _ => 2, dz := fun _ => 3, g_11 := fun c => (c.2.1 : ℚ) + 1,
    g_22 := fun _ => 1, g_33 := fun c => (c.2.2 : ℚ) + 1, g_13 := fun _ => 1 / 2, polR := fun c => (c.1 : ℚ) + c.2.2 + 5,
    polZ := fun c => (c.2.2 : ℚ), R := fun c => (c.1 : ℚ) + c.2.2 + 5, dy := fun c => (c.2.1 : ℚ) + 1, Bx := fun x z _ => x * z,
    By := fun x _ p => 1 / x + p, Bz := fun x z _ => x + z }

/-- The components of the curvature are not zero there, and they have no divergence. -/
example : (exCurvIn.bxcvx exDeriv (0, 0, 0), exCurvIn.bxcvy exDeriv (1, 0, 1), exCurvIn.bxcvz exDeriv (0, 1, 0)) ≠ (0, 0, 0) ∧
    derX exDeriv 2 (fun c => exCurvIn.J exDeriv c * exCurvIn.bxcvx exDeriv c) exCurvIn.dx (1, 0, 1) +
      derY exDeriv 2 (fun c => exCurvIn.J exDeriv c * exCurvIn.bxcvy exDeriv c) exCurvIn.dy (1, 0, 1) +
      derZ exDeriv 2 (fun c => exCurvIn.J exDeriv c * exCurvIn.bxcvz exDeriv c) exCurvIn.dz (1, 0, 1) = 0 := by
  refine ⟨by decide +kernel, C195_divergence exDeriv exDeriv_linear exCurvIn (fun _ => 2) (fun y => (y : ℚ) + 1) (fun _ => 3) (fun _ => rfl) (fun _ => rfl)
    (fun _ => rfl) ?_ (1, 0, 1) (by decide) (by decide) (by decide)⟩
  rintro ⟨x, y, z⟩ h1 h2 h3
  change x < 2 at h1
  change z < 2 at h3
  have h2' : ∀ y', exCurvIn.J exDeriv (x, y', z) = exCurvIn.J exDeriv (x, 0, z) := fun _ => rfl
  rw [h2']
  interval_cases x <;> interval_cases z <;> decide +kernel

/-! ### C196: where the angle starts -/

/-- The arrays with the points of every flux surface counted from another one, `k` places on. -/
def CurvIn.turn (i : CurvIn K) (k : ℕ) : CurvIn K :=
  let t : (Cell → K) → Cell → K := fun a c => a (c.1, c.2.1, (c.2.2 + k) % i.nz)
  { i with
    B := t i.B, dx := t i.dx, dz := t i.dz, g_11 := t i.g_11, g_22 := t i.g_22, g_33 := t i.g_33, g_13 := t i.g_13, polR := t i.polR, polZ := t i.polZ,
    R := t i.R, dy := t i.dy }

/-- The claim: `z` goes around, so that what is written for a point does not depend on the point from which `z` is counted. -/
def CurvatureTurns (deriv : ℕ → (ℕ → K) → ℕ → K) : Prop :=
  ∀ (i : CurvIn K) (k : ℕ) (c : Cell), c.1 < i.nx → c.2.1 < i.ny → c.2.2 < i.nz →
    (i.turn k).J deriv c = i.J deriv (c.1, c.2.1, (c.2.2 + k) % i.nz)

/-- A rule that is right for values that grow evenly, as differences of neighbours are. -/
def RightForLines (deriv : ℕ → (ℕ → K) → ℕ → K) : Prop := ∀ n, 2 ≤ n → ∀ (a b : K), ∀ i < n, deriv n (fun j => a + b * (j : K)) i = b

/-- A slab: `R` grows with `x` and `Z` with `z`. -/
def exTurn : CurvIn K :=
  { nx := 2, ny := 1, nz := 3, B := fun _ => 1, dx := fun _ => 1, dz := fun _ => 1, g_11 := fun _ => 1, g_22 := fun _ => 1, g_33 := fun _ => 1,
    g_13 := fun _ => 0, polR := fun c => (c.1 : K) + 1, polZ := fun c => (c.2.2 : K), R := fun c => (c.1 : K) + 1, dy := fun _ => 1, Bx := fun _ _ _ => 0,
    By := fun _ _ _ => 0, Bz := fun _ _ _ => 0 }

/-- **C196 (refutation).** It is not so for any linear rule that is right for values that grow evenly: the rule is applied to the row without regard to
the period. -/
theorem C196_fails (deriv : ℕ → (ℕ → K) → ℕ → K) (hl : LinearRule deriv) (hr : RightForLines deriv) : ¬ CurvatureTurns deriv := by
  intro h
  obtain ⟨w, hw⟩ := hl
  let i : CurvIn K := exTurn
  have hconst : ∀ n, 2 ≤ n → ∀ (a : K), ∀ j < n, deriv n (fun _ => a) j = 0 := by
    intro n hn a j hj
    have := hr n hn a 0 j hj
    simpa using this
  have hx : deriv 2 (fun j => (j : K) + 1) 0 = 1 := by
    have := hr 2 le_rfl 1 1 0 (by norm_num)
    simpa [add_comm] using this
  have hJ : ∀ k, (i.turn k).J deriv (0, 0, 0) = deriv 3 (fun j => (((j + k) % 3 : ℕ) : K)) 0 := by
    intro k
    have e1 : (i.turn k).dRdx deriv (0, 0, 0) = 1 := by
      change deriv 2 (fun j => (j : K) + 1) 0 / 1 = 1
      rw [hx, div_one]
    have e2 : (i.turn k).dRdz deriv (0, 0, 0) = 0 := by
      change deriv 3 (fun _ => ((0 : ℕ) : K) + 1) 0 / 1 = 0
      rw [hconst 3 (by norm_num) _ 0 (by norm_num), zero_div]
    have e3 : (i.turn k).dZdz deriv (0, 0, 0) = deriv 3 (fun j => (((j + k) % 3 : ℕ) : K)) 0 := by
      change deriv 3 (fun j => (((j + k) % 3 : ℕ) : K)) 0 / 1 = _
      rw [div_one]
    have e4 : (i.turn k).R (0, 0, 0) = 1 := by
      change ((0 : ℕ) : K) + 1 = 1
      simp
    unfold CurvIn.J
    rw [e1, e2, e3, e4]
    ring
  have hJ0 : ∀ k, i.J deriv (0, 0, (0 + k) % 3) = 1 := by
    intro k
    have hk : (0 + k) % 3 < 3 := Nat.mod_lt _ (by norm_num)
    have e1 : i.dRdx deriv (0, 0, (0 + k) % 3) = 1 := by
      change deriv 2 (fun j => (j : K) + 1) 0 / 1 = 1
      rw [hx, div_one]
    have e2 : i.dRdz deriv (0, 0, (0 + k) % 3) = 0 := by
      change deriv 3 (fun _ => ((0 : ℕ) : K) + 1) _ / 1 = 0
      rw [hconst 3 (by norm_num) _ _ hk, zero_div]
    have e3 : i.dZdz deriv (0, 0, (0 + k) % 3) = 1 := by
      change deriv 3 (fun j => (j : K)) _ / 1 = _
      have := hr 3 (by norm_num) 0 1 _ hk
      simp only [zero_add, one_mul] at this
      rw [div_one]
      simpa using this
    have e4 : i.R (0, 0, (0 + k) % 3) = 1 := by
      change ((0 : ℕ) : K) + 1 = 1
      simp
    unfold CurvIn.J
    rw [e1, e2, e3, e4]
    ring
  have h3 : ∀ k, deriv 3 (fun j => (((j + k) % 3 : ℕ) : K)) 0 = 1 := by
    intro k
    rw [← hJ k, h i k (0, 0, 0) (by norm_num [i, exTurn]) (by norm_num [i, exTurn]) (by norm_num [i, exTurn])]
    exact hJ0 k
  have hsum := hconst 3 (by norm_num) 3 0 (by norm_num)
  have a0 := h3 0
  have a1 := h3 1
  have a2 := h3 2
  rw [hw] at hsum a0 a1 a2
  simp only [Finset.sum_range_succ, Finset.sum_range_zero] at hsum a0 a1 a2
  norm_num at hsum a0 a1 a2
  have : (3 : K) = 0 := by linear_combination hsum - a0 - a1 - a2
  norm_num at this

/-- **C196 (partial).** Where `Z` and `R` are smooth over the seam as seen by the rule, that is where the rule commutes with the turn for these two
rows and for `dz`, the Jacobian turns.  Missing: the places near the seam (`C196_fails`). -/
theorem C196_partial (deriv : ℕ → (ℕ → K) → ℕ → K) (i : CurvIn K) (k : ℕ) (c : Cell)
    (hR : deriv i.nz (fun j => i.polR (c.1, c.2.1, (j + k) % i.nz)) c.2.2 = deriv i.nz (fun j => i.polR (c.1, c.2.1, j)) ((c.2.2 + k) % i.nz))
    (hZ : deriv i.nz (fun j => i.polZ (c.1, c.2.1, (j + k) % i.nz)) c.2.2 = deriv i.nz (fun j => i.polZ (c.1, c.2.1, j)) ((c.2.2 + k) % i.nz)) :
    (i.turn k).J deriv c = i.J deriv (c.1, c.2.1, (c.2.2 + k) % i.nz) := by
  have e1 : (i.turn k).dRdz deriv c = i.dRdz deriv (c.1, c.2.1, (c.2.2 + k) % i.nz) := by
    change deriv i.nz (fun j => i.polR (c.1, c.2.1, (j + k) % i.nz)) c.2.2 / _ = _
    rw [hR]
    rfl
  have e2 : (i.turn k).dZdz deriv c = i.dZdz deriv (c.1, c.2.1, (c.2.2 + k) % i.nz) := by
    change deriv i.nz (fun j => i.polZ (c.1, c.2.1, (j + k) % i.nz)) c.2.2 / _ = _
    rw [hZ]
    rfl
  unfold CurvIn.J
  rw [e1, e2]
  rfl

/-- Differences of neighbours, one-sided at the ends. -/
def sideDeriv : ℕ → (ℕ → K) → ℕ → K := fun n f i =>
  if n < 2 then 0 else if i = 0 then f 1 - f 0 else if i = n - 1 then f (n - 1) - f (n - 2) else (f (i + 1) - f (i - 1)) / 2

/-- Such a rule is linear and right for values that grow evenly. -/
example : LinearRule (K := ℚ) exDeriv ∧ RightForLines (K := ℚ) exDeriv ∧ RightForLines (K := ℚ) sideDeriv := by
  refine ⟨exDeriv_linear, ?_, ?_⟩
  · intro n hn a b i _
    unfold exDeriv
    rw [if_neg (by omega)]
    push_cast
    ring
  · intro n hn a b i hi
    unfold sideDeriv
    rw [if_neg (by omega)]
    obtain ⟨m, rfl⟩ : ∃ m, n = m + 2 := ⟨n - 2, by omega⟩
    split_ifs with h1 h2
    · push_cast; ring
    · simp only [Nat.add_sub_cancel, show m + 2 - 1 = m + 1 from rfl]
      push_cast; ring
    · obtain ⟨j, rfl⟩ : ∃ j, i = j + 1 := ⟨i - 1, by omega⟩
      simp only [Nat.add_sub_cancel]
      push_cast; ring

end
end Zoidberg
