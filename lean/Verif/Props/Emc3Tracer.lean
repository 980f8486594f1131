import Verif.Model.Emc3Tracer
import Mathlib.Algebra.Order.Archimedean.Basic
import Mathlib.Tactic.LinearCombination
import Mathlib.Tactic.Linarith
import Mathlib.Tactic.FieldSimp
import Mathlib.Tactic.IntervalCases

/-!
# C75, C76, C134: `EMC3FieldTracer`
-/

set_option linter.unusedSectionVars false

namespace Zoidberg

variable {K : Type} [Field K] [LinearOrder K] [IsStrictOrderedRing K]

/-! ### The angle -/

theorem raisePhi_spec {pmin d : K} (hd : 0 < d) : ∀ (fuel : ℕ) (phi : K) (per : ℤ), pmin ≤ phi + (fuel : K) * d →
    ∃ phi' per', raisePhi pmin d (fuel + 1) phi per = .ok (phi', per') ∧ pmin ≤ phi' ∧ phi' - (per' : K) * d = phi - (per : K) * d ∧
      (phi' = phi ∨ phi' < pmin + d)
  | 0, phi, per, h => by
    refine ⟨phi, per, ?_, by simpa using h, rfl, Or.inl rfl⟩
    rw [raisePhi, if_neg (by simpa using h)]
  | fuel + 1, phi, per, h => by
    rw [raisePhi]
    split_ifs with hlt
    · obtain ⟨phi', per', h1, h2, h3, h4⟩ := raisePhi_spec (pmin := pmin) hd fuel (phi + d) (per + 1) (by push_cast at h; linarith)
      refine ⟨phi', per', h1, h2, ?_, ?_⟩
      · rw [h3]; push_cast; ring
      · right
        rcases h4 with h4 | h4
        · rw [h4]; linarith
        · exact h4
    · exact ⟨phi, per, rfl, not_lt.1 hlt, rfl, Or.inl rfl⟩

theorem lowerPhi_spec {pmax d : K} (hd : 0 < d) : ∀ (fuel : ℕ) (phi : K) (per : ℤ), phi - (fuel : K) * d ≤ pmax →
    ∃ phi' per', lowerPhi pmax d (fuel + 1) phi per = .ok (phi', per') ∧ phi' ≤ pmax ∧ phi' - (per' : K) * d = phi - (per : K) * d ∧
      (phi' = phi ∨ pmax - d < phi')
  | 0, phi, per, h => by
    refine ⟨phi, per, ?_, by simpa using h, rfl, Or.inl rfl⟩
    rw [lowerPhi, if_neg (by simpa using h)]
  | fuel + 1, phi, per, h => by
    rw [lowerPhi]
    split_ifs with hlt
    · obtain ⟨phi', per', h1, h2, h3, h4⟩ := lowerPhi_spec (pmax := pmax) hd fuel (phi - d) (per - 1) (by push_cast at h; linarith)
      refine ⟨phi', per', h1, h2, ?_, ?_⟩
      · rw [h3]; push_cast; ring
      · right
        rcases h4 with h4 | h4
        · rw [h4]; linarith
        · exact h4
    · exact ⟨phi, per, rfl, not_lt.1 hlt, rfl, Or.inl rfl⟩

/-- **C75.** For every angle both loops end, and give an angle in `[pmin, pmax]` that differs from the given one by `perBC` periods. -/
theorem C75_reduce [Archimedean K] (pmin pmax : K) (h : pmin < pmax) (phi : K) : ∃ N : ℕ, ∀ fuel ≥ N, ∃ (phi' : K) (per : ℤ),
    meshAngle pmin pmax fuel phi = .ok (phi', per) ∧ pmin ≤ phi' ∧ phi' ≤ pmax ∧ phi' = phi + (per : K) * (pmax - pmin) := by
  have hd : 0 < pmax - pmin := sub_pos.2 h
  obtain ⟨n, hn⟩ := exists_nat_ge ((pmin - phi) / (pmax - pmin))
  obtain ⟨m, hm⟩ := exists_nat_ge ((phi - pmax) / (pmax - pmin))
  rw [div_le_iff₀ hd] at hn hm
  refine ⟨n + m + 1, ?_⟩
  intro fuel hf
  obtain ⟨f, rfl⟩ : ∃ f, fuel = f + 1 := ⟨fuel - 1, by omega⟩
  have hfn : (n : K) ≤ (f : K) := by exact_mod_cast (by omega : n ≤ f)
  have hfm : (m : K) ≤ (f : K) := by exact_mod_cast (by omega : m ≤ f)
  have hn' := mul_le_mul_of_nonneg_right hfn hd.le
  have hm' := mul_le_mul_of_nonneg_right hfm hd.le
  unfold meshAngle
  by_cases hc : ¬ (pmin < phi ∧ phi < pmax)
  · rw [if_pos hc]
    obtain ⟨p1, k1, h1, h2, h3, h4⟩ := raisePhi_spec (pmin := pmin) hd f phi 0 (by linarith)
    rw [h1]
    simp only [Except.bind]
    obtain ⟨p2, k2, g1, g2, g3, g4⟩ := lowerPhi_spec (pmax := pmax) hd f p1 k1 (by
      rcases h4 with h4 | h4
      · rw [h4]; linarith
      · have : 0 ≤ (f : K) * (pmax - pmin) := by positivity
        linarith)
    refine ⟨p2, k2, g1, ?_, g2, ?_⟩
    · rcases g4 with g4 | g4
      · rw [g4]; exact h2
      · linarith
    · push_cast at h3
      linear_combination g3 + h3
  · rw [if_neg hc]
    rw [not_not] at hc
    refine ⟨phi, 0, rfl, hc.1.le, hc.2.le, by simp⟩

/-- Angles in the period are kept. -/
theorem C75_inside (pmin pmax phi : K) (h1 : pmin ≤ phi) (h2 : phi ≤ pmax) (fuel : ℕ) : meshAngle pmin pmax (fuel + 1) phi = .ok (phi, 0) := by
  unfold meshAngle
  by_cases hc : ¬ (pmin < phi ∧ phi < pmax)
  · rw [if_pos hc, raisePhi, if_neg (not_lt.2 h1)]
    simp only [Except.bind]
    rw [lowerPhi, if_neg (not_lt.2 h2)]
  · rw [if_neg hc]

/-- Two and a half periods away. -/
example : (meshAngle (1 : ℚ) 3 10 (13 / 2)).toOption = some (5 / 2, -2) ∧ (meshAngle (1 : ℚ) 3 10 (-3)).toOption = some (1, 2) := by decide +kernel

/-! ### The coordinates in a cell -/

/-- **C76.** The map from the unit square to the cell is bilinear, with the four corners of the cell at the corners of the square. -/
theorem C76_bilinear (m : PMesh K) (i j : ℕ) (hi : i + 1 < m.nr) (hj : j + 1 < m.nz) (al be : K) :
    abToRz m (al, be) (i * (m.nz - 1) + j) =
      .ok ((1 - al) * (1 - be) * (m.node i j).1 + al * (1 - be) * (m.node i (j + 1)).1 + (1 - al) * be * (m.node (i + 1) j).1 +
          al * be * (m.node (i + 1) (j + 1)).1,
        (1 - al) * (1 - be) * (m.node i j).2 + al * (1 - be) * (m.node i (j + 1)).2 + (1 - al) * be * (m.node (i + 1) j).2 +
          al * be * (m.node (i + 1) (j + 1)).2) := by
  have hn : 0 < m.nz - 1 := by omega
  have e1 : (i * (m.nz - 1) + j) / (m.nz - 1) = i := by
    rw [Nat.mul_comm, Nat.mul_add_div hn, Nat.div_eq_of_lt (by omega)]; simp
  have e2 : (i * (m.nz - 1) + j) % (m.nz - 1) = j := by
    rw [Nat.mul_comm, Nat.mul_add_mod, Nat.mod_eq_of_lt (by omega)]
  unfold abToRz
  dsimp only
  rw [e1, e2, if_neg (by push Not; omega)]
  unfold Bilinear.at PMesh.cell
  dsimp only
  congr 2 <;> ring

/-- **C76.** The four corners. -/
theorem C76_corners (m : PMesh K) (i j : ℕ) (hi : i + 1 < m.nr) (hj : j + 1 < m.nz) :
    abToRz m (0, 0) (i * (m.nz - 1) + j) = .ok (m.node i j) ∧ abToRz m (1, 0) (i * (m.nz - 1) + j) = .ok (m.node i (j + 1)) ∧
      abToRz m (0, 1) (i * (m.nz - 1) + j) = .ok (m.node (i + 1) j) ∧ abToRz m (1, 1) (i * (m.nz - 1) + j) = .ok (m.node (i + 1) (j + 1)) := by
  simp [C76_bilinear m i j hi hj]

theorem res_eq (q : Bilinear K) (rz ab : K × K) : q.res rz ab = (rz.1 - (q.at ab).1, rz.2 - (q.at ab).2) := by
  unfold Bilinear.res Bilinear.at
  ext <;> dsimp only <;> ring

/-- **C76.** The coordinates are mapped back to the given point exactly if the residual is zero. -/
theorem C76_residual (q : Bilinear K) (rz ab : K × K) : q.res rz ab = (0, 0) ↔ q.at ab = rz := by
  rw [res_eq, Prod.mk.injEq, sub_eq_zero, sub_eq_zero]
  constructor
  · rintro ⟨h1, h2⟩; ext <;> simp [h1, h2]
  · rintro rfl; simp

theorem solve_some (q : Bilinear K) (tol : K) (rz : K × K) : ∀ (n : ℕ) (ab r : K × K), q.solve tol rz n ab = .ok (some r) →
    (q.res rz r).1 ^ 2 + (q.res rz r).2 ^ 2 < tol
  | 0, _, _, h => by simp [Bilinear.solve] at h
  | n + 1, ab, r, h => by
    rw [Bilinear.solve] at h
    cases hn : q.newton rz ab with
    | error e => rw [hn] at h; cases h
    | ok ab' =>
      rw [hn] at h
      simp only [Except.bind] at h
      split_ifs at h with hc
      · injection h with h
        injection h with h
        subst h
        exact hc
      · exact solve_some q tol rz n ab' r h

/-- **C76.** What `_rz_to_ab` returns is mapped back to within `1e-13` (squared), unless the iteration comes to its end; then it is the result of the
least squares. -/
theorem C76_roundtrip (lsq : Bilinear K → K × K → K × K) (m : PMesh K) (rz : K × K) (ij : ℕ) (ab : K × K) (h : rzToAbCell lsq m rz ij = .ok ab) :
    (∃ rz', abToRz m ab ij = .ok rz' ∧ (rz.1 - rz'.1) ^ 2 + (rz.2 - rz'.2) ^ 2 < 1 / 10 ^ 13) ∨
      ((m.cell (ij / (m.nz - 1)) (ij % (m.nz - 1))).solve (1 / 10 ^ 13) rz 100 (1 / 2, 1 / 2) = .ok none ∧
        ab = lsq (m.cell (ij / (m.nz - 1)) (ij % (m.nz - 1))) rz) := by
  unfold rzToAbCell at h
  dsimp only at h
  split_ifs at h with h0
  cases hs : (m.cell (ij / (m.nz - 1)) (ij % (m.nz - 1))).solve (1 / 10 ^ 13) rz 100 (1 / 2, 1 / 2) with
  | error e => rw [hs] at h; cases h
  | ok o =>
    rw [hs] at h
    simp only [Except.map] at h
    injection h with h
    cases o with
    | none => right; exact ⟨rfl, h.symm⟩
    | some r =>
      left
      simp only [Option.getD_some] at h
      subst h
      have := solve_some _ _ _ _ _ _ hs
      rw [res_eq] at this
      refine ⟨_, ?_, this⟩
      unfold abToRz
      dsimp only
      rw [if_neg h0]

/-- **C76.** In a cell that is a parallelogram with an area, one step of the iteration gives the exact coordinates. -/
theorem C76_parallelogram (lsq : Bilinear K → K × K → K × K) (m : PMesh K) (rz : K × K) (i j : ℕ) (hi : i + 1 < m.nr) (hj : j + 1 < m.nz)
    (hc : (m.cell i j).c = (0, 0)) (hd : (m.cell i j).a.1 * (m.cell i j).b.2 - (m.cell i j).b.1 * (m.cell i j).a.2 ≠ 0) :
    ∃ ab, rzToAbCell lsq m rz (i * (m.nz - 1) + j) = .ok ab ∧ abToRz m ab (i * (m.nz - 1) + j) = .ok rz := by
  have hn : 0 < m.nz - 1 := by omega
  have e1 : (i * (m.nz - 1) + j) / (m.nz - 1) = i := by
    rw [Nat.mul_comm, Nat.mul_add_div hn, Nat.div_eq_of_lt (by omega)]; simp
  have e2 : (i * (m.nz - 1) + j) % (m.nz - 1) = j := by
    rw [Nat.mul_comm, Nat.mul_add_mod, Nat.mod_eq_of_lt (by omega)]
  unfold rzToAbCell abToRz
  dsimp only
  have h0 : ¬ (m.nz - 1 = 0 ∨ m.nr ≤ i + 1) := by push Not; omega
  simp only [e1, e2, if_neg h0]
  generalize m.cell i j = q at *
  obtain ⟨A, a, b, c⟩ := q
  dsimp only at hc hd
  subst hc
  rw [show (100 : ℕ) = 99 + 1 from rfl, Bilinear.solve]
  have hD : (-a.1 - 0 * (1 / 2)) * (-b.2 - 0 * (1 / 2)) - (-b.1 - 0 * (1 / 2)) * (-a.2 - 0 * (1 / 2)) ≠ 0 := by
    intro h0; apply hd; linear_combination h0
  unfold Bilinear.newton
  dsimp only
  rw [if_neg hD]
  simp only [Except.bind]
  generalize hD' : (-a.1 - 0 * (1 / 2)) * (-b.2 - 0 * (1 / 2)) - (-b.1 - 0 * (1 / 2)) * (-a.2 - 0 * (1 / 2)) = D at *
  have hz : Bilinear.res ⟨A, a, b, ((0, 0) : K × K)⟩ rz
      (1 / 2 - ((-b.2 - 0 * (1 / 2)) / D * (Bilinear.res ⟨A, a, b, ((0, 0) : K × K)⟩ rz (1 / 2, 1 / 2)).1 +
          -(-b.1 - 0 * (1 / 2)) / D * (Bilinear.res ⟨A, a, b, ((0, 0) : K × K)⟩ rz (1 / 2, 1 / 2)).2),
        1 / 2 - (-(-a.2 - 0 * (1 / 2)) / D * (Bilinear.res ⟨A, a, b, ((0, 0) : K × K)⟩ rz (1 / 2, 1 / 2)).1 +
          (-a.1 - 0 * (1 / 2)) / D * (Bilinear.res ⟨A, a, b, ((0, 0) : K × K)⟩ rz (1 / 2, 1 / 2)).2)) = (0, 0) := by
    unfold Bilinear.res
    dsimp only
    ext
    · dsimp only
      field_simp
      rw [← hD']
      ring
    · dsimp only
      field_simp
      rw [← hD']
      ring
  rw [hz, if_pos (by norm_num)]
  refine ⟨_, rfl, ?_⟩
  exact congrArg Except.ok ((C76_residual _ _ _).1 hz)

/-- A skewed cell. -/
example : let m : PMesh ℚ := ⟨2, 2, fun i j => ((i : ℚ) + j / 2, (j : ℚ)), 0⟩
    (m.cell 0 0).c = (0, 0) ∧ (m.cell 0 0).a.1 * (m.cell 0 0).b.2 - (m.cell 0 0).b.1 * (m.cell 0 0).a.2 ≠ 0 := by
  norm_num [PMesh.cell]

/-- A cell touches the node `(r, s)`. -/
def Touches (m : PMesh K) (cell r s : ℕ) : Prop :=
  (cell / (m.nz - 1) = r ∨ cell / (m.nz - 1) + 1 = r) ∧ (cell % (m.nz - 1) = s ∨ cell % (m.nz - 1) + 1 = s) ∧ cell / (m.nz - 1) + 1 < m.nr

/-- What the statement says of the fallback. -/
def FallbackTouches (K : Type) : Prop :=
  ∀ (m : PMesh K) (r s : ℕ), r < m.nr → s < m.nz → 2 ≤ m.nr → 2 ≤ m.nz → Touches m (nodeCell m (r * m.nz + s)) r s

/-- **C76 (partial).** The cell of the fallback touches the nearest node if it is in the first row, but not the last of it.  Missing: all other nodes (`C76_fails`, `C76_fails_range`). -/
theorem C76_fallback_partial (m : PMesh K) (s : ℕ) (hs : s + 1 < m.nz) (h1 : 2 ≤ m.nr) : Touches m (nodeCell m (0 * m.nz + s)) 0 s := by
  have e : nodeCell m (0 * m.nz + s) = s := by
    unfold nodeCell
    rw [if_neg]
    · simp
    · rw [Nat.zero_mul, Nat.zero_add, not_le]
      have : 1 * m.nz ≤ (m.nr - 1) * m.nz := Nat.mul_le_mul_right _ (by omega)
      omega
  unfold Touches
  rw [e, Nat.div_eq_of_lt (by omega), Nat.mod_eq_of_lt (by omega)]
  omega

/-- **C76 (refutation).** The number of the node is used as that of the cell; the last node of the first row gives the first cell of the second row. -/
theorem C76_fails : ¬ FallbackTouches ℚ := by
  intro h
  have := h ⟨3, 3, fun i j => ((i : ℚ), (j : ℚ)), 0⟩ 0 2 (by norm_num) (by norm_num) (by norm_num) (by norm_num)
  unfold Touches nodeCell at this
  norm_num at this

/-- **C76 (refutation).** A point near the middle of a mesh with three times three nodes that is in no cell according to `find_cell` raises an `AssertionError`. -/
theorem C76_fails_range : (rzToAb (K := ℚ) (fun _ _ _ => -1) (fun _ _ => (0, 0)) (1, 1) [⟨3, 3, fun i j => ((i : ℚ), (j : ℚ)), 0⟩] (-1) 0).toBool = false ∧
    (nearNode (K := ℚ) (1, 1) ((1 / 1000) ^ 2) [⟨3, 3, fun i j => ((i : ℚ), (j : ℚ)), 0⟩]).map Prod.snd = some 4 := by
  decide +kernel

/-! ### Lines across the end of the period -/

/-- The place of a line after `n` passes over the end of the period: from the position on the last plane to the place on the first. -/
def Passed (locate : K × K → List (PMesh K) → ℤ → ℕ → Except Err (Spot K)) (src dst : List (PMesh K)) : ℕ → Spot K → Spot K → Prop
  | 0, s, t => s = t
  | n + 1, s, t => ∃ u rz h k, Passed locate src dst n s u ∧ spotToRz src u = .ok rz ∧ locate rz dst h k = .ok t

/-- What the statement says: on a plane of the same period the position has the coordinates of the start, and on a plane that is `n` periods further
(`perBC` is smaller by `n`) those of the place after `n` passes. -/
def Continues (K : Type) [Field K] [LinearOrder K] : Prop :=
  ∀ (locate : K × K → List (PMesh K) → ℤ → ℕ → Except Err (Spot K)) (firstlast : List (PMesh K) × List (PMesh K)) (p0 p : Plane K)
    (rz out : K × K) (s : Spot K), emc3Line locate firstlast p0 [p] rz (-1) 0 = .ok ([rz, out], s) → ∀ n : ℕ, p.perBC s.2.2 = p0.perBC s.2.2 - n →
    ∃ t, Passed locate firstlast.2 firstlast.1 n s t ∧ spotToRz p.meshes t = .ok out

/-- The places do not depend on the hints. -/
def NoHints (locate : K × K → List (PMesh K) → ℤ → ℕ → Except Err (Spot K)) : Prop :=
  ∀ rz ms h k h' k', locate rz ms h k = locate rz ms h' k'

theorem emc3Planes_eq {locate : K × K → List (PMesh K) → ℤ → ℕ → Except Err (Spot K)} (hl : NoHints locate)
    (firstlast : List (PMesh K) × List (PMesh K)) (p0 : Plane K) (rz : K × K) (s : Spot K) (h0 : locate rz p0.meshes s.2.1 s.2.2 = .ok s) :
    ∀ (ps : List (Plane K)) (cur : Spot K) (cache : List (ℤ × Spot K)) (out : List (K × K)), (∀ c ∈ cache, c.2 = s) →
      emc3Planes locate firstlast p0 rz s ps cur cache = .ok out → List.Forall₂ (fun p o => spotToRz p.meshes s = .ok o) ps out
  | [], _, _, out, _, h => by
    rw [emc3Planes] at h
    injection h with h
    subst h
    exact List.Forall₂.nil
  | p :: ps, cur, cache, out, hc, h => by
    rw [emc3Planes] at h
    dsimp only at h
    generalize p.perBC s.2.2 - p0.perBC s.2.2 = per at h
    have key : ∀ cache' : List (ℤ × Spot K), (∀ c ∈ cache', c.2 = s) →
        ((spotToRz p.meshes s).bind fun o => (emc3Planes locate firstlast p0 rz s ps s cache').map (o :: ·)) = .ok out →
        List.Forall₂ (fun p o => spotToRz p.meshes s = .ok o) (p :: ps) out := by
      intro cache' hc' h
      cases ho : spotToRz p.meshes s with
      | error e => rw [ho] at h; cases h
      | ok o =>
        rw [ho] at h
        simp only [Except.bind] at h
        cases hp : emc3Planes locate firstlast p0 rz s ps s cache' with
        | error e => rw [hp] at h; cases h
        | ok l =>
          rw [hp] at h
          simp only [Except.map] at h
          injection h with h
          subst h
          exact List.Forall₂.cons ho (emc3Planes_eq hl firstlast p0 rz s h0 ps s cache' l hc' hp)
    cases hk : cache.lookup per with
    | some t =>
      rw [hk] at h
      have ht : t = s := by
        have hm : ∀ l : List (ℤ × Spot K), l.lookup per = some t → (per, t) ∈ l := by
          intro l
          induction l with
          | nil => intro h; cases h
          | cons a l ih =>
            intro h
            obtain ⟨k, v⟩ := a
            rw [List.lookup_cons] at h
            by_cases hb : per == k
            · rw [hb] at h
              simp only [Option.some.injEq] at h
              have : per = k := by simpa using hb
              subst this; subst h
              simp
            · have hb' : (per == k) = false := by simpa using hb
              rw [hb'] at h
              exact List.mem_cons_of_mem _ (ih h)
        exact hc _ (hm _ hk)
      subst ht
      exact key cache hc h
    | none =>
      rw [hk] at h
      simp only at h
      generalize crossPeriods locate _ _ _ _ = cp at h
      cases cp with
      | error e => cases h
      | ok u =>
        simp only [Except.bind, h0, Except.map] at h
        exact key ((per, s) :: cache) (by
          intro c hcm
          rw [List.mem_cons] at hcm
          rcases hcm with rfl | hcm
          · rfl
          · exact hc c hcm) h

/-- **C134.** What the code does: on every plane, in whatever period, the position has the coordinates and the cell of the start (if the place does not depend on the hint). -/
theorem C134_start (locate : K × K → List (PMesh K) → ℤ → ℕ → Except Err (Spot K)) (hl : NoHints locate)
    (firstlast : List (PMesh K) × List (PMesh K)) (p0 : Plane K) (ps : List (Plane K)) (rz : K × K) (ij : ℤ) (zid : ℕ) (out : List (K × K)) (s : Spot K)
    (h : emc3Line locate firstlast p0 ps rz ij zid = .ok (out, s)) :
    locate rz p0.meshes ij zid = .ok s ∧ ∃ l, out = rz :: l ∧ List.Forall₂ (fun p o => spotToRz p.meshes s = .ok o) ps l := by
  unfold emc3Line at h
  cases hs : locate rz p0.meshes ij zid with
  | error e => rw [hs] at h; cases h
  | ok s' =>
    rw [hs] at h
    simp only [Except.bind] at h
    cases hp : emc3Planes locate firstlast p0 rz s' ps s' [(0, s')] with
    | error e => rw [hp] at h; cases h
    | ok l =>
      rw [hp] at h
      simp only [Except.map] at h
      injection h with h
      injection h with h1 h2
      subst h1; subst h2
      refine ⟨rfl, l, rfl, emc3Planes_eq hl firstlast p0 rz s' (by rw [← hs]; exact hl _ _ _ _ _ _) ps s' _ l (by simp) hp⟩

/-- **C134 (partial).** On planes of the same period the position has the coordinates of the start.  Missing: planes of other periods (`C134_fails`). -/
theorem C134_period_partial (locate : K × K → List (PMesh K) → ℤ → ℕ → Except Err (Spot K)) (firstlast : List (PMesh K) × List (PMesh K)) (p0 p : Plane K)
    (rz out : K × K) (s : Spot K) (h : emc3Line locate firstlast p0 [p] rz (-1) 0 = .ok ([rz, out], s)) (hn : p.perBC s.2.2 = p0.perBC s.2.2) :
    spotToRz p.meshes s = .ok out := by
  unfold emc3Line at h
  cases hs : locate rz p0.meshes (-1) 0 with
  | error e => rw [hs] at h; cases h
  | ok s' =>
    rw [hs] at h
    simp only [Except.bind] at h
    cases hp : emc3Planes locate firstlast p0 rz s' [p] s' [(0, s')] with
    | error e => rw [hp] at h; cases h
    | ok l =>
      rw [hp] at h
      simp only [Except.map] at h
      injection h with h
      injection h with h1 h2
      subst h2
      injection h1 with _ h1
      subst h1
      rw [emc3Planes] at hp
      dsimp only at hp
      rw [hn, sub_self] at hp
      simp only [List.lookup_cons_self, Except.bind] at hp
      cases ho : spotToRz p.meshes s' with
      | error e => rw [ho] at hp; cases hp
      | ok o =>
        rw [ho] at hp
        simp only [emc3Planes, Except.map] at hp
        injection hp with hp
        injection hp with hp
        rw [hp]

/-- One cell, shifted by `d`. -/
def shifted (d : ℚ) : PMesh ℚ := ⟨2, 2, fun i j => ((j : ℚ) + d, (i : ℚ)), 0⟩

/-- The place in that cell. -/
def inCell (rz : ℚ × ℚ) (ms : List (PMesh ℚ)) (_ : ℤ) (_ : ℕ) : Except Err (Spot ℚ) :=
  .ok ((rz.1 - ((ms.getD 0 (shifted 0)).node 0 0).1, rz.2), 0, 0)

/-- **C134 (refutation).** A line that moves by one half in each period is at its start again in the next period. -/
theorem C134_fails : ¬ Continues ℚ := by
  intro h
  have h1 : (emc3Line inCell ([shifted 0], [shifted (1 / 2)]) ⟨[shifted 0], fun _ => 0⟩ [⟨[shifted 0], fun _ => -1⟩] (1 / 4, 1 / 4) (-1) 0).toOption =
      some ([(1 / 4, 1 / 4), (1 / 4, 1 / 4)], ((1 / 4, 1 / 4), 0, 0)) := by decide +kernel
  cases hr : emc3Line inCell ([shifted 0], [shifted (1 / 2)]) ⟨[shifted 0], fun _ => 0⟩ [⟨[shifted 0], fun _ => -1⟩] (1 / 4, 1 / 4) (-1) 0 with
  | error e => rw [hr] at h1; cases h1
  | ok r =>
    rw [hr] at h1
    simp only [Except.toOption, Option.some.injEq] at h1
    subst h1
    obtain ⟨t, ⟨u, rz, a, b, h2, h3, h4⟩, h5⟩ := h _ _ _ _ _ _ _ hr 1 (by norm_num)
    have h2 : ((1 / 4, 1 / 4), 0, 0) = u := h2
    subst h2
    have e1 : (spotToRz [shifted (1 / 2)] ((1 / 4, 1 / 4), 0, 0)).toOption = some (3 / 4, 1 / 4) := by decide +kernel
    rw [h3] at e1
    simp only [Except.toOption, Option.some.injEq] at e1
    subst e1
    unfold inCell at h4
    injection h4 with h4
    subst h4
    have e2 : (spotToRz [shifted 0] ((3 / 4 - (([shifted 0].getD 0 (shifted 0)).node 0 0).1, 1 / 4), 0, 0)).toOption = some (3 / 4, 1 / 4) := by
      decide +kernel
    have h5' := congrArg Except.toOption h5
    rw [e2] at h5'
    simp only [Except.toOption, Option.some.injEq, Prod.mk.injEq] at h5'
    norm_num at h5'

end Zoidberg
