import Verif.Props.EllAlign

/-!
# C236: `grid_elliptic` and `grid_annulus` for lines that are moved, turned or scaled
-/

set_option linter.unusedSectionVars false
set_option linter.unusedSimpArgs false

namespace Zoidberg

variable {K : Type} [Field K] [LinearOrder K] [IsStrictOrderedRing K] [FloorRing K]

/-- A similarity of the poloidal plane: a turn and a scaling by `(a, b)`, a mirror image before it if `m` is
-1, and a shift by `(r, z)`. -/
structure Similarity (K : Type) where
  a : K
  b : K
  m : K
  r : K
  z : K

/-- What it does to a point. -/
def Similarity.ap (M : Similarity K) (p : K × K) : K × K :=
  (M.a * p.1 - M.m * M.b * p.2 + M.r, M.b * p.1 + M.m * M.a * p.2 + M.z)

/-- The square of the factor by which lengths grow. -/
def Similarity.scale2 (M : Similarity K) : K := M.a ^ 2 + M.b ^ 2

/-- It is one: no length becomes zero, and `m` is 1 or -1. -/
def Similarity.Ok (M : Similarity K) : Prop := 0 < M.scale2 ∧ M.m ^ 2 = 1

/-- All squared distances grow by the same factor. -/
theorem Similarity.dist2 {M : Similarity K} (h : M.m ^ 2 = 1) (p q : K × K) :
    Zoidberg.dist2 (M.ap p) (M.ap q) = M.scale2 * Zoidberg.dist2 p q := by
  unfold Zoidberg.dist2 Similarity.ap Similarity.scale2
  linear_combination (M.a ^ 2 + M.b ^ 2) * (p.2 - q.2) ^ 2 * h

/-- The second grid is the image of the first. -/
def MovedGrid (M : Similarity K) (nx nz : ℕ) (g g' : Arr2 K × Arr2 K) : Prop :=
  ∀ i < nx, ∀ j < nz, (g'.1 i j, g'.2 i j) = M.ap (g.1 i j, g.2 i j)

theorem MovedGrid.fst {M : Similarity K} {nx nz : ℕ} {g g' : Arr2 K × Arr2 K} (h : MovedGrid M nx nz g g') {i j : ℕ}
    (hi : i < nx) (hj : j < nz) : g'.1 i j = M.a * g.1 i j - M.m * M.b * g.2 i j + M.r := by
  have := congrArg Prod.fst (h i hi j hj)
  simpa only [Similarity.ap] using this

theorem MovedGrid.snd {M : Similarity K} {nx nz : ℕ} {g g' : Arr2 K × Arr2 K} (h : MovedGrid M nx nz g g') {i j : ℕ}
    (hi : i < nx) (hj : j < nz) : g'.2 i j = M.b * g.1 i j + M.m * M.a * g.2 i j + M.z := by
  have := congrArg Prod.snd (h i hi j hj)
  simpa only [Similarity.ap] using this

/-! ## The sweeps -/

/-- A combination of two stencils and a constant. -/
def Stencil.comb (a b c : K) (r z : Stencil K) : Stencil K :=
  ⟨a * r.dx + b * z.dx, a * r.dz + b * z.dz, a * r.sx + b * z.sx + 2 * c, a * r.sz + b * z.sz + 2 * c,
    a * r.cross + b * z.cross⟩

theorem stencil_comb {nx nz : ℕ} {R Z A : Arr2 K} {a b c : K}
    (h : ∀ i < nx, ∀ j < nz, A i j = a * R i j + b * Z i j + c) {i j : ℕ} (hi : i + 1 < nx) (hj : j < nz) :
    Stencil.at nz A i j = Stencil.comb a b c (Stencil.at nz R i j) (Stencil.at nz Z i j) := by
  have hm : (j + nz - 1) % nz < nz := Nat.mod_lt _ (by omega)
  have hp : (j + 1) % nz < nz := Nat.mod_lt _ (by omega)
  unfold Stencil.at Stencil.comb
  simp only [Stencil.mk.injEq]
  rw [h (i + 1) hi j hj, h (i - 1) (by omega) j hj, h i (by omega) _ hp, h i (by omega) _ hm, h (i + 1) hi _ hp,
    h (i - 1) (by omega) _ hp, h (i + 1) hi _ hm, h (i - 1) (by omega) _ hm]
  refine ⟨by ring, by ring, by ring, by ring, by ring⟩

theorem coeffs_comb {M : Similarity K} (hm : M.m ^ 2 = 1) (lam dx dz : K) (r z : Stencil K) :
    ellCoeffs lam dx dz (Stencil.comb M.a (-(M.m * M.b)) M.r r z) (Stencil.comb M.b (M.m * M.a) M.z r z) =
      (M.scale2 * (ellCoeffs lam dx dz r z).1, M.scale2 * (ellCoeffs lam dx dz r z).2.1,
        M.scale2 * (ellCoeffs lam dx dz r z).2.2) := by
  unfold ellCoeffs Stencil.comb Similarity.scale2
  simp only [Prod.mk.injEq]
  have d1 : ∀ u v w y : K, lam * (u * v + w * y) / (2 * dz) = u * (lam * v / (2 * dz)) + w * (lam * y / (2 * dz)) :=
    fun u v w y => by ring
  have d2 : ∀ u v w y : K, (u * v + w * y) / (2 * dx) = u * (v / (2 * dx)) + w * (y / (2 * dx)) := fun u v w y => by ring
  simp only [d1, d2]
  generalize lam * r.dz / (2 * dz) = A
  generalize lam * z.dz / (2 * dz) = B
  generalize r.dx / (2 * dx) = C
  generalize z.dx / (2 * dx) = D
  refine ⟨?_, ?_, ?_⟩
  · linear_combination (M.a ^ 2 + M.b ^ 2) * B ^ 2 * hm
  · linear_combination (M.a ^ 2 + M.b ^ 2) * B * D * hm
  · linear_combination (M.a ^ 2 + M.b ^ 2) * D ^ 2 * hm

theorem diag_scale (s dx dz : K) (co : K × K × K) :
    ellDiag dx dz (s * co.1, s * co.2.1, s * co.2.2) = s * ellDiag dx dz co := by
  unfold ellDiag
  ring

theorem update_comb (s a b c dx dz : K) (hs : s ≠ 0) (co : K × K × K) (r z : Stencil K) (hD : ellDiag dx dz co ≠ 0) :
    ellUpdate dx dz (s * co.1, s * co.2.1, s * co.2.2) (Stencil.comb a b c r z) =
      a * ellUpdate dx dz co r + b * ellUpdate dx dz co z + c := by
  unfold ellUpdate
  rw [diag_scale]
  have hd : ellDiag dx dz co = 2 * (co.1 / dx ^ 2) + 2 * (co.2.2 / dz ^ 2) := by unfold ellDiag; ring
  have e1 : s * co.1 / dx ^ 2 = s * (co.1 / dx ^ 2) := by ring
  have e2 : s * co.2.1 / (2 * dx * dz) = s * (co.2.1 / (2 * dx * dz)) := by ring
  have e3 : s * co.2.2 / dz ^ 2 = s * (co.2.2 / dz ^ 2) := by ring
  simp only [e1, e2, e3, Stencil.comb]
  generalize co.1 / dx ^ 2 = A at *
  generalize co.2.1 / (2 * dx * dz) = B at *
  generalize co.2.2 / dz ^ 2 = C at *
  generalize ellDiag dx dz co = D at *
  field_simp
  rw [hd]
  ring

/-- One sweep. -/
theorem sweep_moved {M : Similarity K} (hM : M.Ok) {nx nz : ℕ} {lam dx dz : K} {g g' h : Arr2 K × Arr2 K}
    (hg : MovedGrid M nx nz g g') (hs : ellSweep nx nz lam dx dz g = .ok h) :
    ∃ h', ellSweep nx nz lam dx dz g' = .ok h' ∧ MovedGrid M nx nz h h' := by
  have h1 : ∀ i < nx, ∀ j < nz, g'.1 i j = M.a * g.1 i j + -(M.m * M.b) * g.2 i j + M.r := fun i hi j hj => by
    rw [hg.fst hi hj]; ring
  have h2 : ∀ i < nx, ∀ j < nz, g'.2 i j = M.b * g.1 i j + M.m * M.a * g.2 i j + M.z := fun i hi j hj => hg.snd hi hj
  have hco : ∀ i j, i + 1 < nx → j < nz → ellCoeffs lam dx dz (Stencil.at nz g'.1 i j) (Stencil.at nz g'.2 i j) =
      (M.scale2 * (ellCoeffs lam dx dz (Stencil.at nz g.1 i j) (Stencil.at nz g.2 i j)).1,
        M.scale2 * (ellCoeffs lam dx dz (Stencil.at nz g.1 i j) (Stencil.at nz g.2 i j)).2.1,
        M.scale2 * (ellCoeffs lam dx dz (Stencil.at nz g.1 i j) (Stencil.at nz g.2 i j)).2.2) := by
    intro i j hi hj
    rw [stencil_comb h1 hi hj, stencil_comb h2 hi hj]
    exact coeffs_comb hM.2 lam dx dz _ _
  unfold ellSweep at hs
  dsimp only at hs
  split at hs
  · rename_i hall
    injection hs with hs
    have hd : ∀ i j, 1 ≤ i → i + 1 < nx → j < nz →
        ellDiag dx dz (ellCoeffs lam dx dz (Stencil.at nz g.1 i j) (Stencil.at nz g.2 i j)) ≠ 0 := by
      intro i j hi1 hi hj
      rw [List.all_eq_true] at hall
      have := hall (i - 1) (List.mem_range.2 (by omega))
      rw [List.all_eq_true] at this
      have := this j (List.mem_range.2 hj)
      rw [decide_eq_true_eq, Nat.sub_add_cancel hi1] at this
      exact this
    have hall' : ((List.range (nx - 2)).all fun i => (List.range nz).all fun j =>
        decide (ellDiag dx dz (ellCoeffs lam dx dz (Stencil.at nz g'.1 (i + 1) j) (Stencil.at nz g'.2 (i + 1) j)) ≠ 0)) =
        true := by
      rw [List.all_eq_true]
      intro i hi
      rw [List.all_eq_true]
      intro j hj
      rw [List.mem_range] at hi hj
      rw [decide_eq_true_eq, hco (i + 1) j (by omega) hj, diag_scale]
      exact mul_ne_zero hM.1.ne' (hd (i + 1) j (by omega) (by omega) hj)
    unfold ellSweep
    dsimp only
    rw [if_pos hall']
    refine ⟨_, rfl, ?_⟩
    · intro i hi j hj
      subst hs
      dsimp only
      by_cases hin : 1 ≤ i ∧ i + 1 < nx
      · rw [if_pos hin, if_pos hin, if_pos hin, if_pos hin, hco i j hin.2 hj, stencil_comb h1 hin.2 hj,
          stencil_comb h2 hin.2 hj, update_comb _ _ _ _ _ _ hM.1.ne' _ _ _ (hd i j hin.1 hin.2 hj),
          update_comb _ _ _ _ _ _ hM.1.ne' _ _ _ (hd i j hin.1 hin.2 hj)]
        unfold Similarity.ap
        dsimp only
        rw [neg_mul, ← sub_eq_add_neg]
      · rw [if_neg hin, if_neg hin, if_neg hin, if_neg hin]
        exact hg i hi j hj
  · cases hs

/-- The loop.  The tolerance is a squared length. -/
theorem loop_moved {M : Similarity K} (hM : M.Ok) {nx nz : ℕ} {lam dx dz tol : K} : ∀ {n : ℕ} {g g' h : Arr2 K × Arr2 K},
    MovedGrid M nx nz g g' → ellLoop nx nz lam dx dz tol n g = .ok h →
    ∃ h', ellLoop nx nz lam dx dz (M.scale2 * tol) n g' = .ok h' ∧ MovedGrid M nx nz h h'
  | 0, g, g', h, _, hl => by cases hl
  | n + 1, g, g', h, hg, hl => by
    unfold ellLoop at hl
    simp only [bind, Except.bind] at hl
    cases hs : ellSweep nx nz lam dx dz g with
    | error x => rw [hs] at hl; cases hl
    | ok k =>
      rw [hs] at hl
      dsimp only at hl
      obtain ⟨k', hk', hm⟩ := sweep_moved hM hg hs
      have hc : (((List.range nx).all fun i => (List.range nz).all fun j =>
          decide ((k'.1 i j - g'.1 i j) ^ 2 + (k'.2 i j - g'.2 i j) ^ 2 < M.scale2 * tol)) = true) ↔
          (((List.range nx).all fun i => (List.range nz).all fun j =>
          decide ((k.1 i j - g.1 i j) ^ 2 + (k.2 i j - g.2 i j) ^ 2 < tol)) = true) := by
        simp only [List.all_eq_true, List.mem_range, decide_eq_true_eq]
        refine forall_congr' fun i => forall_congr' fun hi => forall_congr' fun j => forall_congr' fun hj => ?_
        have := M.dist2 hM.2 (k.1 i j, k.2 i j) (g.1 i j, g.2 i j)
        rw [← hm i hi j hj, ← hg i hi j hj] at this
        unfold Zoidberg.dist2 at this
        dsimp only at this
        rw [this]
        exact mul_lt_mul_iff_right₀ hM.1
      unfold ellLoop
      simp only [bind, Except.bind, hk']
      by_cases hcond : (((List.range nx).all fun i => (List.range nz).all fun j =>
          decide ((k.1 i j - g.1 i j) ^ 2 + (k.2 i j - g.2 i j) ^ 2 < tol)) = true)
      · rw [if_pos hcond] at hl
        rw [if_pos (hc.2 hcond)]
        injection hl with hl
        subst hl
        exact ⟨k', rfl, hm⟩
      · rw [if_neg hcond] at hl
        rw [if_neg (fun hcc => hcond (hc.1 hcc))]
        exact loop_moved hM hm hl

/-! ## The start -/

/-- The image of a line: of its points and of the curve. -/
def MovedLine (e : RzEnv K) (M : Similarity K) (l l' : RZLine K) : Prop :=
  l'.pts = l.pts.map M.ap ∧ ∀ t, l'.value e.pi t 0 = M.ap (l.value e.pi t 0)

/-- `RectBivariateSpline` is linear in the data and exact for constants, and uses only the data on its mesh. -/
def LinearSpline (spline : List K → List K → Arr2 K → K → K → K) : Prop :=
  ∀ (x z : List K) (A B C : Arr2 K) (a b c : K), x ≠ [] → z ≠ [] →
    (∀ i < x.length, ∀ j < z.length, C i j = a * A i j + b * B i j + c) →
    ∀ u v, spline x z C u v = a * spline x z A u v + b * spline x z B u v + c

theorem ptAt_map (M : Similarity K) (p : List (K × K)) (hp : p ≠ []) (i : ℕ) : ptAt (p.map M.ap) i = M.ap (ptAt p i) := by
  have hl : i % p.length < p.length := Nat.mod_lt _ (List.length_pos_iff.2 hp)
  unfold ptAt
  rw [List.length_map, List.getD_eq_getElem _ _ (by simpa using hl), List.getD_eq_getElem _ _ hl, List.getElem_map]

theorem polygon_moved (M : Similarity K) {l l' : RZLine K} (h : l'.pts = l.pts.map M.ap) (hp : l.pts ≠ []) (pi t : K) :
    l'.positionPolygon pi t = M.ap (l.positionPolygon pi t) := by
  unfold RZLine.positionPolygon
  rw [h]
  simp only [List.length_map, ptAt_map M _ hp]
  unfold Similarity.ap
  ext <;> (dsimp only; ring)

/-- A factor does not change which entry is the smallest. -/
theorem argmin_scale {s : K} (hs : 0 < s) : ∀ l : List K, argmin (l.map fun a => s * a) = argmin l
  | [] => rfl
  | a :: l => by
    rw [List.map_cons, argmin, argmin, argmin_scale hs l]
    congr 1
    simp only [List.all_map, Function.comp_def, mul_le_mul_iff_right₀ hs]

theorem refine_moved {M : Similarity K} (hM : M.Ok) {l l' : RZLine K} (h : l'.pts = l.pts.map M.ap) (hp : l.pts ≠ []) (pi : K)
    (p : K × K) (n : ℕ) (s : K × K) : l'.refine pi (M.ap p) n s = l.refine pi p n s := by
  unfold RZLine.refine
  have : ((linspaceOpen (s.1 - s.2) (s.1 + s.2) n).map fun t => Zoidberg.dist2 (l'.positionPolygon pi t) (M.ap p)) =
      ((linspaceOpen (s.1 - s.2) (s.1 + s.2) n).map fun t => Zoidberg.dist2 (l.positionPolygon pi t) p).map
        fun a => M.scale2 * a := by
    rw [List.map_map]
    apply List.map_congr_left
    intro t _
    simp only [Function.comp]
    rw [polygon_moved M h hp, M.dist2 hM.2]
  dsimp only
  rw [this, argmin_scale hM.1]

theorem refineLoop_moved {M : Similarity K} (hM : M.Ok) {l l' : RZLine K} (h : l'.pts = l.pts.map M.ap) (hp : l.pts ≠ [])
    (pi : K) (p : K × K) (n : ℕ) : ∀ (k : ℕ) (s : K × K), l'.refineLoop pi (M.ap p) n k s = l.refineLoop pi p n k s
  | 0, _ => rfl
  | k + 1, s => by
    unfold RZLine.refineLoop
    rw [refine_moved hM h hp]
    congr 1
    funext s'
    exact refineLoop_moved hM h hp pi p n k s'

/-- The closest point is the image of the closest point. -/
theorem closestPoint_moved {M : Similarity K} (hM : M.Ok) {l l' : RZLine K} (h : l'.pts = l.pts.map M.ap) (pi : K)
    (p : K × K) (k n : ℕ) : l'.closestPoint pi (M.ap p) k n = l.closestPoint pi p k n := by
  unfold RZLine.closestPoint
  rw [h, List.length_map]
  by_cases hl : l.pts.length ≤ 1
  · dsimp only; rw [if_pos hl, if_pos hl]
  · have hp : l.pts ≠ [] := by
      intro hc
      rw [hc] at hl
      simp at hl
    dsimp only
    rw [if_neg hl, if_neg hl]
    have : ((l.pts.map M.ap).map fun q => Zoidberg.dist2 q (M.ap p)) =
        (l.pts.map fun q => Zoidberg.dist2 q p).map fun a => M.scale2 * a := by
      rw [List.map_map, List.map_map]
      apply List.map_congr_left
      intro q _
      simp only [Function.comp]
      rw [M.dist2 hM.2]
    rw [this, argmin_scale hM.1, refineLoop_moved hM h hp]

theorem innerAngles_moved {M : Similarity K} (hM : M.Ok) (e : RzEnv K) (t : OrtOpts K) {l l' : RZLine K}
    (h : l'.pts = l.pts.map M.ap) (ps : List (K × K)) : innerAngles e t l' (ps.map M.ap) = innerAngles e t l ps := by
  unfold innerAngles
  rw [List.length_map]
  congr 1
  induction ps with
  | nil => rfl
  | cons p ps ih =>
    rw [List.map_cons, List.mapM_cons, List.mapM_cons, closestPoint_moved hM h, ih]

theorem ellInnerTheta_moved {M : Similarity K} (hM : M.Ok) {e : RzEnv K} {spline : List K → List K → Arr2 K → K → K → K}
    {t : OrtOpts K} {o : EllOpts K} {inner inner' outer outer' : RZLine K} (hi : MovedLine e M inner inner')
    (ho : MovedLine e M outer outer') (tol : K) (theta : List K) :
    ellInnerTheta (ellEnvOf e spline t inner') { o with tol := tol } (inner'.fn e) (outer'.fn e) theta =
      ellInnerTheta (ellEnvOf e spline t inner) o (inner.fn e) (outer.fn e) theta := by
  unfold ellInnerTheta ellEnvOf
  dsimp only
  congr 1
  rw [← innerAngles_moved hM e t hi.1, List.map_map]
  congr 1
  apply List.map_congr_left
  intro u _
  simp only [Function.comp, RZLine.fn]
  rw [ho.2 u]

theorem fn_moved {M : Similarity K} {e : RzEnv K} {l l' : RZLine K} (h : MovedLine e M l l') (u : K) :
    (l'.fn e).Rvalue u = M.a * (l.fn e).Rvalue u - M.m * M.b * (l.fn e).Zvalue u + M.r ∧
    (l'.fn e).Zvalue u = M.b * (l.fn e).Rvalue u + M.m * M.a * (l.fn e).Zvalue u + M.z := by
  have := h.2 u
  unfold RZLine.fn
  dsimp only
  rw [this]
  exact ⟨rfl, rfl⟩

theorem direct_moved {M : Similarity K} (hM : M.Ok) {e : RzEnv K} {spline : List K → List K → Arr2 K → K → K → K}
    {t : OrtOpts K} {o : EllOpts K} {inner inner' outer outer' : RZLine K} (hi : MovedLine e M inner inner')
    (ho : MovedLine e M outer outer') (tol : K) {nx nz : ℕ} {g : Arr2 K × Arr2 K}
    (h : ellDirect (ellEnvOf e spline t inner) o (inner.fn e) (outer.fn e) nx nz = .ok g) :
    ∃ g', ellDirect (ellEnvOf e spline t inner') { o with tol := tol } (inner'.fn e) (outer'.fn e) nx nz = .ok g' ∧
      MovedGrid M nx nz g g' := by
  unfold ellDirect at h ⊢
  simp only [bind, Except.bind] at h ⊢
  rw [ellInnerTheta_moved hM hi ho]
  cases hti : ellInnerTheta (ellEnvOf e spline t inner) o (inner.fn e) (outer.fn e)
      (linspaceOpen 0 (2 * (ellEnvOf e spline t inner).pi) nz) with
  | error x => rw [hti] at h; cases h
  | ok ti =>
    rw [hti] at h
    have hti' : ellInnerTheta (ellEnvOf e spline t inner) o (inner.fn e) (outer.fn e)
      (linspaceOpen 0 (2 * (ellEnvOf e spline t inner').pi) nz) = .ok ti := hti
    rw [hti']
    injection h with h
    refine ⟨_, rfl, fun i _ j _ => ?_⟩
    subst h
    dsimp only
    have hpi : (ellEnvOf e spline t inner').pi = (ellEnvOf e spline t inner).pi := rfl
    rw [hpi, (fn_moved ho _).1, (fn_moved ho _).2, (fn_moved hi _).1, (fn_moved hi _).2]
    unfold Similarity.ap
    ext <;> (dsimp only; ring)

theorem coarse_moved {M : Similarity K} (hM : M.Ok) {e : RzEnv K} {spline : List K → List K → Arr2 K → K → K → K}
    (hsp : LinearSpline spline)
    {t : OrtOpts K} {o : EllOpts K} {inner inner' outer outer' : RZLine K} (hi : MovedLine e M inner inner')
    (ho : MovedLine e M outer outer') (tol : K) {nx nz nxr nzr : ℕ} (hxr : 0 < nxr) (hzr : 0 < nzr) {c c' g : Arr2 K × Arr2 K}
    (hc : MovedGrid M nxr nzr c c')
    (h : ellFromCoarse (ellEnvOf e spline t inner) o (inner.fn e) (outer.fn e) nx nz nxr nzr c = .ok g) :
    ∃ g', ellFromCoarse (ellEnvOf e spline t inner') { o with tol := tol } (inner'.fn e) (outer'.fn e) nx nz nxr nzr c' =
      .ok g' ∧ MovedGrid M nx nz g g' := by
  unfold ellFromCoarse at h ⊢
  simp only [bind, Except.bind] at h ⊢
  rw [ellInnerTheta_moved hM hi ho]
  cases hti : ellInnerTheta (ellEnvOf e spline t inner) o (inner.fn e) (outer.fn e)
      (linspaceOpen 0 (2 * (ellEnvOf e spline t inner).pi) nz) with
  | error x => rw [hti] at h; cases h
  | ok ti =>
    rw [hti] at h
    have hti' : ellInnerTheta (ellEnvOf e spline t inner) o (inner.fn e) (outer.fn e)
      (linspaceOpen 0 (2 * (ellEnvOf e spline t inner').pi) nz) = .ok ti := hti
    rw [hti']
    injection h with h
    refine ⟨_, rfl, fun i _ j _ => ?_⟩
    subst h
    dsimp only
    have hpi : (ellEnvOf e spline t inner').pi = (ellEnvOf e spline t inner).pi := rfl
    have hspl : (ellEnvOf e spline t inner').spline = spline := rfl
    have hspl' : (ellEnvOf e spline t inner).spline = spline := rfl
    rw [hpi, hspl, hspl']
    by_cases h0 : i = 0
    · rw [if_pos h0, if_pos h0, if_pos h0, if_pos h0, (fn_moved hi _).1, (fn_moved hi _).2]
      rfl
    · rw [if_neg h0, if_neg h0, if_neg h0, if_neg h0]
      by_cases h1 : i = nx - 1
      · rw [if_pos h1, if_pos h1, if_pos h1, if_pos h1, (fn_moved ho _).1, (fn_moved ho _).2]
        rfl
      · rw [if_neg h1, if_neg h1, if_neg h1, if_neg h1]
        generalize (linspaceClosed (0 : K) 1 nx).getD i 0 = u
        generalize (linspaceOpen 0 (2 * (ellEnvOf e spline t inner).pi) nz).getD j 0 = v
        have hx : (linspaceClosed (0 : K) 1 nxr).length = nxr := by simp [linspaceClosed]
        have hz : (linspaceClosed 0 (2 * (ellEnvOf e spline t inner).pi) (nzr + 1)).length = nzr + 1 := by
          simp [linspaceClosed]
        have s1 := hsp (linspaceClosed (0 : K) 1 nxr) (linspaceClosed 0 (2 * (ellEnvOf e spline t inner).pi) (nzr + 1))
          (fun i j => if j = nzr then c.1 i 0 else c.1 i j) (fun i j => if j = nzr then c.2 i 0 else c.2 i j)
          (fun i j => if j = nzr then c'.1 i 0 else c'.1 i j) M.a (-(M.m * M.b)) M.r
          (List.ne_nil_of_length_pos (by rw [hx]; exact hxr)) (List.ne_nil_of_length_pos (by rw [hz]; omega)) (by
            intro i hi j hj
            rw [hx] at hi
            rw [hz] at hj
            by_cases hjn : j = nzr
            · simp only [if_pos hjn]
              rw [hc.fst hi hzr]
              ring
            · simp only [if_neg hjn]
              rw [hc.fst hi (by omega)]
              ring) u v
        have s2 := hsp (linspaceClosed (0 : K) 1 nxr) (linspaceClosed 0 (2 * (ellEnvOf e spline t inner).pi) (nzr + 1))
          (fun i j => if j = nzr then c.1 i 0 else c.1 i j) (fun i j => if j = nzr then c.2 i 0 else c.2 i j)
          (fun i j => if j = nzr then c'.2 i 0 else c'.2 i j) M.b (M.m * M.a) M.z
          (List.ne_nil_of_length_pos (by rw [hx]; exact hxr)) (List.ne_nil_of_length_pos (by rw [hz]; omega)) (by
            intro i hi j hj
            rw [hx] at hi
            rw [hz] at hj
            by_cases hjn : j = nzr
            · simp only [if_pos hjn]
              rw [hc.snd hi hzr]
            · simp only [if_neg hjn]
              rw [hc.snd hi (by omega)]) u v
        rw [s1, s2]
        unfold Similarity.ap
        ext
        · dsimp only; ring
        · rfl

theorem core_moved {M : Similarity K} (hM : M.Ok) {e : RzEnv K} {spline : List K → List K → Arr2 K → K → K → K}
    (hsp : LinearSpline spline)
    {t : OrtOpts K} {o : EllOpts K} {inner inner' outer outer' : RZLine K} (hi : MovedLine e M inner inner')
    (ho : MovedLine e M outer outer') : ∀ {fuel nx nz : ℕ} {g : Arr2 K × Arr2 K},
    ellCore (ellEnvOf e spline t inner) o (inner.fn e) (outer.fn e) fuel nx nz = .ok g →
    ∃ g', ellCore (ellEnvOf e spline t inner') { o with tol := M.scale2 * o.tol } (inner'.fn e) (outer'.fn e) fuel nx nz =
      .ok g' ∧ MovedGrid M nx nz g g'
  | 0, nx, nz, g, h => by cases h
  | fuel + 1, nx, nz, g, h => by
    unfold ellCore at h ⊢
    by_cases hx : ¬ nx > 1
    · rw [if_pos hx] at h; cases h
    rw [if_neg hx] at h ⊢
    by_cases hz : ¬ nz > 1
    · rw [if_pos hz] at h; cases h
    rw [if_neg hz] at h ⊢
    have solve : ∀ {s s' : Arr2 K × Arr2 K}, MovedGrid M nx nz s s' → ellSolve (ellEnvOf e spline t inner) o nx nz s = .ok g →
        ∃ g', ellSolve (ellEnvOf e spline t inner') { o with tol := M.scale2 * o.tol } nx nz s' = .ok g' ∧
          MovedGrid M nx nz g g' := by
      intro s s' hs hg
      unfold ellSolve at hg ⊢
      exact loop_moved hM hs hg
    by_cases hr : nx > o.restrictSize ∨ nz > o.restrictSize
    · rw [if_pos hr] at h
      dsimp only
      rw [if_pos hr]
      cases hc : ellCore (ellEnvOf e spline t inner) o (inner.fn e) (outer.fn e) fuel
          (ellCoarse o.restrictSize o.restrictFactor nx) (ellCoarse o.restrictSize o.restrictFactor nz) with
      | error x => rw [hc] at h; cases h
      | ok c =>
        rw [hc] at h
        obtain ⟨c', hc', hm⟩ := core_moved hM hsp hi ho hc
        have hxr : 0 < ellCoarse o.restrictSize o.restrictFactor nx := by
          have := (ellCore_rows hc).1
          omega
        have hzr : 0 < ellCoarse o.restrictSize o.restrictFactor nz := by
          have := (ellCore_rows hc).2.1
          omega
        rw [hc']
        simp only [Except.bind] at h ⊢
        cases hs : ellFromCoarse (ellEnvOf e spline t inner) o (inner.fn e) (outer.fn e) nx nz
            (ellCoarse o.restrictSize o.restrictFactor nx) (ellCoarse o.restrictSize o.restrictFactor nz) c with
        | error x => rw [hs] at h; cases h
        | ok s =>
          rw [hs] at h
          obtain ⟨s', hs', hms⟩ := coarse_moved hM hsp hi ho (M.scale2 * o.tol) hxr hzr hm hs
          rw [hs']
          exact solve hms h
    · rw [if_neg hr] at h
      dsimp only
      rw [if_neg hr]
      cases hs : ellDirect (ellEnvOf e spline t inner) o (inner.fn e) (outer.fn e) nx nz with
      | error x => rw [hs] at h; cases h
      | ok s =>
        rw [hs] at h
        obtain ⟨s', hs', hms⟩ := direct_moved hM hi ho (M.scale2 * o.tol) hs
        rw [hs']
        simp only [Except.bind] at h ⊢
        exact solve hms h

/-- The additional rows. -/
theorem extend_moved {M : Similarity K} {nx nz nxi nxo : ℕ} (hn : 2 ≤ nx) {g g' : Arr2 K × Arr2 K}
    (h : MovedGrid M nx nz g g') : MovedGrid M (nxi + nx + nxo) nz (ellExtend nx nxi g.1, ellExtend nx nxi g.2)
      (ellExtend nx nxi g'.1, ellExtend nx nxi g'.2) := by
  intro i _ j hj
  dsimp only
  unfold ellExtend
  by_cases h1 : i < nxi
  · rw [if_pos h1, if_pos h1, if_pos h1, if_pos h1, h.fst (by omega) hj, h.fst (by omega) hj, h.snd (by omega) hj,
      h.snd (by omega) hj]
    unfold Similarity.ap
    ext <;> (dsimp only; ring)
  · rw [if_neg h1, if_neg h1, if_neg h1, if_neg h1]
    by_cases h2 : i < nxi + nx
    · rw [if_pos h2, if_pos h2, if_pos h2, if_pos h2]
      exact h _ (by omega) j hj
    · rw [if_neg h2, if_neg h2, if_neg h2, if_neg h2, h.fst (by omega) hj, h.fst (by omega) hj, h.snd (by omega) hj,
        h.snd (by omega) hj]
      unfold Similarity.ap
      ext <;> (dsimp only; ring)

/-! ## C236 -/

/-- **C236**, the claim: the grid for the images of two lines is the image of the grid, if the tolerance, which is a
squared length, is scaled as well. -/
def MovesAlong (e : RzEnv K) (spline : List K → List K → Arr2 K → K → K → K) (align : Bool) (M : Similarity K) : Prop :=
  ∀ (t : OrtOpts K) (o : EllOpts K) (legacy : Bool) (fuel : ℕ) (inner inner' outer outer' : RZLine K)
    (nx nz nxo nxi : ℕ) (g : Arr2 K × Arr2 K), DefaultLine e inner → DefaultLine e outer →
    MovedLine e M inner inner' → MovedLine e M outer outer' →
    gridEllipticLines e spline t o align legacy fuel inner outer nx nz nxo nxi = .ok g →
    ∃ g', gridEllipticLines e spline t { o with tol := M.scale2 * o.tol } align legacy fuel inner' outer' nx nz nxo nxi =
      .ok g' ∧ MovedGrid M nx nz g g'

theorem gridElliptic_moved {M : Similarity K} (hM : M.Ok) {e : RzEnv K} {spline : List K → List K → Arr2 K → K → K → K}
    (hsp : LinearSpline spline) {t : OrtOpts K} {o : EllOpts K} {fuel : ℕ} {inner inner' outer outer' : RZLine K}
    {nx nz nxo nxi : ℕ} {g : Arr2 K × Arr2 K} (hi : MovedLine e M inner inner') (ho : MovedLine e M outer outer')
    (h : gridElliptic (ellEnvOf e spline t inner) o false fuel (inner.fn e) (outer.fn e) nx nz nxo nxi = .ok g) :
    ∃ g', gridElliptic (ellEnvOf e spline t inner') { o with tol := M.scale2 * o.tol } false fuel (inner'.fn e)
      (outer'.fn e) nx nz nxo nxi = .ok g' ∧ MovedGrid M nx nz g g' := by
  obtain ⟨-, -, c, hc, hR, hZ⟩ := gridElliptic_ok (R := g.1) (Z := g.2) h
  have hl : ellLines (ellEnvOf e spline t inner) o false (inner.fn e) (outer.fn e) = (inner.fn e, outer.fn e) := rfl
  rw [hl] at hc
  dsimp only at hc
  obtain ⟨hn, -, -⟩ := ellCore_rows hc
  obtain ⟨c', hc', hm⟩ := core_moved hM hsp hi ho hc
  unfold gridElliptic
  rw [if_neg (by omega), if_neg (by omega)]
  simp only [Bool.false_and, Bool.false_eq_true, if_false, bind, Except.bind, hc']
  refine ⟨_, rfl, ?_⟩
  have hext := extend_moved (nxi := nxi) (nxo := nxo) hn hm
  have hsum : nxi + ((nx : ℤ) - nxo - nxi).toNat + nxo = nx := by omega
  rw [hsum] at hext
  intro i hi j hj
  have := hext i hi j (by simpa using hj)
  rw [hR, hZ]
  simpa using this

/-- **C236**, partial (the lines are not aligned): whatever the similarity is, the grid for the images of the lines is
the image of the grid. -/
theorem C236_unaligned_partial (e : RzEnv K) (spline : List K → List K → Arr2 K → K → K → K) (hsp : LinearSpline spline)
    (M : Similarity K) (hM : M.Ok) : MovesAlong e spline false M := by
  intro t o legacy fuel inner inner' outer outer' nx nz nxo nxi g _ _ hi ho h
  unfold gridEllipticLines at h ⊢
  split at h
  · cases h
  rename_i h1
  split at h
  · cases h
  rename_i h2
  split at h
  · cases h
  rename_i h3
  split at h
  · cases h
  rename_i h4
  rw [if_neg h1, if_neg h2, if_neg h3, if_neg h4]
  simp only [Bool.false_and, Bool.false_eq_true, if_false, Except.bind] at h ⊢
  exact gridElliptic_moved hM hsp hi ho h

/-- **C236**, partial: the same with `inner_ort`, for which the lines are not aligned either. -/
theorem C236_ort_partial (e : RzEnv K) (spline : List K → List K → Arr2 K → K → K → K) (hsp : LinearSpline spline)
    (M : Similarity K) (hM : M.Ok) (t : OrtOpts K) (o : EllOpts K) (hort : o.innerOrt = true) (align legacy : Bool)
    (fuel : ℕ) (inner inner' outer outer' : RZLine K) (nx nz nxo nxi : ℕ) (g : Arr2 K × Arr2 K)
    (hi : MovedLine e M inner inner') (ho : MovedLine e M outer outer')
    (h : gridEllipticLines e spline t o align legacy fuel inner outer nx nz nxo nxi = .ok g) :
    ∃ g', gridEllipticLines e spline t { o with tol := M.scale2 * o.tol } align legacy fuel inner' outer' nx nz nxo nxi =
      .ok g' ∧ MovedGrid M nx nz g g' := by
  unfold gridEllipticLines at h ⊢
  split at h
  · cases h
  rename_i h1
  split at h
  · cases h
  rename_i h2
  split at h
  · cases h
  rename_i h3
  split at h
  · cases h
  rename_i h4
  rw [if_neg h1, if_neg h2, if_neg h3, if_neg h4]
  have hb : ¬ (align && !o.innerOrt) = true := by rw [hort]; simp
  dsimp only
  rw [if_neg hb] at h ⊢
  exact gridElliptic_moved hM hsp hi ho h

/-! ### Aligned lines -/

/-- The periodic splines are linear in the values and exact for constants. -/
def LinearSplrep (e : RzEnv K) : Prop :=
  ∀ (o : ℕ) (p : List (K × K)) (a b c : K) (f g : ℕ → K → K), e.splrep o none (p.map Prod.fst) = .ok f →
    e.splrep o none (p.map Prod.snd) = .ok g →
    ∃ h, e.splrep o none (p.map fun q => a * q.1 + b * q.2 + c) = .ok h ∧ ∀ t, h 0 t = a * f 0 t + b * g 0 t + c

theorem build_moved {M : Similarity K} {e : RzEnv K} (he : LinearSplrep e) {p : List (K × K)} {l : RZLine K}
    (h : RZLine.build e p none none = .ok l) :
    ∃ l', RZLine.build e (p.map M.ap) none none = .ok l' ∧ MovedLine e M l l' := by
  obtain ⟨hp, hne, hr, hz⟩ := build_pts h
  obtain ⟨f, hf, hf'⟩ := he _ p M.a (-(M.m * M.b)) M.r _ _ hr hz
  obtain ⟨g, hg, hg'⟩ := he _ p M.b (M.m * M.a) M.z _ _ hr hz
  have e1 : (p.map M.ap).map Prod.fst = p.map fun q => M.a * q.1 + -(M.m * M.b) * q.2 + M.r := by
    rw [List.map_map]
    apply List.map_congr_left
    intro q _
    simp only [Function.comp, Similarity.ap]
    ring
  have e2 : (p.map M.ap).map Prod.snd = p.map fun q => M.b * q.1 + M.m * M.a * q.2 + M.z := by
    rw [List.map_map]
    rfl
  refine ⟨⟨p.map M.ap, splineOrder none, f, g⟩, ?_, ?_, fun t => ?_⟩
  · unfold RZLine.build
    dsimp only
    rw [if_neg (by simpa using hne), e1, e2]
    simp only [Option.map_none] at hf hg ⊢
    rw [hf, hg]
    rfl
  · rw [hp]
  · unfold RZLine.value Similarity.ap
    dsimp only
    rw [hf', hg']
    ext
    · dsimp only; ring
    · rfl

theorem signedArea_moved (M : Similarity K) (p : List (K × K)) :
    signedArea (p.map M.ap) = M.m * M.scale2 * signedArea p := by
  rcases eq_or_ne p [] with rfl | hp
  · simp [signedArea]
  rw [signedArea_eq, signedArea_eq, List.length_map]
  simp only [ptAt_map M p hp]
  have hs := sum_shift (fun i => M.r * (M.b * (ptAt p i).1 + M.m * M.a * (ptAt p i).2) -
    M.z * (M.a * (ptAt p i).1 - M.m * M.b * (ptAt p i).2)) p.length (fun i => by simp only [ptAt_add])
  have ht : ∀ i, (M.ap (ptAt p i)).1 * (M.ap (ptAt p (i + 1))).2 - (M.ap (ptAt p (i + 1))).1 * (M.ap (ptAt p i)).2 =
      M.m * M.scale2 * ((ptAt p i).1 * (ptAt p (i + 1)).2 - (ptAt p (i + 1)).1 * (ptAt p i).2) +
        ((M.r * (M.b * (ptAt p (i + 1)).1 + M.m * M.a * (ptAt p (i + 1)).2) -
          M.z * (M.a * (ptAt p (i + 1)).1 - M.m * M.b * (ptAt p (i + 1)).2)) -
        (M.r * (M.b * (ptAt p i).1 + M.m * M.a * (ptAt p i).2) -
          M.z * (M.a * (ptAt p i).1 - M.m * M.b * (ptAt p i).2))) := by
    intro i
    unfold Similarity.ap Similarity.scale2
    dsimp only
    ring
  simp only [ht]
  rw [Finset.sum_add_distrib, Finset.sum_sub_distrib, hs, sub_self, add_zero, ← Finset.mul_sum]
  ring

/-- **C236.** The line through the images of the points is the image of the line. -/
theorem C236_line (e : RzEnv K) (he : LinearSplrep e) (M : Similarity K) (hM : M.Ok) (hm : M.m = 1) (p : List (K × K))
    (l : RZLine K) (h : RZLine.ofPts e p true none none = .ok l) :
    ∃ l', RZLine.ofPts e (p.map M.ap) true none none = .ok l' ∧ MovedLine e M l l' := by
  have ha : signedArea p ≠ 0 := by
    intro ha
    rw [C54_zero e p none none ha] at h
    cases h
  rw [C54_direction e p none none ha] at h
  have hs := signedArea_moved M p
  rw [hm, one_mul] at hs
  rw [C54_direction e _ none none (by rw [hs]; exact mul_ne_zero hM.1.ne' ha), hs]
  by_cases hp : 0 < signedArea p
  · rw [if_pos hp] at h
    rw [if_pos (mul_pos hM.1 hp)]
    exact build_moved he h
  · rw [if_neg hp] at h
    rw [if_neg (fun hc => hp (pos_of_mul_pos_right hc hM.1.le)), ← List.map_reverse]
    exact build_moved he h

theorem rotPts_map (M : Similarity K) (p : List (K × K)) (k : ℕ) : rotPts (p.map M.ap) k = (rotPts p k).map M.ap := by
  rcases eq_or_ne p [] with rfl | hp
  · rfl
  unfold rotPts
  rw [List.map_map, List.length_map]
  apply List.map_congr_left
  intro i _
  exact ptAt_map M p hp _

theorem roll_moved {M : Similarity K} (hM : M.Ok) (hm : M.m = 1) {e : RzEnv K} (he : LinearSplrep e) {l l' s : RZLine K}
    (h : l'.pts = l.pts.map M.ap) (ha : 0 < signedArea l.pts) {k : ℕ} (hs : l.roll e k = .ok s) :
    ∃ s', l'.roll e k = .ok s' ∧ MovedLine e M s s' := by
  rw [roll_eq e l k ha] at hs
  rw [roll_eq e l' k (by rw [h, signedArea_moved, hm, one_mul]; exact mul_pos hM.1 ha), h, rotPts_map]
  exact build_moved he hs

theorem argmax_affine {a : K} (ha : 0 < a) (c : K) : ∀ l : List K, argmax (l.map fun x => a * x + c) = argmax l
  | [] => rfl
  | x :: l => by
    rw [List.map_cons, argmax, argmax, argmax_affine ha c l]
    congr 1
    simp only [List.all_map, Function.comp_def, add_le_add_iff_right, mul_le_mul_iff_right₀ ha]

theorem argmax_moved {M : Similarity K} (hb : M.b = 0) (ha : 0 < M.a) (p : List (K × K)) :
    argmax ((p.map M.ap).map Prod.fst) = argmax (p.map Prod.fst) := by
  rw [← argmax_affine ha M.r (p.map Prod.fst), List.map_map, List.map_map]
  congr 1
  apply List.map_congr_left
  intro q _
  simp only [Function.comp, Similarity.ap, hb]
  ring

theorem alignShift_moved {M : Similarity K} (hM : M.Ok) (hb : M.b = 0) (ha : 0 < M.a) (legacy : Bool) (s l : List (K × K))
    (hs : s ≠ []) (hl : l ≠ []) : alignShift legacy (s.map M.ap) (l.map M.ap) = alignShift legacy s l := by
  unfold alignShift
  rw [argmax_moved hb ha, List.length_map]
  have : (List.range l.length).map (alignSum (s.map M.ap) (l.map M.ap)) =
      ((List.range l.length).map (alignSum s l)).map fun a => M.scale2 * a := by
    rw [List.map_map]
    apply List.map_congr_left
    intro i _
    simp only [Function.comp]
    unfold alignSum
    rw [← List.sum_map_mul_left, List.length_map, List.length_map]
    congr 1
    apply List.map_congr_left
    intro j _
    rw [ptAt_map M s hs, ptAt_map M l hl, M.dist2 hM.2]
  rw [this, argmin_scale hM.1]

theorem alignPair_moved {M : Similarity K} (hM : M.Ok) (hm : M.m = 1) (hb : M.b = 0) (ha : 0 < M.a) {e : RzEnv K}
    (he : LinearSplrep e) {legacy : Bool} {s l s' l' u v : RZLine K} (hs : s'.pts = s.pts.map M.ap)
    (hl : l'.pts = l.pts.map M.ap) (has : 0 < signedArea s.pts) (hal : 0 < signedArea l.pts)
    (h : alignPair e legacy s l = .ok (u, v)) :
    ∃ u' v', alignPair e legacy s' l' = .ok (u', v') ∧ MovedLine e M u u' ∧ MovedLine e M v v' := by
  have hu := (alignPair_pts has hal h).1
  unfold alignPair at h ⊢
  cases h1 : s.roll e (argmax (s.pts.map Prod.fst)) with
  | error x => rw [h1] at h; cases h
  | ok u0 =>
    rw [h1] at h
    simp only [Except.bind] at h
    cases h2 : l.roll e (alignShift legacy u0.pts l.pts) with
    | error x => rw [h2] at h; cases h
    | ok v0 =>
      rw [h2] at h
      injection h with h
      rw [Prod.mk.injEq] at h
      obtain ⟨rfl, rfl⟩ := h
      obtain ⟨u', hu', hmu⟩ := roll_moved hM hm he hs has h1
      have hune : u0.pts ≠ [] := by
        rw [hu]
        apply List.ne_nil_of_length_pos
        rw [rotPts_length]
        exact List.length_pos_iff.2 (ne_nil_of_area has)
      obtain ⟨v', hv', hmv⟩ := roll_moved hM hm he hl hal h2
      refine ⟨u', v', ?_, hmu, hmv⟩
      rw [hs, argmax_moved hb ha, hu']
      simp only [Except.bind]
      rw [hl, hmu.1, alignShift_moved hM hb ha legacy _ _ hune (ne_nil_of_area hal), hv']

/-- **C236**, partial (shifts and scalings): the same for aligned lines. -/
theorem C236_aligned_partial (e : RzEnv K) (he : LinearSplrep e) (spline : List K → List K → Arr2 K → K → K → K)
    (hsp : LinearSpline spline) (M : Similarity K) (hm : M.m = 1) (hb : M.b = 0) (ha : 0 < M.a) :
    MovesAlong e spline true M := by
  have hM : M.Ok := ⟨by unfold Similarity.scale2; rw [hb]; positivity, by rw [hm]; ring⟩
  intro t o legacy fuel inner inner' outer outer' nx nz nxo nxi g hdi hdo hi ho h
  by_cases hort : o.innerOrt = true
  · exact C236_ort_partial e spline hsp M hM t o hort true legacy fuel inner inner' outer outer' nx nz nxo nxi g hi ho h
  have hal : (true && !o.innerOrt) = true := by simp [hort]
  unfold gridEllipticLines at h ⊢
  split at h
  · cases h
  rename_i h1
  split at h
  · cases h
  rename_i h2
  split at h
  · cases h
  rename_i h3
  split at h
  · cases h
  rename_i h4
  rw [if_neg h1, if_neg h2, if_neg h3, if_neg h4]
  dsimp only
  rw [if_pos hal]
  cases hq : alignLines e legacy inner outer with
  | error x => rw [hq] at h; cases h
  | ok q =>
    rw [hq] at h
    simp only [Except.bind] at h
    have hq' : ∃ q', alignLines e legacy inner' outer' = .ok q' ∧ MovedLine e M q.1 q'.1 ∧ MovedLine e M q.2 q'.2 := by
      unfold alignLines at hq ⊢
      rw [hi.1, ho.1, List.length_map, List.length_map]
      by_cases hlt : inner.pts.length < outer.pts.length
      · rw [if_pos hlt] at hq ⊢
        obtain ⟨u, v, huv, hu, hv⟩ := alignPair_moved (u := q.1) (v := q.2) hM hm hb ha he hi.1 ho.1 hdi.build.1 hdo.build.1 hq
        exact ⟨(u, v), huv, hu, hv⟩
      · rw [if_neg hlt] at hq ⊢
        cases hp : alignPair e legacy outer inner with
        | error x => rw [hp] at hq; cases hq
        | ok w =>
          rw [hp] at hq
          injection hq with hq
          subst hq
          obtain ⟨u, v, huv, hu, hv⟩ := alignPair_moved (u := w.1) (v := w.2) hM hm hb ha he ho.1 hi.1 hdo.build.1 hdi.build.1 hp
          exact ⟨(v, u), by rw [huv]; rfl, hv, hu⟩
    obtain ⟨q', hq1, hq2, hq3⟩ := hq'
    rw [hq1]
    simp only [Except.bind]
    exact gridElliptic_moved hM hsp hq2 hq3 h

/-! ### A turn of aligned lines -/

/-- The half turn about the origin. -/
def halfTurn : Similarity ℝ := ⟨-1, 0, 1, 0, 0⟩

/-- A square after the half turn. -/
noncomputable def turnedLine (r : ℝ) : RZLine ℝ :=
  ⟨(diamond r).map halfTurn.ap, 3, fun d t => -(diamondLine 3 r).rspl d t, fun d t => -(diamondLine 3 r).zspl d t⟩

theorem turnedLine_moved (r : ℝ) : MovedLine env4 halfTurn (diamondLine 3 r) (turnedLine r) := by
  refine ⟨rfl, fun t => ?_⟩
  unfold RZLine.value turnedLine halfTurn Similarity.ap
  ext <;> (dsimp only; ring)

/-- Two rows of points need no sweep. -/
theorem twoRows (e : EllEnv K) (o : EllOpts K) (hort : o.innerOrt = false) (htol : 0 < o.tol) (hs : 8 ≤ o.restrictSize)
    (inner outer : LineFn K) : ∃ g, gridElliptic e o false 1 inner outer (2 : ℕ) (8 : ℕ) (0 : ℕ) (0 : ℕ) = .ok g := by
  unfold gridElliptic
  rw [if_neg (by norm_num), if_neg (by norm_num)]
  simp only [Bool.false_and, Bool.false_eq_true, if_false]
  have e1 : ((2 : ℕ) : ℤ) - ((0 : ℕ) : ℤ) - ((0 : ℕ) : ℤ) = (2 : ℕ) := by norm_num
  rw [e1, Int.toNat_natCast, Int.toNat_natCast]
  unfold ellCore
  rw [if_neg (by norm_num), if_neg (by norm_num), if_neg (by omega)]
  unfold ellDirect ellInnerTheta
  simp only [hort, Bool.false_eq_true, if_false, bind, Except.bind, pure, Except.pure]
  unfold ellSolve
  rw [show max (max 2 8 * 10) 300 = 299 + 1 by norm_num]
  unfold ellLoop ellSweep
  simp only [show 2 - 2 = 0 by rfl, List.range_zero, List.all_nil, if_true, bind, Except.bind]
  rw [if_pos]
  · exact ⟨_, rfl⟩
  · rw [List.all_eq_true]
    intro i hi
    rw [List.all_eq_true]
    intro j _
    rw [List.mem_range] at hi
    rw [decide_eq_true_eq, if_neg (by omega), if_neg (by omega), sub_self, sub_self]
    simpa using htol

/-- **C236** fails: with the default `align=True` the grid does not follow a turn, since the points are always numbered
from the largest `R`. -/
theorem C236_fails (spline : List ℝ → List ℝ → Arr2 ℝ → ℝ → ℝ → ℝ) : ¬ MovesAlong env4 spline true halfTurn := by
  intro h
  have shift0 : ∀ r : ℝ, 0 < r → argmax ((diamond r).map Prod.fst) = 0 := by
    intro r hr
    unfold diamond
    simp [argmax, hr.le]
  have shift2 : ∀ r : ℝ, 0 < r → argmax (((diamond r).map halfTurn.ap).map Prod.fst) = 2 := by
    intro r hr
    unfold diamond halfTurn Similarity.ap
    simp [argmax, hr.le, not_le.2 hr]
  have rot0 : ∀ r : ℝ, rotPts (diamond r) 0 = diamond r := by
    intro r
    simp [rotPts, diamond, ptAt, List.range_succ]
  have rot2 : ∀ r : ℝ, rotPts ((diamond r).map halfTurn.ap) 2 = diamond r := by
    intro r
    simp [rotPts, diamond, ptAt, List.range_succ, halfTurn, Similarity.ap]
  have roll0 : ∀ r : ℝ, 0 < r → (diamondLine 3 r).roll env4 0 = .ok (diamondLine 3 r) := by
    intro r hr
    unfold RZLine.roll
    change RZLine.ofPts env4 (rotPts (diamond r) 0) true none none = _
    rw [rot0, diamondLine_ofPts none hr]
    rfl
  have roll2 : ∀ r : ℝ, 0 < r → (turnedLine r).roll env4 2 = .ok (diamondLine 3 r) := by
    intro r hr
    unfold RZLine.roll
    change RZLine.ofPts env4 (rotPts ((diamond r).map halfTurn.ap) 2) true none none = _
    rw [rot2, diamondLine_ofPts none hr]
    rfl
  have al : ∀ (a b : RZLine ℝ), a.pts.length = b.pts.length →
      a.roll env4 (argmax (a.pts.map Prod.fst)) = .ok (diamondLine 3 1) →
      b.roll env4 (argmax (b.pts.map Prod.fst)) = .ok (diamondLine 3 2) →
      alignLines env4 true a b = .ok (diamondLine 3 1, diamondLine 3 2) := by
    intro a b hab ha hb
    unfold alignLines
    rw [if_neg (by omega)]
    unfold alignPair alignShift
    rw [hb]
    simp only [Except.bind, if_true]
    rw [ha]
  have len : ∀ r : ℝ, (diamondLine 3 r).pts.length = 4 := fun r => rfl
  have len' : ∀ r : ℝ, (turnedLine r).pts.length = 4 := fun r => rfl
  have al1 : alignLines env4 true (diamondLine 3 1) (diamondLine 3 2) = .ok (diamondLine 3 1, diamondLine 3 2) := by
    apply al _ _ (by rw [len, len])
    · have h1 : argmax ((diamondLine 3 1).pts.map Prod.fst) = 0 := shift0 1 (by norm_num)
      rw [h1, roll0 1 (by norm_num)]
    · have h1 : argmax ((diamondLine 3 2).pts.map Prod.fst) = 0 := shift0 2 (by norm_num)
      rw [h1, roll0 2 (by norm_num)]
  have al2 : alignLines env4 true (turnedLine 1) (turnedLine 2) = .ok (diamondLine 3 1, diamondLine 3 2) := by
    apply al _ _ (by rw [len', len'])
    · have h1 : argmax ((turnedLine 1).pts.map Prod.fst) = 2 := shift2 1 (by norm_num)
      rw [h1, roll2 1 (by norm_num)]
    · have h1 : argmax ((turnedLine 2).pts.map Prod.fst) = 2 := shift2 2 (by norm_num)
      rw [h1, roll2 2 (by norm_num)]
  let o : EllOpts ℝ := ⟨1, 20, 2, false, 1⟩
  let t : OrtOpts ℝ := ⟨none, none, 0⟩
  have start : ∀ (o : EllOpts ℝ) (a b : RZLine ℝ), o.innerOrt = false →
      alignLines env4 true a b = .ok (diamondLine 3 1, diamondLine 3 2) →
      gridEllipticLines env4 spline t o true true 1 a b (2 : ℕ) (8 : ℕ) (0 : ℕ) (0 : ℕ) =
        gridElliptic (ellEnvOf env4 spline t (diamondLine 3 1)) o false 1 ((diamondLine 3 1).fn env4)
          ((diamondLine 3 2).fn env4) (2 : ℕ) (8 : ℕ) (0 : ℕ) (0 : ℕ) := by
    intro o a b ho hab
    unfold gridEllipticLines
    rw [if_neg (by norm_num), if_neg (by norm_num), if_neg (by norm_num), if_neg (by norm_num),
      if_pos (by rw [ho]; rfl), hab]
    rfl
  have corner : ∀ (o : EllOpts ℝ) (g : Arr2 ℝ × Arr2 ℝ),
      gridElliptic (ellEnvOf env4 spline t (diamondLine 3 1)) o false 1 ((diamondLine 3 1).fn env4)
          ((diamondLine 3 2).fn env4) (2 : ℕ) (8 : ℕ) (0 : ℕ) (0 : ℕ) = .ok g → g.1 1 0 = 2 := by
    intro o g hg
    obtain ⟨-, -, ti, -, hv⟩ := C51_rows (ellEnvOf env4 spline t (diamondLine 3 1)) o false 1 ((diamondLine 3 1).fn env4)
      ((diamondLine 3 2).fn env4) 2 8 0 0 g.1 g.2 hg
    obtain ⟨-, ⟨a3, -⟩, -⟩ := hv 0 (by norm_num)
    have a : g.1 1 0 = ((diamondLine 3 2).fn env4).Rvalue (2 * Real.pi * ((0 : ℕ) : ℝ) / ((8 : ℕ) : ℝ)) := a3
    rw [a]
    simp [RZLine.fn, RZLine.value, npRem, diamondLine, spline4, val4]
  obtain ⟨g, hg⟩ := twoRows (ellEnvOf env4 spline t (diamondLine 3 1)) o rfl (by norm_num [o]) (by norm_num [o])
    ((diamondLine 3 1).fn env4) ((diamondLine 3 2).fn env4)
  obtain ⟨g', hg', hm⟩ := h t o true 1 (diamondLine 3 1) (turnedLine 1) (diamondLine 3 2) (turnedLine 2) 2 8 0 0 g
    ⟨diamond 1, diamondLine_ofPts none (by norm_num)⟩ ⟨diamond 2, diamondLine_ofPts none (by norm_num)⟩
    (turnedLine_moved 1) (turnedLine_moved 2) (by rw [start o _ _ rfl al1]; exact hg)
  rw [start _ _ _ rfl al2] at hg'
  have h1 := corner _ g hg
  have h2 := corner _ g' hg'
  have h3 := hm.fst (i := 1) (j := 0) (by norm_num) (by norm_num)
  rw [h1, h2] at h3
  norm_num [halfTurn] at h3

/-! ### Examples -/

/-- The splines of `env4` are linear. -/
theorem env4_linear : LinearSplrep env4 := by
  intro o p a b c f g hf hg
  by_cases hp : p.length = 4
  · unfold env4 at hf hg ⊢
    simp only [List.length_map, if_pos hp] at hf hg ⊢
    injection hf with hf
    injection hg with hg
    refine ⟨_, rfl, fun t => ?_⟩
    rw [← hf, ← hg]
    simp only [if_true]
    have hv : ∀ i, val4 (p.map fun q => a * q.1 + b * q.2 + c) i =
        a * val4 (p.map Prod.fst) i + b * val4 (p.map Prod.snd) i + c := by
      intro i
      unfold val4
      have h0 : (i % 4).toNat < p.length := by omega
      rw [List.getD_eq_getElem _ _ (by simpa using h0), List.getD_eq_getElem _ _ (by simpa using h0),
        List.getD_eq_getElem _ _ (by simpa using h0), List.getElem_map, List.getElem_map, List.getElem_map]
    have hc : ∀ i, curv4 (p.map fun q => a * q.1 + b * q.2 + c) i =
        a * curv4 (p.map Prod.fst) i + b * curv4 (p.map Prod.snd) i := by
      intro i
      unfold curv4
      simp only [hv]
      ring
    unfold spline4
    simp only [hv, hc]
    split_ifs <;> ring
  · unfold env4 at hf
    simp only [List.length_map, if_neg hp] at hf
    cases hf

/-- The value at the next mesh point below. -/
def lowerSpline (x z : List K) (A : Arr2 K) (u v : K) : K :=
  A ((x.countP fun a => decide (a ≤ u)) - 1) ((z.countP fun a => decide (a ≤ v)) - 1)

theorem lowerSpline_linear : LinearSpline (lowerSpline (K := K)) := by
  intro x z A B C a b c hx hz h u v
  unfold lowerSpline
  have h1 := List.countP_le_length (p := fun a => decide (a ≤ u)) (l := x)
  have h2 := List.countP_le_length (p := fun a => decide (a ≤ v)) (l := z)
  have h3 := List.length_pos_iff.2 hx
  have h4 := List.length_pos_iff.2 hz
  exact h _ (by omega) _ (by omega)

/-- The hypotheses can be met: a grid between two squares, shifted and doubled. -/
example : MovesAlong env4 lowerSpline true ⟨2, 0, 1, 5, -1⟩ :=
  C236_aligned_partial env4 env4_linear lowerSpline lowerSpline_linear _ rfl rfl (by norm_num)

/-- A quarter turn and a mirror image. -/
example : MovesAlong env4 lowerSpline false ⟨0, 1, -1, 0, 0⟩ :=
  C236_unaligned_partial env4 lowerSpline lowerSpline_linear _
    ⟨by norm_num [Similarity.scale2], by norm_num⟩

/-! ## `grid_annulus` -/

/-- **C236.** `grid_annulus` follows every affine map, not only similarities. -/
theorem C236_annulus (pi : K) (inner outer inner' outer' : LineFn K) (nx nz : ℤ) (a b c d r z : K)
    (hi : ∀ t, inner'.Rvalue t = a * inner.Rvalue t + b * inner.Zvalue t + r ∧
      inner'.Zvalue t = c * inner.Rvalue t + d * inner.Zvalue t + z)
    (ho : ∀ t, outer'.Rvalue t = a * outer.Rvalue t + b * outer.Zvalue t + r ∧
      outer'.Zvalue t = c * outer.Rvalue t + d * outer.Zvalue t + z) :
    gridAnnulus pi inner' outer' nx nz = (gridAnnulus pi inner outer nx nz).map fun g =>
      (fun i j => a * g.1 i j + b * g.2 i j + r, fun i j => c * g.1 i j + d * g.2 i j + z) := by
  unfold gridAnnulus
  split
  · rfl
  split
  · rfl
  simp only [Except.map]
  congr 1
  ext i j
  · dsimp only
    rw [(ho _).1, (hi _).1]
    ring
  · dsimp only
    rw [(ho _).2, (hi _).2]
    ring

/-- Two circles become ellipses. -/
example : gridAnnulus Real.pi ⟨fun t => 2 * Real.cos t, fun t => Real.sin t⟩
    ⟨fun t => 4 * Real.cos t, fun t => 2 * Real.sin t⟩ 5 7 =
    (gridAnnulus Real.pi ⟨Real.cos, Real.sin⟩ ⟨fun t => 2 * Real.cos t, fun t => 2 * Real.sin t⟩ 5 7).map fun g =>
      (fun i j => 2 * g.1 i j + 0 * g.2 i j + 0, fun i j => 0 * g.1 i j + 1 * g.2 i j + 0) :=
  C236_annulus Real.pi _ _ _ _ 5 7 2 0 0 1 0 0 (fun t => ⟨by ring, by ring⟩) fun t => ⟨by ring, by ring⟩

end Zoidberg
