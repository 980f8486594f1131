import Verif.Props.Reversible
import Verif.Props.Laplace
import Verif.Props.Emc3Tracer
import Verif.Props.Spectral
import Verif.Props.FieldData
import Verif.Props.Field
import Mathlib.Tactic.IntervalCases

/-!
# Theorems added after mutations that no theorem had noticed, and C189 to C191
-/

set_option linter.unusedSectionVars false

namespace Zoidberg

/-! ## C189: the base class -/

section
variable {K : Type} [Field K] [LinearOrder K] [IsStrictOrderedRing K]

theorem C189_direction (pts : List (K × K)) (h : pts ≠ []) (y : K) : (baseField (K := K)).slopes y pts = .ok (pts.map fun _ => (0, 0)) := by
  have h1 : (pts.any fun p => decide (|(baseField (K := K)).By p.1 p.2 y| < 1 / 100000000)) = false := by
    rw [List.any_eq_false]
    intro p _
    have : ¬ (|(1 : K)| < 1 / 100000000) := by rw [abs_one]; norm_num
    exact fun h => this (of_decide_eq_true h)
  unfold FieldFns.slopes
  rw [if_neg h, h1]
  simp only [Bool.false_eq_true, if_false]
  congr 1
  apply List.map_congr_left
  intro p _
  simp [FieldFns.slope, baseField]

theorem C189_magnitude (sqrt : K → K) (x z phi : K) : (baseField (K := K)).Bmag sqrt x z phi = sqrt 1 ∧ (baseField (K := K)).Rmaj x z phi = 1 := by
  constructor
  · simp [FieldFns.Bmag, baseField]
  · rfl

end

example : ([(1, 2)] : List (ℚ × ℚ)) ≠ [] := by decide

/-! ## C144: old files -/

/-- **C144.** After a call that succeeds the field is in the file of the new kind, so that another call gives the same, whatever happens to the other
files and to the service. -/
theorem C144_kept {K B : Type} (fmt : K → String) (compute compute' : W7Args K → Except Err B) (files files' : Dict B) (a : W7Args K) (b : B)
    (h : (fieldValues fmt compute files a).2 = .ok b) (hk : files' (a.fname fmt) = (fieldValues fmt compute files a).1 (a.fname fmt)) :
    (fieldValues fmt compute' files' a).2 = .ok b := by
  have hs : (fieldValues fmt compute files a).1 (a.fname fmt) = some b := by
    unfold fieldValues at h ⊢
    cases h1 : files (a.fname fmt) with
    | some c => rw [h1] at h; simp only [Except.ok.injEq] at h; rw [h] at h1; exact h1
    | none =>
      rw [h1] at h
      cases h2 : files (a.fnameOld fmt) with
      | some c => rw [h2] at h; simp only [Except.ok.injEq] at h; rw [h]; simp [Dict.set]
      | none =>
        rw [h2] at h
        dsimp only at h ⊢
        cases h3 : compute a with
        | error e => rw [h3] at h; cases h
        | ok c => rw [h3] at h; simp only [Except.ok.injEq] at h; rw [h]; simp [Dict.set]
  rw [hs] at hk
  unfold fieldValues
  rw [hk]

/-- **C144.** An old file has the arguments without the configuration in its name and ends in `.dat`. -/
theorem C144_old_name (a : W7Args ℚ) (fmt : ℚ → String) (n : ℤ) :
    a.fnameOld fmt = ({ a with configuration := n }).fnameOld fmt ∧ a.fnameOld fmt = "B.w7x." ++ toString a.nx ++ "." ++ toString a.ny ++ "." ++
      toString a.nz ++ "." ++ fmt a.r.1 ++ "-" ++ fmt a.r.2 ++ "." ++ fmt a.phi.1 ++ "-" ++ fmt a.phi.2 ++ "." ++ fmt a.z.1 ++ "-" ++ fmt a.z.2 ++ ".dat" := by
  refine ⟨rfl, ?_⟩
  unfold W7Args.fnameOld W7Args.stem
  simp only [String.append_assoc]

example : (fieldValues (fun _ : ℚ => "x") (fun _ => .ok 1) (fun _ => none) ⟨0, 1, 1, 1, (0, 0), (0, 0), (0, 0)⟩).2.toOption = some 1 := by decide +kernel

/-! ## C191: the cost of a spectral line -/

/-- The minimiser returns half the sum of the squares of the residual at the coefficients it returns, as that of scipy does. -/
def LsCost (ls : LeastSquares) : Prop :=
  ∀ res x0 x c, ls res x0 = .ok (x, c) → ∃ r, res x = .ok r ∧ c = (r.map fun v => v ^ 2).sum / 2

theorem sum_sq_nonneg : ∀ l : List ℝ, 0 ≤ (l.map fun v => v ^ 2).sum
  | [] => by simp
  | a :: l => by rw [List.map_cons, List.sum_cons]; have := sum_sq_nonneg l; positivity

theorem sum_sq_zero : ∀ l : List ℝ, (l.map fun v => v ^ 2).sum = 0 → ∀ v ∈ l, v = 0
  | [], _ => by simp
  | a :: l, h => by
    rw [List.map_cons, List.sum_cons] at h
    have h1 := sum_sq_nonneg l
    have h2 : 0 ≤ a ^ 2 := by positivity
    intro v hv
    rcases List.mem_cons.1 hv with rfl | hv
    · exact pow_eq_zero_iff two_ne_zero |>.1 (by linarith)
    · exact sum_sq_zero l (by linarith) v hv

/-- **C191.** The cost is that of both coordinates: half the sum of the squares of all residuals; it is zero only if both coordinates are met at all points. -/
theorem C191_cost (ls : LeastSquares) (hls : LsCost ls) (R Z dist : List ℝ) (num : ℕ) (s : SpecLine) (h : specInit ls R Z dist num = .ok s) :
    ∃ r z, specErr s.xR R (specFreq dist) = .ok r ∧ specErr s.xZ Z (specFreq dist) = .ok z ∧
      s.cost = ((r ++ z).map fun v => v ^ 2).sum / 2 ∧ (s.cost = 0 → ∀ v ∈ r ++ z, v = 0) := by
  unfold specInit at h
  cases h1 : ls (fun x => specErr x R (specFreq dist)) (List.replicate (2 * num + 1) 0) with
  | error e => rw [h1] at h; cases h
  | ok p =>
    rw [h1] at h
    simp only [Except.bind] at h
    cases h2 : ls (fun x => specErr x Z (specFreq dist)) (List.replicate (2 * num + 1) 0) with
    | error e => rw [h2] at h; cases h
    | ok q =>
      rw [h2] at h
      simp only [Except.map, Except.ok.injEq] at h
      subst h
      obtain ⟨r, hr, hr'⟩ := hls _ _ _ _ h1
      obtain ⟨z, hz, hz'⟩ := hls _ _ _ _ h2
      have e : p.2 + q.2 = ((r ++ z).map fun v => v ^ 2).sum / 2 := by
        rw [hr', hz', List.map_append, List.sum_append]; ring
      refine ⟨r, z, hr, hz, e, ?_⟩
      intro h0
      exact sum_sq_zero _ (by simp only at h0; rw [e] at h0; linarith)

/-- There is such a minimiser: one that stays at the first guess. -/
example : LsCost fun res x0 => (res x0).map fun r => (x0, (r.map fun v => v ^ 2).sum / 2) := by
  intro res x0 x c h
  dsimp only at h
  cases hr : res x0 with
  | error e => rw [hr] at h; cases h
  | ok r =>
    rw [hr] at h
    simp only [Except.map, Except.ok.injEq] at h
    obtain ⟨rfl, rfl⟩ := Prod.mk.inj h
    exact ⟨r, hr, rfl⟩

/-! ## C134: the lines -/

section
variable {K : Type} [Field K] [LinearOrder K] [IsStrictOrderedRing K]

/-- **C134.** There is a row for every point, in their order, which starts with the point and has a position for every plane. -/
theorem C134_rows (locate : K × K → List (PMesh K) → ℤ → ℕ → Except Err (Spot K)) (hl : NoHints locate)
    (firstlast : List (PMesh K) × List (PMesh K)) (p0 : Plane K) (ps : List (Plane K)) :
    ∀ (pts : List (K × K)) (ij : ℤ) (zid : ℕ) (out : List (List (K × K))), emc3Lines locate firstlast p0 ps pts ij zid = .ok out →
      List.Forall₂ (fun rz row => ∃ s l, locate rz p0.meshes (-1) 0 = .ok s ∧ row = rz :: l ∧ List.Forall₂ (fun p o => spotToRz p.meshes s = .ok o) ps l) pts out
  | [], ij, zid, out, h => by
    rw [emc3Lines] at h
    cases h
    exact List.Forall₂.nil
  | rz :: pts, ij, zid, out, h => by
    rw [emc3Lines] at h
    cases h1 : emc3Line locate firstlast p0 ps rz ij zid with
    | error e => rw [h1] at h; cases h
    | ok r =>
      rw [h1] at h
      simp only [Except.bind] at h
      cases h2 : emc3Lines locate firstlast p0 ps pts r.2.2.1 r.2.2.2 with
      | error e => rw [h2] at h; cases h
      | ok rest =>
        rw [h2] at h
        simp only [Except.map, Except.ok.injEq] at h
        subst h
        obtain ⟨hs, l, hl', hf⟩ := C134_start locate hl firstlast p0 ps rz ij zid r.1 r.2 h1
        refine List.Forall₂.cons ⟨r.2, l, ?_, hl', hf⟩ (C134_rows locate hl firstlast p0 ps pts _ _ rest h2)
        rw [← hs]
        exact hl _ _ _ _ _ _

/-- **C134.** The same for the whole function. -/
theorem C134_follow (locate : K × K → List (PMesh K) → ℤ → ℕ → Except Err (Spot K)) (hl : NoHints locate)
    (firstlast : List (PMesh K) × List (PMesh K)) (p0 : Plane K) (ps : List (Plane K)) (x z : FArr K) (out : List (List (K × K)))
    (h : emc3Follow locate firstlast (p0 :: ps) x z = .ok out) :
    x.shape = z.shape ∧ List.Forall₂ (fun rz row => ∃ s l, locate rz p0.meshes (-1) 0 = .ok s ∧ row = rz :: l ∧
      List.Forall₂ (fun p o => spotToRz p.meshes s = .ok o) ps l) (x.data.zip z.data) out := by
  unfold emc3Follow at h
  split_ifs at h with h1 h2
  · cases h
    rw [h2]
    exact ⟨not_not.1 h1, List.Forall₂.nil⟩
  · exact ⟨not_not.1 h1, C134_rows locate hl firstlast p0 ps _ _ _ out h⟩

end

/-! ## C130: one array for both coordinates -/

section
variable {K : Type} [Field K] [LinearOrder K] [IsStrictOrderedRing K]

/-- The direction of a uniform field. -/
def uniformDir (a b : K) (p : List (K × K)) (_y : K) : Except Err (List (K × K)) := .ok (p.map fun _ => (a, b))

theorem newtonDelta_uniform (eps dy a b : K) (he : eps ≠ 0) (q half : K × K) :
    newtonDelta eps dy q half (a, b) (a, b) (a, b) = some (-(1 / 2 * a * dy - q.1 + half.1), -(1 / 2 * b * dy - q.2 + half.2)) := by
  unfold newtonDelta
  simp only [sub_self, zero_div, mul_zero, zero_mul, zero_sub, sub_zero]
  rw [if_neg (by simp [he])]
  norm_num

/-- One pass of the iteration for one point on the diagonal. -/
theorem newtonLoop_same (rtol eps dy y a b : K) (he : eps ≠ 0) (h : K × K) (x : K) (fuel : ℕ) :
    newtonLoop true (uniformDir a b) rtol eps dy y [h] (fuel + 1) [(x, x)] =
      let ex := 1 / 2 * a * dy - x + h.1
      let ez := 1 / 2 * b * dy - x + h.2
      let x' := x + ex + ez
      if ex ^ 2 + ez ^ 2 < rtol then .ok [(x', x')] else newtonLoop true (uniformDir a b) rtol eps dy y [h] fuel [(x', x')] := by
  rw [newtonLoop]
  simp only [uniformDir, Except.bind, List.map_cons, List.map_nil, List.length_cons, List.length_nil, Nat.zero_add, List.range_one,
    List.getD_cons_zero, newtonDelta_uniform eps dy a b he, List.any_cons, List.any_nil, Option.isNone_some, Bool.or_false, Option.getD_some,
    addX, addZ, List.zipWith_cons_cons, List.zipWith_nil_left, List.all_cons, List.all_nil, Bool.and_true, decide_eq_true_eq, if_true, neg_neg, even_two, Even.neg_pow]
  rw [if_neg (by simp), if_neg (by simp)]

/-- **C130 (refutation).** In a uniform field, with one array for both coordinates, the iteration never ends, unless the step is so small that its square is below the tolerance. -/
theorem C130_fails_uniform (rtol eps dy y a b x : K) (he : eps ≠ 0) (hr : rtol ≤ (a * dy) ^ 2 + (b * dy) ^ 2) (fuel : ℕ) :
    revStep true ⟨false, false, false⟩ (uniformDir a b) rtol eps fuel dy [(x, x)] y = .error (.runtime "does not end") := by
  have loop : ∀ n, newtonLoop true (uniformDir a b) rtol eps dy (y + dy) [(x + 1 / 2 * a * dy, x + 1 / 2 * b * dy)] n [(x, x)] = .error (.runtime "does not end") ∧
      newtonLoop true (uniformDir a b) rtol eps dy (y + dy) [(x + 1 / 2 * a * dy, x + 1 / 2 * b * dy)] n [(x + a * dy + b * dy, x + a * dy + b * dy)] =
        .error (.runtime "does not end") := by
    intro n
    induction n with
    | zero => exact ⟨rfl, rfl⟩
    | succ n ih =>
      constructor
      · rw [newtonLoop_same _ _ _ _ _ _ he]
        dsimp only
        have e1 : 1 / 2 * a * dy - x + (x + 1 / 2 * a * dy) = a * dy := by ring
        have e2 : 1 / 2 * b * dy - x + (x + 1 / 2 * b * dy) = b * dy := by ring
        rw [e1, e2, if_neg (not_lt.2 hr)]
        exact ih.2
      · rw [newtonLoop_same _ _ _ _ _ _ he]
        dsimp only
        have e1 : 1 / 2 * a * dy - (x + a * dy + b * dy) + (x + 1 / 2 * a * dy) = -(b * dy) := by ring
        have e2 : 1 / 2 * b * dy - (x + a * dy + b * dy) + (x + 1 / 2 * b * dy) = -(a * dy) := by ring
        have e3 : x + a * dy + b * dy + -(b * dy) + -(a * dy) = x := by ring
        rw [e1, e2, if_neg (by rw [not_lt]; nlinarith), e3]
        exact ih.1
  have := (loop fuel).2
  unfold revStep
  simpa [uniformDir, Except.bind, RevBad.check, addX, addZ] using this

end

example : (1 / 10 : ℚ) ^ 8 ≤ (1 * 1) ^ 2 + (0 * 1) ^ 2 := by norm_num

/-! ## C116: the mean angle -/

section
variable {K : Type} [Field K] [LinearOrder K] [IsStrictOrderedRing K] [FloorRing K]

theorem lapUnroll_eq (pi c u0 : K) (hpi : 0 < pi) : ∀ (x : List K) (u : ℕ → K) (prev : K), (∀ v ∈ x, c ≤ v ∧ v < c + 2 * pi) →
    (∀ i < x.length, ∃ k : ℤ, x.getD i 0 = u i + 2 * pi * k) → c ≤ u0 → u0 < c + 2 * pi → u0 ≤ prev →
    (∀ i < x.length, prev < u i ∧ u i < u0 + 2 * pi) → (∀ i j, i < j → j < x.length → u i < u j) →
    lapUnroll pi prev x = (List.range x.length).map u
  | [], _, _, _, _, _, _, _, _, _ => rfl
  | a :: x, u, prev, hc, hm, h0, h1, hp, hu, hi => by
    obtain ⟨k, hk⟩ := hm 0 (by simp)
    obtain ⟨ha1, ha2⟩ := hc a (by simp)
    obtain ⟨hb1, hb2⟩ := hu 0 (by simp)
    rw [List.getD_cons_zero] at hk
    have ha : (if prev > a then a + 2 * pi else a) = u 0 := by
      have hk1 : -2 < k := by
        by_contra hn
        have : (k : K) ≤ -2 := by exact_mod_cast (by omega : k ≤ -2)
        nlinarith
      have hk2 : k < 1 := by
        by_contra hn
        have : (1 : K) ≤ k := by exact_mod_cast (by omega : 1 ≤ k)
        nlinarith
      have : k = -1 ∨ k = 0 := by omega
      rcases this with rfl | rfl
      · push_cast at hk
        rw [if_pos (by linarith)]
        linarith
      · push_cast at hk
        rw [if_neg (by linarith)]
        linarith
    rw [lapUnroll]
    rw [ha, lapUnroll_eq pi c u0 hpi x (fun i => u (i + 1)) (u 0) (fun v hv => hc v (by simp [hv])) ?_ h0 h1 (by linarith) ?_ ?_]
    · rw [List.length_cons, List.range_succ_eq_map, List.map_cons, List.map_map]
      rfl
    · intro i hi'
      have := hm (i + 1) (by simpa using hi')
      rwa [List.getD_cons_succ] at this
    · intro i hi'
      exact ⟨hi 0 (i + 1) (by omega) (by simpa using hi'), (hu (i + 1) (by simpa using hi')).2⟩
    · intro i j hij hj
      exact hi (i + 1) (j + 1) (by omega) (by simpa using hj)

/-- **C116.** Angles within one turn, of which each is the next one modulo a turn, are made to increase; nothing else changes. -/
theorem C116_unroll (pi c : K) (hpi : 0 < pi) (x : List K) (u : ℕ → K) (hc : ∀ v ∈ x, c ≤ v ∧ v < c + 2 * pi)
    (h0 : u 0 = x.getD 0 0) (hm : ∀ i < x.length, ∃ k : ℤ, x.getD i 0 = u i + 2 * pi * k)
    (hu : ∀ i < x.length, u i < u 0 + 2 * pi) (hi : ∀ i j, i < j → j < x.length → u i < u j) :
    lapUnrollAll pi x = (List.range x.length).map u := by
  cases x with
  | nil => rfl
  | cons a x =>
    rw [List.getD_cons_zero] at h0
    obtain ⟨ha1, ha2⟩ := hc a (by simp)
    rw [lapUnrollAll, lapUnroll_eq pi c a hpi x (fun i => u (i + 1)) a (fun v hv => hc v (by simp [hv])) ?_ ha1 ha2 (le_refl _) ?_ ?_]
    · rw [List.length_cons, List.range_succ_eq_map, List.map_cons, List.map_map, h0]
      rfl
    · intro i hi'
      have := hm (i + 1) (by simpa using hi')
      rwa [List.getD_cons_succ] at this
    · intro i hi'
      rw [← h0]
      exact ⟨hi 0 (i + 1) (by omega) (by simpa using hi'), hu (i + 1) (by simpa using hi')⟩
    · intro i j hij hj
      exact hi (i + 1) (j + 1) (by omega) (by simpa using hj)

theorem sum_linspace_centred (pi m : K) (n : ℕ) (hn : 0 < n) :
    ((linspaceOpen (-pi) pi n).map fun v => m + v + pi / (n : K)).sum = (n : K) * m := by
  have key : ∀ k : ℕ, ((List.range k).map fun i : ℕ => m + (-pi + (i : K) * ((pi - -pi) / (n : K))) + pi / (n : K)).sum =
      k * m - k * pi + (k : K) * (k : K) * (pi / (n : K)) := by
    intro k
    induction k with
    | zero => simp
    | succ k ih =>
      rw [List.range_succ, List.map_append, List.sum_append, ih]
      simp only [List.map_cons, List.map_nil, List.sum_cons, List.sum_nil]
      push_cast
      ring
  unfold linspaceOpen
  rw [List.map_map]
  have := key n
  rw [show ((fun v => m + v + pi / (n : K)) ∘ fun i : ℕ => -pi + (i : K) * ((pi - -pi) / (n : K))) =
    fun i : ℕ => m + (-pi + (i : K) * ((pi - -pi) / (n : K))) + pi / (n : K) from rfl, this]
  have hn' : (n : K) ≠ 0 := by exact_mod_cast hn.ne'
  field_simp
  ring

/-- **C116.** The equally spaced angles are, modulo a turn, angles with the same mean as those after the smoothing, made to increase. -/
theorem C116_mean (pi fac : K) (steps fuel : ℕ) (x0 y : List K) (hne : x0 ≠ []) (h : laplace pi fac steps (some 1) fuel x0 = .ok y) :
    ∃ (n : ℕ) (v : List K), y = v.map (fun t => npRem t (2 * pi)) ∧ v.length = x0.length ∧ v.sum = (lapUnrollAll pi ((lapStep pi fac)^[n] x0)).sum ∧
      ∀ i, i + 1 < v.length → v.getD (i + 1) 0 - v.getD i 0 = 2 * pi / (x0.length : K) := by
  obtain ⟨n, hu⟩ := (laplace_ok h).2.2.2 rfl
  have hlen : 0 < x0.length := List.length_pos_of_ne_nil hne
  have hn0 : (x0.length : K) ≠ 0 := by exact_mod_cast hlen.ne'
  have hl1 : (lapUnrollAll pi ((lapStep pi fac)^[n] x0)).length = x0.length := by
    rw [← iterate_length pi fac n x0]
    cases (lapStep pi fac)^[n] x0 with
    | nil => rfl
    | cons a l => simp [lapUnrollAll, lapUnroll_length]
  unfold lapUniform at hu
  simp only at hu
  split at hu
  · cases hu
  · injection hu with hu
    generalize hx1 : lapUnrollAll pi ((lapStep pi fac)^[n] x0) = x1 at hu hl1
    refine ⟨n, (linspaceOpen (-pi) pi x0.length).map fun v => x1.sum / (x1.length : K) + v + pi / (x0.length : K), ?_, ?_, ?_, ?_⟩
    · rw [← hu]
      congr 1
      apply List.ext_getElem
      · simp [linspaceOpen, hl1]
      · intro i h1 h2
        simp
    · simp [linspaceOpen]
    · rw [sum_linspace_centred pi _ _ hlen, hx1, hl1]
      field_simp
    · intro i hi
      have hi' : i + 1 < x0.length := by simpa [linspaceOpen] using hi
      rw [List.getD_eq_getElem _ _ hi, List.getD_eq_getElem _ _ (by omega)]
      simp only [linspaceOpen, List.getElem_map, List.getElem_range]
      push_cast
      ring

/-! ## C190: the iterations of the solver -/

/-- The grid after so many passes. -/
def sweeps (nx nz : ℕ) (lam dx dz : K) : ℕ → Arr2 K × Arr2 K → Except Err (Arr2 K × Arr2 K)
  | 0, g => .ok g
  | n + 1, g => (ellSweep nx nz lam dx dz g).bind (sweeps nx nz lam dx dz n)

/-- No point moves by the square root of `tol` or more. -/
def Settled (nx nz : ℕ) (tol : K) (a b : Arr2 K × Arr2 K) : Prop :=
  ∀ i < nx, ∀ j < nz, (b.1 i j - a.1 i j) ^ 2 + (b.2 i j - a.2 i j) ^ 2 < tol

theorem settled_iff (nx nz : ℕ) (tol : K) (a b : Arr2 K × Arr2 K) : ((List.range nx).all fun i => (List.range nz).all fun j =>
    decide ((b.1 i j - a.1 i j) ^ 2 + (b.2 i j - a.2 i j) ^ 2 < tol)) = true ↔ Settled nx nz tol a b := by
  simp [Settled, List.all_eq_true]

theorem ellLoop_iff (nx nz : ℕ) (lam dx dz tol : K) : ∀ (n : ℕ) (g r : Arr2 K × Arr2 K), ellLoop nx nz lam dx dz tol n g = .ok r ↔
    ∃ k < n, ∃ a, sweeps nx nz lam dx dz k g = .ok a ∧ sweeps nx nz lam dx dz (k + 1) g = .ok r ∧ Settled nx nz tol a r ∧
      ∀ j < k, ∀ b c, sweeps nx nz lam dx dz j g = .ok b → sweeps nx nz lam dx dz (j + 1) g = .ok c → ¬ Settled nx nz tol b c
  | 0, g, r => by
    constructor
    · intro h; cases h
    · rintro ⟨k, hk, _⟩; omega
  | n + 1, g, r => by
    rw [ellLoop]
    simp only [bind]
    cases hs : ellSweep nx nz lam dx dz g with
    | error e =>
      constructor
      · intro h; cases h
      · rintro ⟨k, -, a, -, h, -⟩
        rw [sweeps, hs] at h
        cases h
    | ok g' =>
      have h1 : sweeps nx nz lam dx dz 1 g = .ok g' := by rw [sweeps, hs]; rfl
      have hsucc : ∀ k, sweeps nx nz lam dx dz (k + 1) g = sweeps nx nz lam dx dz k g' := by intro k; rw [sweeps, hs]; rfl
      simp only [Except.bind]
      by_cases hc : Settled nx nz tol g g'
      · rw [if_pos ((settled_iff _ _ _ _ _).2 hc)]
        constructor
        · intro h
          cases h
          exact ⟨0, by omega, g, rfl, h1, hc, fun j hj => absurd hj (by omega)⟩
        · rintro ⟨k, hk, a, ha, hr, hset, hno⟩
          cases k with
          | zero => rw [h1] at hr; exact hr
          | succ k => exact absurd hc (hno 0 (by omega) g g' rfl h1)
      · rw [if_neg (fun h => hc ((settled_iff _ _ _ _ _).1 h)), ellLoop_iff nx nz lam dx dz tol n g' r]
        constructor
        · rintro ⟨k, hk, a, ha, hr, hset, hno⟩
          refine ⟨k + 1, by omega, a, by rw [hsucc]; exact ha, by rw [hsucc]; exact hr, hset, ?_⟩
          intro j hj b c hb hcc
          cases j with
          | zero =>
            rw [h1] at hcc
            cases hb; cases hcc
            exact hc
          | succ j =>
            rw [hsucc] at hb hcc
            exact hno j (by omega) b c hb hcc
        · rintro ⟨k, hk, a, ha, hr, hset, hno⟩
          cases k with
          | zero =>
            rw [h1] at hr
            cases ha; cases hr
            exact absurd hset hc
          | succ k =>
            refine ⟨k, by omega, a, by rw [← hsucc]; exact ha, by rw [← hsucc]; exact hr, hset, ?_⟩
            intro j hj b c hb hcc
            exact hno (j + 1) (by omega) b c (by rw [hsucc]; exact hb) (by rw [hsucc]; exact hcc)

/-- **C190.** The grid that is returned is that after the first pass in which no point moves by the square root of `tol` or more, and it is
returned if and only if this is one of the first `max(10 max(nx, nz), 300)` passes. -/
theorem C190_first (e : EllEnv K) (o : EllOpts K) (nx nz : ℕ) (g r : Arr2 K × Arr2 K) :
    let theta := linspaceOpen 0 (2 * e.pi) nz
    let xv := linspaceClosed (0 : K) 1 nx
    let sw := sweeps nx nz o.dzRelax (xv.getD 1 0 - xv.getD 0 0) (theta.getD 1 0 - theta.getD 0 0)
    ellSolve e o nx nz g = .ok r ↔ ∃ k, (k < 300 ∨ k < 10 * nx ∨ k < 10 * nz) ∧ ∃ a, sw k g = .ok a ∧ sw (k + 1) g = .ok r ∧ Settled nx nz o.tol a r ∧
      ∀ j < k, ∀ b c, sw j g = .ok b → sw (j + 1) g = .ok c → ¬ Settled nx nz o.tol b c := by
  dsimp only
  unfold ellSolve
  rw [ellLoop_iff]
  have hk : ∀ k, k < max (max nx nz * 10) 300 ↔ (k < 300 ∨ k < 10 * nx ∨ k < 10 * nz) := by
    intro k
    simp only [lt_max_iff]
    rcases max_choice nx nz with h | h <;> rw [h] <;> omega
  constructor
  · rintro ⟨k, h, r⟩; exact ⟨k, (hk k).1 h, r⟩
  · rintro ⟨k, h, r⟩; exact ⟨k, (hk k).2 h, r⟩

/-- **C190.** Otherwise there is a `RuntimeError`. -/
theorem C190_error (e : EllEnv K) (o : EllOpts K) (nx nz : ℕ) (g : Arr2 K × Arr2 K) (er : Err) (h : ellSolve e o nx nz g = .error er) :
    er = .runtime "Failed to converge" := by
  have key : ∀ (lam dx dz tol : K) (n : ℕ) (g : Arr2 K × Arr2 K), ellLoop nx nz lam dx dz tol n g = .error er → er = .runtime "Failed to converge" := by
    intro lam dx dz tol n
    induction n with
    | zero => intro g h; cases h; rfl
    | succ n ih =>
      intro g h
      rw [ellLoop] at h
      simp only [bind] at h
      cases hs : ellSweep nx nz lam dx dz g with
      | error e' =>
        rw [hs] at h
        cases h
        unfold ellSweep at hs
        simp only at hs
        split_ifs at hs
        cases hs
        rfl
      | ok g' =>
        rw [hs] at h
        simp only [Except.bind] at h
        split_ifs at h
        · cases h
        · exact ih g' h
  exact key _ _ _ _ _ _ h

end

/-- The angles 4, 5, 0, 1 (with a turn of 6) become 4, 5, 6, 7. -/
example : lapUnrollAll (3 : ℚ) [4, 5, 0, 1] = [4, 5, 6, 7] := by decide +kernel

example : (∀ v ∈ ([4, 5, 0, 1] : List ℚ), 0 ≤ v ∧ v < 0 + 2 * 3) ∧ (∀ i < 4, ∃ k : ℤ, ([4, 5, 0, 1] : List ℚ).getD i 0 = (4 + (i : ℚ)) + 2 * 3 * k) ∧
    ∀ i < 4, (4 + (i : ℕ) : ℚ) < 4 + 0 + 2 * 3 := by
  refine ⟨by decide +kernel, ?_, ?_⟩
  · intro i hi
    interval_cases i
    · exact ⟨0, by norm_num⟩
    · exact ⟨0, by norm_num⟩
    · exact ⟨-1, by norm_num⟩
    · exact ⟨-1, by norm_num⟩
  · intro i hi
    have : (i : ℚ) < 4 := by exact_mod_cast hi
    linarith

/-- Squares one inside of the other. -/
def exTwoSquares : Arr2 ℚ × Arr2 ℚ :=
  (fun i j => ((i : ℚ) ^ 2 + 1) * [1, 0, -1, 0].getD j 0, fun i j => ((i : ℚ) ^ 2 + 1) * [0, 1, 0, -1].getD j 0)

/-- A pass that is possible, moves points, and settles with a large tolerance but not with a small one. -/
example : (ellLoop 3 4 1 (1 / 2) (1 : ℚ) 100 300 exTwoSquares).toBool = true ∧ (ellLoop 3 4 1 (1 / 2) (1 : ℚ) (1 / 1000) 1 exTwoSquares).toBool = false := by decide +kernel

end Zoidberg
