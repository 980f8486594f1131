import Verif.Props.NearTracer

/-!
# C259 for `FieldTracerReversible`

What `make_maps` gets from the tracer: the entries `[t, x, z, 0]` and `[t, x, z, 1]` of the result for arrays of shape `(n, m)`.
-/

set_option linter.unusedSectionVars false

namespace Zoidberg

open Weights

section
variable {K : Type} [Field K] [LinearOrder K]

/-- An array of shape `(n, m)`. -/
def gridArr (n m : ℕ) (R : ℕ → ℕ → K) : FArr K := ⟨[n, m], (List.range (n * m)).map fun i => R (i / m) (i % m)⟩

/-- `follow_field_lines` of `FieldTracerReversible` returns the array `a` for float arrays of shape `(n, m)`. -/
def RevGives (dir : List (K × K) → K → Except Err (List (K × K))) (rtol eps : K) (N n m : ℕ) (R Z : ℕ → ℕ → K) (ys : List K) (a : FArr K) : Prop :=
  ∃ fuel, ∀ k, ∃ r, followReversible dir rtol eps N (fuel + k) (gridArr n m R) (gridArr n m Z) ⟨[ys.length], ys⟩ ⟨true, false⟩ ⟨true, false⟩ false = .ok r ∧ r.result = a

theorem RevGives.unique {dir : List (K × K) → K → Except Err (List (K × K))} {rtol eps : K} {N n m : ℕ} {R Z : ℕ → ℕ → K} {ys : List K} {a b : FArr K}
    (ha : RevGives dir rtol eps N n m R Z ys a) (hb : RevGives dir rtol eps N n m R Z ys b) : a = b := by
  obtain ⟨f1, h1⟩ := ha
  obtain ⟨f2, h2⟩ := hb
  obtain ⟨r, h3, h4⟩ := h1 f2
  obtain ⟨r', h5, h6⟩ := h2 f1
  rw [Nat.add_comm, h3] at h5
  injection h5 with h5
  rw [← h4, ← h6, h5]

/-- The entries `[t, x, z, 0]` and `[t, x, z, 1]` of an array of shape `(.., n, m, 2)`. -/
def readCoord (n m : ℕ) (a : FArr K) (t x z : ℕ) : K × K := (a.data.getD (((t * n + x) * m + z) * 2) 0, a.data.getD (((t * n + x) * m + z) * 2 + 1) 0)

/-- The environment of `make_maps` has `FieldTracerReversible` for its tracer: where it returns an array, `follow` reads it. -/
def UsesReversible [FloorRing K] (e : MmEnv K) (dir : List (K × K) → K → Except Err (List (K × K))) (rtol eps : K) (N : ℕ) : Prop :=
  ∀ n m R Z ys a, RevGives dir rtol eps N n m R Z ys a → e.follow n m R Z ys = (List.range ys.length).map (readCoord n m a)

theorem interleave_pair (d : K × K) : ∀ (l : List (K × K)) (i : ℕ), i < l.length →
    (interleave l).getD (i * 2) 0 = (l.getD i d).1 ∧ (interleave l).getD (i * 2 + 1) 0 = (l.getD i d).2
  | [], i, h => by simp at h
  | p :: l, 0, _ => ⟨rfl, rfl⟩
  | p :: l, i + 1, h => by
    have := interleave_pair d l i (by simpa using h)
    have e : interleave (p :: l) = p.1 :: p.2 :: interleave l := rfl
    rw [e, show (i + 1) * 2 = i * 2 + 1 + 1 by ring, List.getD_cons_succ, List.getD_cons_succ, List.getD_cons_succ]
    exact ⟨this.1, by rw [List.getD_cons_succ, List.getD_cons_succ]; exact this.2⟩

/-- An entry of the rows laid out one after the other. -/
theorem rows_getD (d : K × K) (w : ℕ) : ∀ (L : List (List (K × K))), (∀ j < L.length, (L.getD j []).length = w) → ∀ (t i : ℕ), t < L.length → i < w →
    (L.flatMap interleave).getD ((t * w + i) * 2) 0 = ((L.getD t []).getD i d).1 ∧ (L.flatMap interleave).getD ((t * w + i) * 2 + 1) 0 = ((L.getD t []).getD i d).2
  | [], _, t, i, h, _ => by simp at h
  | r :: L, hw, 0, i, _, hi => by
    have hr : r.length = w := by simpa using hw 0 (by simp)
    have hl : (interleave r).length = 2 * w := by rw [interleave_length, hr]
    rw [List.flatMap_cons, Nat.zero_mul, Nat.zero_add, List.getD_append _ _ _ _ (by omega), List.getD_append _ _ _ _ (by omega)]
    exact interleave_pair d r i (by omega)
  | r :: L, hw, t + 1, i, ht, hi => by
    have hr : r.length = w := by simpa using hw 0 (by simp)
    have hl : (interleave r).length = 2 * w := by rw [interleave_length, hr]
    have ih := rows_getD d w L (fun j hj => by simpa using hw (j + 1) (by simpa using hj)) t i (by simpa using ht) hi
    have e : ((t + 1) * w + i) * 2 = 2 * w + (t * w + i) * 2 := by ring
    rw [List.flatMap_cons, e, List.getD_append_right _ _ _ _ (by omega), List.getD_append_right _ _ _ _ (by omega), hl,
      show 2 * w + (t * w + i) * 2 - 2 * w = (t * w + i) * 2 by omega, show 2 * w + (t * w + i) * 2 + 1 - 2 * w = (t * w + i) * 2 + 1 by omega, List.getD_cons_succ]
    exact ih

theorem gridArr_getD (n m : ℕ) (R : ℕ → ℕ → K) (x z : ℕ) (hx : x < n) (hz : z < m) : (gridArr n m R).data.getD (x * m + z) 0 = R x z := by
  have hlt : x * m + z < n * m := by
    calc x * m + z < x * m + m := by omega
      _ = (x + 1) * m := by ring
      _ ≤ n * m := Nat.mul_le_mul_right _ hx
  unfold gridArr
  rw [List.getD_eq_getElem _ _ (by simpa using hlt)]
  simp only [List.getElem_map, List.getElem_range]
  have h1 : (x * m + z) / m = x := by
    rw [Nat.mul_comm, Nat.mul_add_div (by omega), Nat.div_eq_of_lt hz, Nat.add_zero]
  have h2 : (x * m + z) % m = z := by
    rw [Nat.mul_comm, Nat.mul_add_mod, Nat.mod_eq_of_lt hz]
  rw [h1, h2]

/-- There is such an environment for any grid and field. -/
theorem exists_reversible [FloorRing K] (e : MmEnv K) (dir : List (K × K) → K → Except Err (List (K × K))) (rtol eps : K) (N : ℕ) :
    ∃ follow, UsesReversible { e with follow := follow } dir rtol eps N ∧ FollowOk { e with follow := follow } := by
  classical
  refine ⟨fun n m R Z ys => if h : ∃ a, RevGives dir rtol eps N n m R Z ys a then (List.range ys.length).map (readCoord n m h.choose) else ys.map fun _ x z => (R x z, Z x z), ?_, ?_⟩
  · intro n m R Z ys a ha
    have h : ∃ a, RevGives dir rtol eps N n m R Z ys a := ⟨a, ha⟩
    show (if h : ∃ a, RevGives dir rtol eps N n m R Z ys a then (List.range ys.length).map (readCoord n m h.choose) else ys.map fun _ x z => (R x z, Z x z)) = _
    rw [dif_pos h, h.choose_spec.unique ha]
  · intro n m R Z ys
    show (if h : ∃ a, RevGives dir rtol eps N n m R Z ys a then (List.range ys.length).map (readCoord n m h.choose) else ys.map fun _ x z => (R x z, Z x z)).length = _
    split_ifs <;> simp

end

/-- The field lines of a direction `f`: `φ R Z a s` is the position at `s` on the line that is at `(R, Z)` at `a`; `M` bounds the third derivatives. -/
structure FlowOf (f : ℝ × ℝ → ℝ → ℝ × ℝ) (φ : ℝ → ℝ → ℝ → ℝ → ℝ × ℝ) (M : ℝ) : Prop where
  line : ∀ R Z a, FieldLine f (φ R Z a)
  start : ∀ R Z a, φ R Z a a = (R, Z)
  smooth : ∀ R Z a, (ContDiff ℝ 3 fun s => (φ R Z a s).1) ∧ ContDiff ℝ 3 fun s => (φ R Z a s).2
  third : ∀ R Z a s, |iteratedDeriv 3 (fun s => (φ R Z a s).1) s| ≤ M ∧ |iteratedDeriv 3 (fun s => (φ R Z a s).2) s| ≤ M

/-- The accuracy of the positions one plane away: `Λ` is the Lipschitz constant of the direction, `D` half the distance of the planes, `N` the number of sub-steps. -/
noncomputable def revError (rtol Λ D M : ℝ) (N : ℕ) : ℝ := (3 / 2 * √rtol + 5 / 12 * M * (D / N) ^ 2 / Λ) * (Real.exp (16 / 7 * Λ * D) - 1)

/-- **C259.** With `FieldTracerReversible`, the accuracy of the tracer in `C259_row` and `C259_derivative` is `revError`: of second order in the length of the sub-steps. -/
theorem C259_reversible (e : MmEnv ℝ) (f : ℝ × ℝ → ℝ → ℝ × ℝ) (Λ : ℝ) (hΛ : 0 < Λ) (hf : Lip f Λ) (dir : List (ℝ × ℝ) → ℝ → Except Err (List (ℝ × ℝ)))
    (hdir : Pointwise dir f) (rtol eps D M : ℝ) (hr : 0 < rtol) (he : eps ≠ 0) (N : ℕ) (hN : N ≠ 0) (hD : D / N * Λ ≤ 1 / 4)
    (φ : ℝ → ℝ → ℝ → ℝ → ℝ × ℝ) (hφ : FlowOf f φ M) (hu : UsesReversible e dir rtol eps N) : TracesNear e φ D (revError rtol Λ D M N) := by
  intro n m R Z a b c hab hbc coord hc x hx z hz
  have hlen : ∀ R : ℕ → ℕ → ℝ, (gridArr n m R).data.length = n * m := fun R => by simp [gridArr]
  have hok : ∀ R : ℕ → ℕ → ℝ, (gridArr n m R).Ok := fun R => by simp [FArr.Ok, gridArr]
  have hnm : 0 < n * m := Nat.mul_pos (by omega) (by omega)
  have hsh : ∀ R : ℕ → ℕ → ℝ, shape1 (gridArr n m R) = [n, m] := fun R => by simp [shape1, gridArr]
  have hxz : x * m + z < n * m := by
    calc x * m + z < x * m + m := by omega
      _ = (x + 1) * m := by ring
      _ ≤ n * m := Nat.mul_le_mul_right _ hx
  obtain ⟨fuel, rows, h1, h2, h3⟩ := C244_accurate f Λ hΛ hf dir hdir rtol eps D M hr he N hN hD (gridArr n m R) (gridArr n m Z) [a, b, c] (hok R) (hok Z)
    (by rw [hsh, hsh]) (by intro h0; have := hlen R; rw [h0] at this; simp at this; omega) (by simp)
    (List.isChain_cons_cons.2 ⟨hab, List.isChain_cons_cons.2 ⟨hbc, by simp⟩⟩) ⟨true, false⟩ ⟨true, false⟩ rfl rfl Set.univ Set.ordConnected_univ (fun _ _ => Set.mem_univ _)
    (fun i => φ ((gridArr n m R).data.getD i 0) ((gridArr n m Z).data.getD i 0) a) (fun i _ => hφ.line _ _ _) (fun i _ => hφ.start _ _ _)
    (fun i _ => (hφ.smooth _ _ _).1) (fun i _ => (hφ.smooth _ _ _).2) (fun i _ s _ => (hφ.third _ _ _ s).1) (fun i _ s _ => (hφ.third _ _ _ s).2)
  have hg : RevGives dir rtol eps N n m R Z [a, b, c] ⟨[3] ++ [n, m] ++ [2], rows.flatMap interleave⟩ := by
    refine ⟨fuel, fun k => ?_⟩
    obtain ⟨r, g1, g2⟩ := h2 k
    exact ⟨r, g1, by rw [g2, hsh]; rfl⟩
  rw [hu n m R Z [a, b, c] _ hg] at hc
  have hc' : readCoord n m (⟨[3] ++ [n, m] ++ [2], rows.flatMap interleave⟩ : FArr ℝ) 2 = coord := by simpa using hc
  obtain ⟨hl2, hn2⟩ := h3 2 (by simp)
  have key := hn2 (x * m + z) (by rw [hlen]; exact hxz)
  have hrow := rows_getD (0, 0) (n * m) rows (fun j hj => by rw [(h3 j (by rw [← h1]; exact hj)).1, hlen]) 2 (x * m + z) (by rw [h1]; simp) hxz
  have ec : coord x z = (rows.getD 2 []).getD (x * m + z) (0, 0) := by
    rw [← hc']
    unfold readCoord
    have e : (2 * n + x) * m + z = 2 * (n * m) + (x * m + z) := by ring
    rw [e]
    exact Prod.ext hrow.1 hrow.2
  rw [ec]
  rw [gridArr_getD n m R x z hx hz, gridArr_getD n m Z x z hx hz] at key
  refine key.mono (le_of_eq ?_)
  unfold revError
  congr 3
  push_cast
  ring

/-- The hypotheses can be met: field lines that rise by 1/2 for each unit of `y`, on the grid of `driftMm`. -/
theorem driftFlow : FlowOf (fun _ _ => (1 / 2, 0)) driftLine 0 where
  line := by
    intro R Z a y
    constructor
    · have : (fun s => (driftLine R Z a s).1) = fun s => 1 / 2 * s + (R - 1 / 2 * a) := by
        funext s; simp only [driftLine]; ring
      rw [this]
      have := ((hasDerivAt_id y).const_mul (1 / 2 : ℝ)).add_const (R - 1 / 2 * a)
      rw [mul_one] at this
      exact this
    · exact hasDerivAt_const y Z
  start := by intro R Z a; simp [driftLine]
  smooth := by
    intro R Z a
    constructor
    · have : (fun s => (driftLine R Z a s).1) = fun s => 1 / 2 * s + (R - 1 / 2 * a) := by
        funext s; simp only [driftLine]; ring
      rw [this]
      fun_prop
    · exact contDiff_const
  third := by
    intro R Z a s
    constructor
    · have : (fun s => (driftLine R Z a s).1) = fun s => 1 / 2 * s + (R - 1 / 2 * a) := by
        funext s; simp only [driftLine]; ring
      rw [this, line_third]
      simp
    · have : (fun s => (driftLine R Z a s).2) = fun _ : ℝ => Z := rfl
      rw [this, iteratedDeriv_const]
      simp

example : ∃ follow, NearEnv { driftMm with follow := follow } driftPol driftLine (1 / 2) (revError (1 / 10 ^ 10) (1 / 2) (1 / 2) 0 1) := by
  obtain ⟨follow, hu, hk⟩ := exists_reversible driftMm (fun p _ => .ok (p.map fun _ => ((1 / 2 : ℝ), 0))) (1 / 10 ^ 10) (1 / 10 ^ 5) 1
  refine ⟨follow, hk, ?_, driftMm_near.pols, driftMm_near.half, driftMm_near.dR, driftMm_near.dZ⟩
  refine C259_reversible _ (fun _ _ => (1 / 2, 0)) (1 / 2) (by norm_num) ?_ _ (fun _ _ _ => rfl) _ _ _ _ (by norm_num) (by norm_num) 1 (by norm_num) (by norm_num) _ driftFlow hu
  intro e q q' y h
  have : 0 ≤ e := (abs_nonneg _).trans h.1
  constructor <;> simp <;> linarith

end Zoidberg
