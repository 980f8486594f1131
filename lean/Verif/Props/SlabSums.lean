import Verif.Props.EndToEnd
import Mathlib.Tactic.LinearCombination

/-!
# C250: sums over z in a slab
-/

set_option linter.unusedSectionVars false

namespace Zoidberg

open Weights

variable {K : Type} [Field K] [LinearOrder K] [IsStrictOrderedRing K] [FloorRing K]

/-! ### Periodic functions -/

theorem sum_periodic_succ (n : ℕ) (V : ℤ → K) (hV : ∀ k, V (k + n) = V k) (c : ℤ) :
    ∑ z ∈ Finset.range n, V ((z : ℤ) + (c + 1)) = ∑ z ∈ Finset.range n, V ((z : ℤ) + c) := by
  have h1 := Finset.sum_range_succ (fun z : ℕ => V ((z : ℤ) + c)) n
  have h2 := Finset.sum_range_succ' (fun z : ℕ => V ((z : ℤ) + c)) n
  have e : V (((n : ℕ) : ℤ) + c) = V (((0 : ℕ) : ℤ) + c) := by
    have := hV c
    rw [add_comm] at this
    rw [this]
    simp
  have e2 : ∀ z : ℕ, V (((z + 1 : ℕ) : ℤ) + c) = V ((z : ℤ) + (c + 1)) := by
    intro z
    congr 1
    push_cast
    ring
  simp only [e2] at h2
  rw [h1, e] at h2
  exact (add_right_cancel h2).symm

/-- A sum over one period does not depend on where it starts. -/
theorem sum_periodic (n : ℕ) (V : ℤ → K) (hV : ∀ k, V (k + n) = V k) (c : ℤ) :
    ∑ z ∈ Finset.range n, V ((z : ℤ) + c) = ∑ z ∈ Finset.range n, V (z : ℤ) := by
  induction c using Int.induction_on with
  | zero => simp
  | succ i ih => rw [sum_periodic_succ n V hV, ih]
  | pred i ih =>
    rw [← ih, ← sum_periodic_succ n V hV]
    congr 1
    funext z
    congr 1
    ring

/-- The interpolation at `t` that the code makes: the base is `int(t)`. -/
def codeSpline (V : ℤ → K) (t : K) : K := catmullRomSpline (fun oz => V (pyInt t + oz)) (t - (pyInt t : K))

/-- If all cells use the same stencil, the sum is conserved. -/
theorem sum_same_stencil (n : ℕ) (V : ℤ → K) (hV : ∀ k, V (k + n) = V k) (B : ℤ) (f : K) :
    ∑ z ∈ Finset.range n, catmullRomSpline (fun oz => V ((z : ℤ) + B + oz)) f = ∑ z ∈ Finset.range n, V (z : ℤ) := by
  have s := fun k => sum_periodic n V hV (B + k)
  have e : ∀ z : ℕ, catmullRomSpline (fun oz => V ((z : ℤ) + B + oz)) f =
      (f / 2 * (-1 + f * (2 - f))) * V ((z : ℤ) + (B + -1)) + (1 + f / 2 * (f * (-5 + 3 * f))) * V ((z : ℤ) + (B + 0)) +
        (f / 2 * (1 + f * (4 - 3 * f))) * V ((z : ℤ) + (B + 1)) + (f / 2 * (f * (-1 + f))) * V ((z : ℤ) + (B + 2)) := by
    intro z
    unfold catmullRomSpline
    simp only [add_assoc]
    ring
  simp only [e, Finset.sum_add_distrib, ← Finset.mul_sum, s]
  ring

/-- What the two stencils differ by. -/
theorem stencil_diff (V : ℤ → K) (n : ℤ) (f a b : K) (ha : a = f * (1 - f) ^ 2 / 2) (hb : b = (1 - f) ^ 2 * (2 - f) / 2) (U : ℤ → K)
    (hU : ∀ k, U k = a * V k + b * V (k + 1)) :
    catmullRomSpline (fun oz => V (n + 1 + oz)) (f - 1) - catmullRomSpline (fun oz => V (n + oz)) f =
      (U (n - 1) - 2 * U n + U (n + 1)) - (U n - 2 * U (n + 1) + U (n + 2)) := by
  rw [hU, hU, hU, hU, ha, hb]
  unfold catmullRomSpline
  have e1 : n + 1 + -1 = n := by ring
  have e2 : n + 1 + 1 = n + 2 := by ring
  have e3 : n + 1 + 2 = n + 3 := by ring
  have e4 : n - 1 + 1 = n := by ring
  have e5 : n + 2 + 1 = n + 3 := by ring
  have e6 : n + -1 = n - 1 := by ring
  simp only [e1, e2, e3, e4, e5, e6, add_zero]
  ring

/-- Telescoping. -/
theorem sum_telescope (E : ℤ → K) (B : ℤ) (m : ℕ) :
    ∑ z ∈ Finset.range m, (E ((z : ℤ) + B) - E ((z : ℤ) + B + 1)) = E B - E (B + m) := by
  induction m with
  | zero => simp
  | succ m ih =>
    rw [Finset.sum_range_succ, ih]
    have : (m : ℤ) + B = B + m := by ring
    rw [this]
    push_cast
    have : B + (m : ℤ) + 1 = B + (m + 1) := by ring
    rw [this]
    ring

/-- The test function: powers that jump at `B + 1`. -/
def jumpPower (n : ℕ) (B : ℤ) (r : K) (k : ℤ) : K := r ^ ((k - B - 1) % (n : ℤ)).toNat

theorem jumpPower_periodic (n : ℕ) (B : ℤ) (r : K) (k : ℤ) : jumpPower n B r (k + n) = jumpPower n B r k := by
  unfold jumpPower
  have : k + (n : ℤ) - B - 1 = k - B - 1 + n := by ring
  rw [this, Int.add_emod_right]

theorem jumpPower_step (n : ℕ) (hn : 2 ≤ n) (B : ℤ) (a b : K) (hb : b ≠ 0) (k : ℤ) :
    a * jumpPower n B (-(a / b)) k + b * jumpPower n B (-(a / b)) (k + 1) =
      if (k - B - 1) % (n : ℤ) = n - 1 then a * (-(a / b)) ^ (n - 1) + b else 0 := by
  unfold jumpPower
  have hn0 : (0 : ℤ) < n := by omega
  have h0 := Int.emod_nonneg (k - B - 1) hn0.ne'
  have h1 := Int.emod_lt_of_pos (k - B - 1) hn0
  have hd := Int.emod_add_mul_ediv (k - B - 1) n
  have e : k + 1 - B - 1 = (k - B - 1) % n + 1 + n * ((k - B - 1) / n) := by linarith
  rw [e, Int.add_mul_emod_self_left]
  generalize (k - B - 1) % (n : ℤ) = q at *
  split_ifs with hq
  · rw [hq, sub_add_cancel, Int.emod_self]
    have : ((n : ℤ) - 1).toNat = n - 1 := by omega
    rw [this]
    simp
  · rw [Int.emod_eq_of_lt (by omega) (by omega)]
    have : (q + 1).toNat = q.toNat + 1 := by omega
    rw [this, pow_succ]
    field_simp
    ring

theorem pyInt_add_nat (z : ℕ) (s : K) (h : 0 ≤ (z : K) + s ∨ (⌊s⌋ : K) = s) : pyInt ((z : K) + s) = (z : ℤ) + ⌊s⌋ := by
  unfold pyInt
  split_ifs with h0
  · rw [Int.floor_natCast_add]
  · rcases h with h | h
    · contradiction
    · rw [← h]
      have : ((z : K) + ((⌊s⌋ : ℤ) : K)) = (((z : ℤ) + ⌊s⌋ : ℤ) : K) := by push_cast; ring
      rw [this, Int.ceil_intCast, Int.floor_intCast]

theorem pyInt_nonpos {t : K} (h : t ≤ 0) : pyInt t = ⌈t⌉ := by
  unfold pyInt
  split_ifs with h0
  · have : t = 0 := le_antisymm h h0
    rw [this]
    simp
  · rfl

/-- The exact condition for functions with period `n`. -/
theorem sum_codeSpline (n : ℕ) (hn : 1 ≤ n) (s : K) :
    (∀ V : ℤ → K, (∀ k, V (k + n) = V k) →
      ∑ z ∈ Finset.range n, codeSpline V ((z : K) + s) = ∑ z ∈ Finset.range n, V (z : ℤ)) ↔
    (0 ≤ s ∨ (⌊s⌋ : K) = s ∨ s ≤ 1 - (n : K)) := by
  have same : ∀ (B : ℤ) (V : ℤ → K), (∀ k, V (k + n) = V k) → (∀ z < n, pyInt ((z : K) + s) = (z : ℤ) + B) →
      ∑ z ∈ Finset.range n, codeSpline V ((z : K) + s) = ∑ z ∈ Finset.range n, V (z : ℤ) := by
    intro B V hV hB
    rw [← sum_same_stencil n V hV B (s - (B : K))]
    apply Finset.sum_congr rfl
    intro z hz
    unfold codeSpline
    rw [hB z (Finset.mem_range.1 hz)]
    congr 1
    push_cast
    ring
  constructor
  · intro hall
    by_contra hc
    push Not at hc
    obtain ⟨hs0, hw, hs1⟩ := hc
    have hf1 := Int.floor_le s
    have hf2 := Int.lt_floor_add_one s
    have hlt : (⌊s⌋ : K) < s := lt_of_le_of_ne hf1 hw
    set B := ⌊s⌋ with hB
    have hBneg : B < 0 := by
      have : (B : K) < 0 := by linarith
      exact_mod_cast this
    have hBn : 1 - (n : ℤ) ≤ B := by
      have : (1 - (n : ℤ)) < B + 1 := by
        have : ((1 - (n : ℤ) : ℤ) : K) < ((B + 1 : ℤ) : K) := by push_cast; linarith
        exact_mod_cast this
      omega
    obtain ⟨m, hm⟩ : ∃ m : ℕ, (m : ℤ) = -B := ⟨(-B).toNat, by omega⟩
    have hn2 : 2 ≤ n := by omega
    set f := s - (B : K) with hf
    have f0 : 0 < f := by linarith
    have f1 : f < 1 := by linarith
    set a := f * (1 - f) ^ 2 / 2 with ha
    set b := (1 - f) ^ 2 * (2 - f) / 2 with hb
    have hsq : 0 < (1 - f) ^ 2 := by
      have : 0 < 1 - f := by linarith
      positivity
    have a0 : 0 < a := by rw [ha]; positivity
    have hab : a < b := by
      rw [ha, hb]
      have : 0 < (1 - f) ^ 2 * (2 - f - f) := mul_pos hsq (by linarith)
      linarith [this, mul_comm f ((1 - f) ^ 2)]
    have b0 : 0 < b := a0.trans hab
    set r := -(a / b) with hr
    let V := jumpPower n B r
    have hV : ∀ k, V (k + n) = V k := jumpPower_periodic n B r
    let C := a * r ^ (n - 1) + b
    have hC : 0 < C := by
      have h1 : |r ^ (n - 1)| ≤ 1 := by
        rw [abs_pow]
        apply pow_le_one₀ (abs_nonneg _)
        rw [hr, abs_neg, abs_of_pos (div_pos a0 b0), div_le_one b0]
        exact hab.le
      have h2 := (abs_le.1 h1).1
      have h3 : -a ≤ a * r ^ (n - 1) := by
        have := mul_le_mul_of_nonneg_left h2 a0.le
        linarith
      show 0 < a * r ^ (n - 1) + b
      linarith
    let U : ℤ → K := fun k => a * V k + b * V (k + 1)
    have hU : ∀ k, U k = if (k - B - 1) % (n : ℤ) = n - 1 then C else 0 := fun k =>
      jumpPower_step n hn2 B a b b0.ne' k
    let E : ℤ → K := fun k => U (k - 1) - 2 * U k + U (k + 1)
    have hsplit : ∑ z ∈ Finset.range n, codeSpline V ((z : K) + s) =
        ∑ z ∈ Finset.range n, catmullRomSpline (fun oz => V ((z : ℤ) + B + oz)) f +
          ∑ z ∈ Finset.range m, (E ((z : ℤ) + B) - E ((z : ℤ) + B + 1)) := by
      have hd : ∀ z ∈ Finset.range n, codeSpline V ((z : K) + s) =
          catmullRomSpline (fun oz => V ((z : ℤ) + B + oz)) f +
            if z < m then E ((z : ℤ) + B) - E ((z : ℤ) + B + 1) else 0 := by
        intro z _
        unfold codeSpline
        split_ifs with hz
        · have hzB : (z : ℤ) + B + 1 ≤ 0 := by omega
          have hzK : (z : K) + (B : K) + 1 ≤ 0 := by exact_mod_cast hzB
          have hce : ⌈(z : K) + s⌉ = (z : ℤ) + B + 1 := by
            rw [Int.ceil_eq_iff]
            push_cast
            constructor <;> linarith
          rw [pyInt_nonpos (by linarith), hce]
          have e1 : (z : K) + s - (((z : ℤ) + B + 1 : ℤ) : K) = f - 1 := by
            push_cast; rw [hf]; ring
          rw [e1]
          have := stencil_diff V ((z : ℤ) + B) f a b ha hb U (fun _ => rfl)
          have e2 : (z : ℤ) + B + 1 + 1 = (z : ℤ) + B + 2 := by ring
          have e3 : (z : ℤ) + B + 1 - 1 = (z : ℤ) + B := by ring
          simp only [E, e2, e3]
          linear_combination this
        · have hzB : 0 ≤ (z : ℤ) + B := by omega
          have hzK : 0 ≤ (z : K) + (B : K) := by exact_mod_cast hzB
          rw [pyInt_add_nat z s (Or.inl (by linarith)), add_zero]
          have e1 : (z : K) + s - (((z : ℤ) + ⌊s⌋ : ℤ) : K) = f := by
            push_cast; rw [hf]; ring
          rw [e1]
      rw [Finset.sum_congr rfl hd, Finset.sum_add_distrib]
      congr 1
      rw [← Finset.sum_filter]
      apply Finset.sum_congr _ (fun _ _ => rfl)
      ext z
      simp only [Finset.mem_filter, Finset.mem_range]
      constructor
      · exact fun h => h.2
      · intro h; exact ⟨by omega, h⟩
    have hv := hall V hV
    rw [hsplit, sum_same_stencil n V hV, sum_telescope] at hv
    have hzero : E B - E (B + m) = 0 := by linarith
    have hBm : B + (m : ℤ) = 0 := by omega
    rw [hBm] at hzero
    have hUn : ∀ k, 0 ≤ U k := by
      intro k
      rw [hU]
      split_ifs
      · exact hC.le
      · exact le_refl _
    have u1 : U B = C := by
      rw [hU, if_pos]
      have : B - B - 1 = (n : ℤ) - 1 + n * (-1) := by ring
      rw [this, Int.add_mul_emod_self_left, Int.emod_eq_of_lt (by omega) (by omega)]
    have u2 : U (B - 1) = 0 := by
      rw [hU, if_neg]
      have : B - 1 - B - 1 = (n : ℤ) - 2 + n * (-1) := by ring
      rw [this, Int.add_mul_emod_self_left, Int.emod_eq_of_lt (by omega) (by omega)]
      omega
    have u3 : U (B + 1) = 0 := by
      rw [hU, if_neg]
      have : B + 1 - B - 1 = 0 := by ring
      rw [this, Int.zero_emod]
      omega
    have u4 : U 0 = 0 := by
      rw [hU, if_neg]
      rw [Int.emod_eq_of_lt (by omega) (by omega)]
      omega
    have p1 := hUn (0 - 1)
    have p2 := hUn (0 + 1)
    simp only [E] at hzero
    rw [u1, u2, u3, u4] at hzero
    linarith
  · rintro (h | h | h) V hV
    · exact same ⌊s⌋ V hV fun z _ => pyInt_add_nat z s (Or.inl (by positivity))
    · exact same ⌊s⌋ V hV fun z _ => pyInt_add_nat z s (Or.inr h)
    · refine same ⌈s⌉ V hV fun z hz => ?_
      have hz' : (z : K) + 1 ≤ n := by exact_mod_cast hz
      rw [pyInt_nonpos (by linarith), Int.ceil_natCast_add]

/-! ### The rows of a slab -/

section Slab

variable {e : MmEnv K} {g : RectPol K} {By Bz xc Bzp : K} (se : SlabEnv e g By Bz xc Bzp)
  {mxg r nc : ℕ} {empty : JState K} {m : ODict (MapVal K)} (h : makeMaps e 1 mxg 1 r nc empty = .ok m)
  {i : Input K} (hi : ReadFrom e mxg 1 m g.mapPol i)

include se h hi in
/-- The row of a cell for every shift. -/
theorem slab_row (jc : ℕ → ℤ) (jw : ℕ → K) (hm : 2 * mxg ≤ g.nx) (o : Ops K)
    (ho : calculateOps jc jw (asMapDict g.nx e.grid.ny g.nz 1 m) = .ok o) (fwd : Bool) (x j z : ℕ) (hx1 : mxg ≤ x) (hx2 : x + mxg < g.nx)
    (hj : j < e.grid.ny) (hz : z < g.nz) (p : MapPol K) (y yt : K) (hy : e.grid.getPoloidalGrid (j : K) = .ok (some p, y))
    (p' : MapPol K) (hy' : e.grid.getPoloidalGrid ((j : K) + (stepOf fwd : K)) = .ok (some p', yt)) (v : ℤ → K) :
    applyRow ((o.legs fwd).op.row ((o.legs fwd).legInterior (x, j, z)).toNat) v =
      codeSpline (fun k => v (o.cellNumber (x, i.plane fwd j, (k % (g.nz : ℤ)).toNat)))
        ((z : K) + slabShift g By Bz xc Bzp x (yt - y)) := by
  obtain ⟨px, pz⟩ := C208_positions se h hi fwd x j z hj p y yt hy p' hy'
  generalize slabShift g By Bz xc Bzp x (yt - y) = s at *
  have hnx : i.nx = g.nx := hi.enx
  have hnz : i.nz = g.nz := hi.enz
  have hn : i.n = 1 := by rw [hi.en]; norm_num
  have hc : i.Interior (x, j, z) := by
    refine ⟨by rw [hi.emxg]; exact hx1, by rw [hi.emxg, hnx]; exact hx2, by rw [hi.eny]; exact hj, by rw [hnz]; exact hz⟩
  have hne : ¬ i.Escapes (i.xs fwd (x, j, z) 0) := by
    rw [px]
    unfold Input.Escapes
    rw [hi.emxg, hnx]
    push Not
    have a : (x : K) + mxg + 1 ≤ g.nx := by exact_mod_cast hx2
    exact ⟨by exact_mod_cast hx1, by linarith⟩
  have hs : i.SomeStay fwd (x, j, z) := ⟨0, by omega, hne⟩
  have hst : i.staying fwd (x, j, z) = {0} := by
    unfold Input.staying
    rw [hn]
    ext t
    simp only [Finset.mem_filter, Finset.mem_range, Finset.mem_singleton]
    constructor
    · rintro ⟨h, -⟩; omega
    · rintro rfl; exact ⟨by omega, hne⟩
  have hw0 : 0 < i.w.getD 0 0 := by
    have hl : 0 < i.w.length := by rw [hi.good.len, hn]; norm_num
    rw [List.getD_eq_getElem _ _ hl]
    exact hi.good.pos _ (List.getElem_mem hl)
  have hclear : ∀ s ∈ i.staying fwd (x, j, z), i.NoneSkipped (i.xs fwd (x, j, z) s) := by
    rw [hst]
    simp only [Finset.mem_singleton, forall_eq]
    rw [px]
    exact noneSkipped_of_clear _ _ (Or.inl (by simp))
  have hm' : 2 * i.mxg ≤ i.nx := by rw [hi.emxg, hnx]; exact hm
  rw [C13_row_any_z jc jw _ i hi.repr hm' hi.good o ho fwd _ hc hs hclear v, hst, Finset.sum_singleton, Finset.sum_singleton, px, pz,
    mul_comm, mul_div_assoc, div_self hw0.ne', mul_one]
  unfold Input.interpFrom codeSpline
  have hcl : i.clampX (x : ℤ) = x := by
    have := hc.1
    have := hc.2.1
    unfold Input.clampX; omega
  simp only [Int.floor_natCast, Int.cast_natCast, sub_self, spline_zero, add_zero, hcl, hnz]

/-- **C250**, the claim: the sum over z of the results of an operator is the sum of the values. -/
def SumConserved (o : Ops K) (fwd : Bool) (x j y nz : ℕ) : Prop :=
  ∀ v : ℤ → K, ∑ z ∈ Finset.range nz, applyRow ((o.legs fwd).op.row ((o.legs fwd).legInterior (x, j, z)).toNat) v =
    ∑ z ∈ Finset.range nz, v (o.cellNumber (x, y, z))

include se h hi in
/-- **C250**, exactly when: the shift is not negative, or whole, or so far down that all field lines end at negative z. -/
theorem C250_iff (jc : ℕ → ℤ) (jw : ℕ → K) (hm : 2 * mxg ≤ g.nx) (hnz : 1 ≤ g.nz) (o : Ops K)
    (ho : calculateOps jc jw (asMapDict g.nx e.grid.ny g.nz 1 m) = .ok o) (fwd : Bool) (x j : ℕ) (hx1 : mxg ≤ x) (hx2 : x + mxg < g.nx)
    (hj : j < e.grid.ny) (p : MapPol K) (y yt : K) (hy : e.grid.getPoloidalGrid (j : K) = .ok (some p, y))
    (p' : MapPol K) (hy' : e.grid.getPoloidalGrid ((j : K) + (stepOf fwd : K)) = .ok (some p', yt)) (s : K)
    (hs : s = slabShift g By Bz xc Bzp x (yt - y)) :
    SumConserved o fwd x j (i.plane fwd j) g.nz ↔ (0 ≤ s ∨ (⌊s⌋ : K) = s ∨ s ≤ 1 - (g.nz : K)) := by
  have hn0 : (0 : ℤ) < g.nz := by omega
  have row := fun z (hz : z < g.nz) v => slab_row se h hi jc jw hm o ho fwd x j z hx1 hx2 hj hz p y yt hy p' hy' v
  rw [← hs] at row
  have hmod : ∀ z < g.nz, (((z : ℕ) : ℤ) % (g.nz : ℤ)).toNat = z := by
    intro z hz
    rw [Int.emod_eq_of_lt (by omega) (by omega)]
    omega
  rw [← sum_codeSpline g.nz hnz s]
  constructor
  · intro hc V hV
    have hVm : ∀ k, V (k % (g.nz : ℤ)) = V k := by
      have hmul : ∀ (q : ℕ) (k : ℤ), V (k + g.nz * (q : ℤ)) = V k := by
        intro q
        induction q with
        | zero => intro k; simp
        | succ q ih =>
          intro k
          have : k + (g.nz : ℤ) * ((q + 1 : ℕ) : ℤ) = k + g.nz * (q : ℤ) + g.nz := by push_cast; ring
          rw [this, hV, ih]
      intro k
      have hd := Int.emod_add_mul_ediv k g.nz
      rcases Int.eq_nat_or_neg (k / (g.nz : ℤ)) with ⟨q, hq | hq⟩
      · have := hmul q (k % g.nz)
        rw [← hq, hd] at this
        exact this.symm
      · have := hmul q k
        have e : k + (g.nz : ℤ) * (q : ℤ) = k % g.nz := by
          have : (q : ℤ) = -(k / (g.nz : ℤ)) := by omega
          rw [this]
          linarith
        rw [e] at this
        exact this
    have hcell := (C02_numbering_order jc jw _ i hi.repr (by rw [hi.emxg, hi.enx]; exact hm) o ho).1
    have hpl : i.plane fwd j < i.ny := by
      have : 0 < i.ny := by rw [hi.eny]; omega
      unfold Input.plane
      have h1 := Int.emod_lt_of_pos ((j : ℤ) + (if fwd then 1 else -1)) (by exact_mod_cast this : (0 : ℤ) < i.ny)
      omega
    have hnz' : i.nz = g.nz := hi.enz
    have hnum : ∀ z < g.nz, o.cellNumber (x, i.plane fwd j, z) % (g.nz : ℤ) = z := by
      intro z hz
      rw [hcell _ _ _ (by rw [hi.emxg]; exact hx1) (by rw [hi.emxg, hi.enx]; exact hx2) hpl (by rw [hnz']; exact hz), hnz']
      push_cast
      rw [Int.add_emod, Int.mul_emod_left, zero_add, Int.emod_emod_of_dvd _ (dvd_refl _), Int.emod_eq_of_lt (by omega) (by omega)]
    have := hc fun k => V (k % (g.nz : ℤ))
    rw [Finset.sum_congr rfl fun z hz => row z (Finset.mem_range.1 hz) _] at this
    have e1 : (fun k : ℤ => V (o.cellNumber (x, i.plane fwd j, (k % (g.nz : ℤ)).toNat) % (g.nz : ℤ))) = V := by
      funext k
      have h0 := Int.emod_nonneg k hn0.ne'
      have h1 := Int.emod_lt_of_pos k hn0
      rw [hnum _ (by omega), Int.toNat_of_nonneg h0, hVm]
    rw [e1] at this
    rw [this]
    apply Finset.sum_congr rfl
    intro z hz
    rw [hnum z (Finset.mem_range.1 hz)]
  · intro hall v
    rw [Finset.sum_congr rfl fun z hz => row z (Finset.mem_range.1 hz) v, hall]
    · apply Finset.sum_congr rfl
      intro z hz
      rw [hmod z (Finset.mem_range.1 hz)]
    · intro k
      rw [Int.add_emod_right]

end Slab

/-- **C250 (partial).** The sums are conserved if the field lines go up.  Missing: field lines that go down, see `C250_iff`. -/
theorem C250_up_partial {e : MmEnv K} {g : RectPol K} {By Bz xc Bzp : K} (se : SlabEnv e g By Bz xc Bzp)
    {mxg r nc : ℕ} {empty : JState K} {m : ODict (MapVal K)} (h : makeMaps e 1 mxg 1 r nc empty = .ok m)
    {i : Input K} (hi : ReadFrom e mxg 1 m g.mapPol i) (jc : ℕ → ℤ) (jw : ℕ → K) (hm : 2 * mxg ≤ g.nx) (hnz : 1 ≤ g.nz) (o : Ops K)
    (ho : calculateOps jc jw (asMapDict g.nx e.grid.ny g.nz 1 m) = .ok o) (fwd : Bool) (x j : ℕ) (hx1 : mxg ≤ x) (hx2 : x + mxg < g.nx)
    (hj : j < e.grid.ny) (p : MapPol K) (y yt : K) (hy : e.grid.getPoloidalGrid (j : K) = .ok (some p, y))
    (p' : MapPol K) (hy' : e.grid.getPoloidalGrid ((j : K) + (stepOf fwd : K)) = .ok (some p', yt))
    (hs : 0 ≤ slabShift g By Bz xc Bzp x (yt - y)) : SumConserved o fwd x j (i.plane fwd j) g.nz :=
  (C250_iff se h hi jc jw hm hnz o ho fwd x j hx1 hx2 hj p y yt hy p' hy' _ rfl).2 (Or.inl hs)

/-- **C250 (refutation).** A slab where the field lines go down by half a cell. -/
theorem C250_fails : ∃ (m : ODict (MapVal ℚ)) (o : Ops ℚ),
    makeMaps (slabMm (-1 / 2)) 1 0 1 1 1 ⟨fun _ => 0, fun _ _ => 0, fun _ _ => 0⟩ = .ok m ∧
    calculateOps (fun _ => 0) (fun _ => 0) (asMapDict slabPol.nx (slabMm (-1 / 2)).grid.ny slabPol.nz 1 m) = .ok o ∧
    ¬ SumConserved o true 0 0 0 4 := by
  obtain ⟨m, i, o, h, hi, ho⟩ := slabMm_all (-1 / 2)
  obtain ⟨h0, h1⟩ := slabMm_here (-1 / 2)
  refine ⟨m, o, h, ho, fun hc => ?_⟩
  have hp : i.plane true 0 = 0 := by
    unfold Input.plane
    rw [hi.eny]
    rfl
  have := (C250_iff (slabMm_env _) h hi _ _ (by decide) (by decide) o ho true 0 0 (by decide) (by decide) (by decide) _ 0 1 h0 _ h1 _ rfl).1
    (by rw [hp]; exact hc)
  norm_num [slabShift, slabPol] at this

/-- Up by half a cell, and down by 7/2 cells of four, the sums are conserved. -/
example (b : ℚ) (hb : b = 1 / 2 ∨ b = -7 / 2) : ∃ (m : ODict (MapVal ℚ)) (o : Ops ℚ),
    makeMaps (slabMm b) 1 0 1 1 1 ⟨fun _ => 0, fun _ _ => 0, fun _ _ => 0⟩ = .ok m ∧
    calculateOps (fun _ => 0) (fun _ => 0) (asMapDict slabPol.nx (slabMm b).grid.ny slabPol.nz 1 m) = .ok o ∧
    SumConserved o true 0 0 0 4 := by
  obtain ⟨m, i, o, h, hi, ho⟩ := slabMm_all b
  obtain ⟨h0, h1⟩ := slabMm_here b
  refine ⟨m, o, h, ho, ?_⟩
  have hp : i.plane true 0 = 0 := by
    unfold Input.plane
    have hny : i.ny = 1 := hi.eny
    rw [hny]
    rfl
  have hny : (slabMm b).grid.ny = 1 := rfl
  have := (C250_iff (slabMm_env _) h hi _ _ (by decide) (by decide) o ho true 0 0 (by decide) (by decide) (by rw [hny]; decide) _ 0 1 h0 _ h1 _ rfl).2
    (by rcases hb with rfl | rfl <;> norm_num [slabShift, slabPol])
  rw [hp] at this
  exact this

end Zoidberg
