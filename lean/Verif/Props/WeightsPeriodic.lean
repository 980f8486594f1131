import Verif.Props.WeightsRows

/-! # C14: periodicity in z -/

set_option linter.unusedSectionVars false

namespace Zoidberg.Weights

variable {K : Type} [Field K] [LinearOrder K] [IsStrictOrderedRing K] [FloorRing K]

/-- Replace the mapped z indices. -/
def Input.withZ (i : Input K) (fz bz : Cell → ℕ → K) : Input K := { i with fz := fz, bz := bz }

/-- Two z indices a number of periods apart are on the same side of zero, or are whole. -/
def SameSide (z z' : K) : Prop := (0 ≤ z ↔ 0 ≤ z') ∨ (⌊z⌋ : K) = z

theorem pyInt_whole (k : ℤ) : pyInt (k : K) = k := by
  unfold pyInt
  split <;> simp

theorem pyInt_period (z : K) (d : ℤ) (h : SameSide z (z + d)) : pyInt (z + d) = pyInt z + d := by
  rcases h with h | h
  · by_cases h0 : 0 ≤ z
    · rw [pyInt, pyInt, if_pos h0, if_pos (h.1 h0), Int.floor_add_intCast]
    · rw [pyInt, pyInt, if_neg h0, if_neg (fun q => h0 (h.2 q)), Int.ceil_add_intCast]
  · rw [← h, ← Int.cast_add, pyInt_whole, pyInt_whole]

theorem contribSample_period (nx ny nz : ℕ) (cn : Cell → ℤ) (y yo : ℤ) (mxg : ℕ) (iw : K)
    (x z w : K) (b : Bool) (k : ℤ) (hz : SameSide z (z + k * nz)) :
    contribSample (nx, ny, nz) cn y yo mxg iw (x, z + k * nz, w, b) =
      contribSample (nx, ny, nz) cn y yo mxg iw (x, z, w, b) := by
  have e0 : z + (k : K) * (nz : K) = z + ((k * nz : ℤ) : K) := by push_cast; ring
  have e2 : pyInt (z + k * nz) = pyInt z + k * nz := by
    rw [e0] at hz ⊢
    exact pyInt_period z _ hz
  have e3 : z + k * nz - ((pyInt z + k * nz : ℤ) : K) = z - (pyInt z : K) := by push_cast; ring
  unfold contribSample
  simp only [e2, e3]
  split
  · rfl
  · congr 1
    funext p
    unfold contribX
    split
    · rfl
    · apply List.map_congr_left
      intro q _
      unfold contribZ
      congr 4
      simp only [pyMod]
      have : pyInt z + k * (nz : ℤ) + q.1 + nz = (pyInt z + q.1 + nz) + nz * k := by ring
      rw [this, Int.add_mul_emod_self_left]

/-- C14, the part that holds: shifting the mapped z indices by multiples of `nz` leaves everything that is exported
unchanged if each stays on the same side of zero, or is whole.  Missing: shifts across zero, for which the claim is
false (`C14_fails_for_negative_z`, and `C14_single_iff` for all of them). -/
theorem C14_period_partial (jc : ℕ → ℤ) (jw : ℕ → K) (maps maps' : MapDict K) (i : Input K)
    (fz' bz' : Cell → ℕ → K) (h : Represents maps i) (h' : Represents maps' (i.withZ fz' bz'))
    (hm : 2 * i.mxg ≤ i.nx) (hw : i.GoodWeights)
    (hf : ∀ c s, SameSide (i.fz c s) (fz' c s) ∧ ∃ k : ℤ, fz' c s = i.fz c s + k * i.nz)
    (hb : ∀ c s, SameSide (i.bz c s) (bz' c s) ∧ ∃ k : ℤ, bz' c s = i.bz c s + k * i.nz) :
    calculateOps jc jw maps' = calculateOps jc jw maps := by
  have hw' : (i.withZ fz' bz').GoodWeights := ⟨hw.len, hw.sum, hw.pos⟩
  rw [calculateOps_eq jc jw maps i h (i.fits_of_two hm) (getSubcellWeights_ok maps i h hw),
    calculateOps_eq jc jw maps' _ h' (Input.fits_of_two _ hm) (getSubcellWeights_ok maps' _ h' hw')]
  have hz : ∀ fwd c s, SameSide (i.zs fwd c s) ((i.withZ fz' bz').zs fwd c s) ∧
      ∃ k : ℤ, (i.withZ fz' bz').zs fwd c s = i.zs fwd c s + k * i.nz := by
    intro fwd c s
    cases fwd
    · exact hb c s
    · exact hf c s
  have hcon : ∀ fwd c, (i.withZ fz' bz').contribs fwd c = i.contribs fwd c := by
    intro fwd c
    rw [contribs_eq i hw.len, contribs_eq (i.withZ fz' bz') hw'.len]
    change (List.range i.n).flatMap _ = _
    congr 1
    funext s
    obtain ⟨h1, k, hk⟩ := hz fwd c s
    rw [hk]
    exact contribSample_period i.nx i.ny i.nz i.cs.cellNumber _ _ _ _ _ _ _ _ k (by rwa [← hk])
  have hdest : ∀ fwd, (i.withZ fz' bz').dest fwd = i.dest fwd := by
    intro fwd
    obtain ⟨b, e, hl, hr⟩ := dest_ok i hm hw fwd
    obtain ⟨b', e', hl', hr'⟩ := dest_ok (i.withZ fz' bz') hm hw' fwd
    rw [e, e']
    congr 1
    have hl2 : b'.length = b.length := by rw [hl, hl']; rfl
    apply List.ext_getElem hl2
    intro k hk1 hk2
    have hkl : k < (legOrder i.nx i.ny i.nz i.mxg ⟨i.n, i.xs fwd⟩).length := by
      rw [← legCore_nLegs (w := i.w)]
      have : k < (i.ls fwd).nLegs := by rw [← hl]; exact hk2
      exact this
    have hnum : (i.ls fwd).number (legOrder i.nx i.ny i.nz i.mxg ⟨i.n, i.xs fwd⟩)[k] = k :=
      legCore_getElem i.nx i.ny i.nz i.mxg ⟨i.n, i.xs fwd⟩ i.w k hkl
    have hmem := List.getElem_mem hkl
    generalize hkey : (legOrder i.nx i.ny i.nz i.mxg ⟨i.n, i.xs fwd⟩)[k] = key at hnum hmem
    obtain ⟨bb, c⟩ := key
    have g1 : b.getD k [] = b[k] := List.getD_eq_getElem _ _ hk2
    have g2 : b'.getD k [] = b'[k] := List.getD_eq_getElem _ _ hk1
    rw [← g1, ← g2]
    cases bb
    · have q1 := (hr c).2 hmem
      have q2 := (hr' c).2 hmem
      have n1 : ((i.ls fwd).interiorLeg c).toNat = k := by
        have : (i.ls fwd).interiorLeg c = k := hnum
        omega
      have n2 : (((i.withZ fz' bz').ls fwd).interiorLeg c).toNat = k := n1
      rw [n1] at q1
      rw [n2] at q2
      rw [q1, q2, hcon]
    · have q1 := (hr c).1 hmem
      have q2 := (hr' c).1 hmem
      have n1 : ((i.ls fwd).boundaryLeg c).toNat = k := by
        have : (i.ls fwd).boundaryLeg c = k := hnum
        omega
      have n2 : (((i.withZ fz' bz').ls fwd).boundaryLeg c).toNat = k := n1
      rw [n1] at q1
      rw [n2] at q2
      rw [q1, q2]
      rfl
  rw [hdest, hdest]
  rfl

/-- The example with all mapped z one period higher. -/
def exMapsShifted : MapDict ℚ :=
  (exMaps.set "forward_zt_primes" (.arr4 6 2 3 2 fun c s => exIn.fz c s + 3)).set
    "backward_zt_primes" (.arr4 6 2 3 2 fun c s => exIn.bz c s + 3)

/-- The hypotheses of `C14_period_partial` can be met. -/
example : calculateOps (fun _ => 7) (fun _ => 7) exMapsShifted =
    calculateOps (fun _ => 7) (fun _ => 7) exMaps := by
  refine C14_period_partial _ _ exMaps exMapsShifted exIn (fun c s => exIn.fz c s + 3)
    (fun c s => exIn.bz c s + 3) exMaps_represents ?_ exIn_guards exIn_goodWeights ?_ ?_
  · exact ⟨⟨_, rfl⟩, rfl, Or.inl rfl, Or.inl rfl, Or.inl rfl, Or.inl rfl, Or.inl rfl⟩
  · intro c s
    have h0 : (0 : ℚ) ≤ exIn.fz c s := by
      simp only [exIn]; split <;> positivity
    exact ⟨Or.inl ⟨fun _ => by linarith, fun _ => h0⟩, 1, by simp [exIn]⟩
  · intro c s
    have h0 : (0 : ℚ) ≤ exIn.bz c s := by simp only [exIn]; positivity
    exact ⟨Or.inl ⟨fun _ => by linarith, fun _ => h0⟩, 1, by simp [exIn]⟩

/-- One cell in X and Y, four in Z; every cell is mapped to the same z. -/
def negIn (z : ℚ) : Input ℚ where
  nx := 1
  ny := 1
  nz := 4
  mxg := 0
  n := 1
  fx := fun _ _ => 0
  fz := fun _ _ => z
  bx := fun _ _ => 0
  bz := fun _ _ => z
  w := [1]

/-- A dictionary holding `negIn z`. -/
def negMaps (z : ℚ) : MapDict ℚ := fun k =>
  if k = "R" then some (.arr3 1 1 4 fun _ => 0)
  else if k = "MXG" then some (.nat 0)
  else if k = "forward_xt_prime" then some (.arr3 1 1 4 fun _ => 0)
  else if k = "forward_zt_prime" then some (.arr3 1 1 4 fun _ => z)
  else if k = "backward_xt_prime" then some (.arr3 1 1 4 fun _ => 0)
  else if k = "backward_zt_prime" then some (.arr3 1 1 4 fun _ => z)
  else none

theorem negMaps_represents (z : ℚ) : Represents (negMaps z) (negIn z) where
  shape := ⟨_, rfl⟩
  mxg := rfl
  fx := Or.inr ⟨rfl, rfl, _, rfl, rfl⟩
  fz := Or.inr ⟨rfl, rfl, _, rfl, rfl⟩
  bx := Or.inr ⟨rfl, rfl, _, rfl, rfl⟩
  bz := Or.inr ⟨rfl, rfl, _, rfl, rfl⟩
  w := Or.inr ⟨rfl, rfl, rfl⟩

theorem negIn_good (z : ℚ) : (negIn z).GoodWeights where
  len := rfl
  sum := by norm_num [negIn]
  pos := by intro v hv; simp [negIn] at hv; simp [hv]

/-- Value of the forward row of cell `(0, 0, 0)` for a vector `v`. -/
theorem negRow (z : ℚ) (o : Ops ℚ) (ho : calculateOps (fun _ => 0) (fun _ => 0) (negMaps z) = .ok o)
    (v : ℤ → ℚ) :
    applyRow ((o.legs true).op.row ((o.legs true).legInterior (0, 0, 0)).toNat) v =
      zApply (1, 1, 4) (negIn z).cs.cellNumber 0 (pyInt z) 0 1
        (catmullRom (z - (pyInt z : ℚ))) v 0 := by
  have hne : ∀ s, ¬ (negIn z).Escapes ((negIn z).xs true (0, 0, 0) s) := by
    intro s; norm_num [Input.Escapes, Input.xs, negIn]
  have hst : (negIn z).staying true (0, 0, 0) = {0} := by
    unfold Input.staying
    rw [Finset.filter_true_of_mem (fun s _ => hne s)]
    rfl
  obtain ⟨_, h2⟩ := rowOf_eq _ _ (negMaps z) (negIn z) (negMaps_represents z) (by simp [negIn])
    (negIn_good z) o ho true (0, 0, 0)
  have hr : (o.legs true).op.row ((o.legs true).legInterior (0, 0, 0)).toNat = _ :=
    h2 (by simp [Input.Interior, negIn]) ⟨0, by simp [negIn], hne 0⟩
  have p0 : pyInt (0 : ℚ) = 0 := by simp [pyInt]
  rw [hr, applyRow_addAll, applyRow_contribs _ (negIn_good z).len, hst, Finset.sum_singleton,
    Finset.sum_singleton]
  have e1 : (negIn z).w.getD 0 0 = 1 := rfl
  have e2 : (negIn z).xs true (0, 0, 0) 0 = 0 := rfl
  have e3 : (negIn z).zs true (0, 0, 0) 0 = z := rfl
  rw [e1, e2, e3, p0]
  have e4 : shiftedCR ((0 : ℚ) - ((0 : ℤ) : ℚ)) 0 (negIn z).nx (negIn z).mxg = [0, 1, 0, 0] := by
    norm_num [shiftedCR, shifted, negIn]
  rw [e4]
  have t0 : thr (0 : ℚ) = 0 := by simp [thr]
  have t1 : thr (1 : ℚ) = 1 := by norm_num [thr]
  simp only [xOffsets, List.zip_cons_cons, List.zip_nil_right, List.map_cons, List.map_nil,
    List.sum_cons, List.sum_nil, t0, t1]
  simp [applyRow, negIn]

theorem negIn_cells (z : ℚ) (k : ℕ) (hk : k < 4) : (negIn z).cs.cellNumber (0, 0, k) = k := by
  have hm : 2 * (negIn z).mxg ≤ (negIn z).nx := by simp [negIn]
  obtain ⟨oz, hoz⟩ := C10_assembly_succeeds (fun _ => 0) (fun _ => 0) (negMaps z)
    (negIn z) (negMaps_represents _) hm (negIn_good _)
  have := (C02_numbering_order _ _ _ _ (negMaps_represents z) hm oz hoz).1 0 0 k
    (by simp [negIn]) (by simp [negIn]) (by simp [negIn]) hk
  obtain ⟨_, _, hcn, _⟩ := calculateOps_inv _ _ _ _ (negMaps_represents z) oz hoz
  rw [← hcn, this]
  simp [negIn]

theorem pyInt_neg_half : pyInt (-1 / 2 : ℚ) = 0 := by
  unfold pyInt
  rw [if_neg (by norm_num)]
  norm_num [Int.ceil_eq_iff]

/-- The full claim of C13 is false: with mapped z = -1/2 an exported row differs
from the documented interpolation by far more than the drop tolerance, although
the values are bounded by one. -/
theorem C13_fails_for_negative_z :
    ∃ (i : Input ℚ) (maps : MapDict ℚ) (o : Ops ℚ) (v : ℤ → ℚ),
      Represents maps i ∧ 2 * i.mxg ≤ i.nx ∧ i.GoodWeights ∧ i.Interior (0, 0, 0) ∧
      i.SomeStay true (0, 0, 0) ∧ calculateOps (fun _ => 0) (fun _ => 0) maps = .ok o ∧
      (∀ k, |v k| ≤ 1) ∧
      1 / 10 ≤ |applyRow ((o.legs true).op.row ((o.legs true).legInterior (0, 0, 0)).toNat) v -
        i.legAverage true (0, 0, 0) (fun d => v (o.cellNumber d))| := by
  obtain ⟨o, ho⟩ := C10_assembly_succeeds (fun _ => 0) (fun _ => 0) (negMaps (-1 / 2))
    (negIn (-1 / 2)) (negMaps_represents _) (by simp [negIn]) (negIn_good _)
  have hne : ∀ s, ¬ (negIn (-1 / 2)).Escapes ((negIn (-1 / 2)).xs true (0, 0, 0) s) := by
    intro s; norm_num [Input.Escapes, Input.xs, negIn]
  have hst : (negIn (-1 / 2)).staying true (0, 0, 0) = {0} := by
    unfold Input.staying
    rw [Finset.filter_true_of_mem (fun s _ => hne s)]
    rfl
  refine ⟨negIn (-1 / 2), negMaps (-1 / 2), o, fun k => if k = 2 then 1 else 0,
    negMaps_represents _, by simp [negIn], negIn_good _, by simp [Input.Interior, negIn],
    ⟨0, by simp [negIn], hne 0⟩, ho, fun k => by dsimp only; split <;> simp, ?_⟩
  obtain ⟨_, _, hcn, _⟩ := calculateOps_inv _ _ _ _ (negMaps_represents _) o ho
  have e1 : (negIn (-1 / 2)).w.getD 0 0 = 1 := rfl
  have e2 : (negIn (-1 / 2)).xs true (0, 0, 0) 0 = 0 := rfl
  have e3 : (negIn (-1 / 2)).zs true (0, 0, 0) 0 = -1 / 2 := rfl
  have ff : ⌊(-1 / 2 : ℚ)⌋ = -1 := by norm_num [Int.floor_eq_iff]
  have f0 : ⌊(0 : ℚ)⌋ = 0 := by simp
  have hpl : (negIn (-1 / 2)).plane true 0 = 0 := by simp [Input.plane, negIn]
  have hcl : ∀ X, (negIn (-1 / 2)).clampX X = 0 := by
    intro X; simp only [Input.clampX, negIn]; omega
  have hnz : (negIn (-1 / 2)).nz = 4 := rfl
  have hspec : (negIn (-1 / 2)).legAverage true (0, 0, 0)
      (fun d => if o.cellNumber d = 2 then 1 else 0) = -1 / 16 := by
    rw [hcn]
    simp only [Input.legAverage, hst, Finset.sum_singleton, e1, e2, e3, Input.interp,
      catmullRomSpline, ff, f0, hpl, hcl, hnz]
    norm_num [negIn_cells]
  have hval := negRow (-1 / 2) o ho (fun k => if k = 2 then 1 else 0)
  rw [pyInt_neg_half] at hval
  simp only [zApply, xOffsets, catmullRom, List.zip_cons_cons, List.zip_nil_right, List.map_cons,
    List.map_nil, List.sum_cons, List.sum_nil, npClip, pyMod] at hval
  norm_num [negIn_cells] at hval
  rw [hspec, hval]
  norm_num

/-- The full claim of C14 is false: a mapped z of -1/2, and the same position one
period higher, give different rows, because `int()` truncates toward zero. -/
theorem C14_fails_for_negative_z :
    ∃ (i : Input ℚ) (z : ℚ) (maps maps' : MapDict ℚ) (o o' : Ops ℚ),
      Represents maps (i.withZ (fun _ _ => z) (fun _ _ => z)) ∧
      Represents maps' (i.withZ (fun _ _ => z + i.nz) (fun _ _ => z + i.nz)) ∧
      i.GoodWeights ∧ i.Interior (0, 0, 0) ∧
      calculateOps (fun _ => 0) (fun _ => 0) maps = .ok o ∧
      calculateOps (fun _ => 0) (fun _ => 0) maps' = .ok o' ∧
      (o.legs true).op.row ((o.legs true).legInterior (0, 0, 0)).toNat ≠
        (o'.legs true).op.row ((o'.legs true).legInterior (0, 0, 0)).toNat := by
  obtain ⟨o, ho⟩ := C10_assembly_succeeds (fun _ => 0) (fun _ => 0) (negMaps (-1 / 2))
    (negIn (-1 / 2)) (negMaps_represents _) (by simp [negIn]) (negIn_good _)
  obtain ⟨o', ho'⟩ := C10_assembly_succeeds (fun _ => 0) (fun _ => 0) (negMaps (7 / 2))
    (negIn (7 / 2)) (negMaps_represents _) (by simp [negIn]) (negIn_good _)
  refine ⟨negIn 0, -1 / 2, negMaps (-1 / 2), negMaps (7 / 2), o, o', negMaps_represents _, ?_,
    negIn_good _, by simp [Input.Interior, negIn], ho, ho', ?_⟩
  · have : (-1 / 2 : ℚ) + (negIn 0).nz = 7 / 2 := by norm_num [negIn]
    rw [this]
    exact negMaps_represents _
  · intro heq
    have h1 := negRow (-1 / 2) o ho (fun k => if k = 2 then 1 else 0)
    have h2 := negRow (7 / 2) o' ho' (fun k => if k = 2 then 1 else 0)
    rw [heq, h2] at h1
    have f2 : pyInt (7 / 2 : ℚ) = 3 := by
      unfold pyInt
      rw [if_pos (by norm_num)]
      norm_num [Int.floor_eq_iff]
    rw [pyInt_neg_half, f2] at h1
    simp only [zApply, xOffsets, catmullRom, List.zip_cons_cons, List.zip_nil_right, List.map_cons,
      List.map_nil, List.sum_cons, List.sum_nil, npClip, pyMod] at h1
    norm_num [negIn_cells] at h1

end Zoidberg.Weights
