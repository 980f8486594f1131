import Verif.Props.InverseMaps

/-!
# C255: repeated application of an operator follows field lines
-/

set_option linter.unusedSectionVars false

namespace Zoidberg

open Weights

variable {K : Type} [Field K] [LinearOrder K] [IsStrictOrderedRing K] [FloorRing K]

/-- The field line of the cell `c` meets the grid point `d` of the next plane in the direction `fwd`: the index that is found for its end
is that of `d`, up to whole turns in z. -/
structure Meets (e : MmEnv K) (φ : K → K → K → K → K × K) (i : Input K) (fwd : Bool) (c d : ℕ × ℕ × ℕ) : Prop where
  from_interior : i.Interior c
  to_interior : i.Interior d
  plane : d.2.1 = i.plane fwd c.2.1
  line : ∃ pol p y yt, ∃ k : ℤ, e.grid.getPoloidalGrid (c.2.1 : K) = .ok (some pol, y) ∧
    e.grid.getPoloidalGrid ((c.2.1 : K) + (stepOf fwd : K)) = .ok (some p, yt) ∧
    p.findIndex (fun x z => (φ (pol.R x z) (pol.Z x z) y yt).1) (fun x z => (φ (pol.R x z) (pol.Z x z) y yt).2) c.1 c.2.2
      = ((d.1 : K), (d.2.2 : K) + k * (i.nz : K)) ∧
    e.outside (φ (pol.R c.1 c.2.2) (pol.Z c.1 c.2.2) y yt).1 yt (φ (pol.R c.1 c.2.2) (pol.Z c.1 c.2.2) y yt).2 = false

/-- This is so if the line ends exactly at a grid point and `findIndex` finds grid points. -/
theorem meets_node (e : MmEnv K) (φ : K → K → K → K → K × K) (i : Input K) (fwd : Bool) (c d : ℕ × ℕ × ℕ) (hc : i.Interior c)
    (hd : i.Interior d) (hp : d.2.1 = i.plane fwd c.2.1) (pol p : MapPol K) (y yt : K)
    (h1 : e.grid.getPoloidalGrid (c.2.1 : K) = .ok (some pol, y))
    (h2 : e.grid.getPoloidalGrid ((c.2.1 : K) + (stepOf fwd : K)) = .ok (some p, yt)) (hf : FindsNodes p) (hx : p.nx = i.nx) (hz : p.nz = i.nz)
    (hend : φ (pol.R c.1 c.2.2) (pol.Z c.1 c.2.2) y yt = (p.R d.1 d.2.2, p.Z d.1 d.2.2))
    (hin : e.outside (p.R d.1 d.2.2) yt (p.Z d.1 d.2.2) = false) : Meets e φ i fwd c d := by
  refine ⟨hc, hd, hp, pol, p, y, yt, 0, h1, h2, ?_, by rw [hend]; exact hin⟩
  rw [hf _ _ c.1 c.2.2 d.1 d.2.2 (by rw [hx]; have := hd.2.1; omega) (by rw [hz]; exact hd.2.2.2) (by rw [hend]) (by rw [hend])]
  simp

/-- The values `u` are the result of the operator of the direction `fwd`, applied to `v`. -/
def Applied (i : Input K) (o : Ops K) (fwd : Bool) (v u : ℤ → K) : Prop :=
  ∀ c, i.Interior c → u (o.cellNumber c) = applyRow ((o.legs fwd).op.row ((o.legs fwd).legInterior c).toNat) v

/-- One application: the value where the line meets the grid. -/
theorem applied_meets (jc : ℕ → ℤ) (jw : ℕ → K) (e : MmEnv K) (hf : FollowOk e) (φ : K → K → K → K → K × K) (hφ : PointTracer e φ)
    (mxg r nc : ℕ) (empty : JState K) (m : ODict (MapVal K)) (h : makeMaps e 1 mxg 1 r nc empty = .ok m) (first : MapPol K) (i : Input K)
    (hi : ReadFrom e mxg 1 m first i) (hm : 2 * mxg ≤ first.nx) (o : Ops K)
    (ho : calculateOps jc jw (asMapDict first.nx e.grid.ny first.nz 1 m) = .ok o) (fwd : Bool) (c d : ℕ × ℕ × ℕ)
    (hcd : Meets e φ i fwd c d) (v u : ℤ → K) (hu : Applied i o fwd v u) : u (o.cellNumber c) = v (o.cellNumber d) := by
  obtain ⟨hc, ⟨hd1, hd2, _, hd4⟩, hp, pol, p, y, yt, k, g1, g2, g3, g4⟩ := hcd
  obtain ⟨x, j, z⟩ := c
  obtain ⟨a, j', b⟩ := d
  simp only at hp g1 g2 g3 g4 hd1 hd2 hd4
  rw [hi.emxg] at hd1 hd2
  rw [hi.enx] at hd2
  rw [hu _ hc, hp]
  have hesc : ¬ i.Escapes ((((a : ℕ) : K), ((b : ℕ) : K) + k * (i.nz : K)) : K × K).1 := by
    unfold Input.Escapes
    rw [hi.emxg, hi.enx]
    push Not
    have : (a : K) + mxg + 1 ≤ first.nx := by exact_mod_cast hd2
    simp only
    exact ⟨by exact_mod_cast hd1, by linarith⟩
  have hw : ((b : ℕ) : K) + k * (i.nz : K) = (((b : ℤ) + k * (i.nz : ℤ) : ℤ) : K) := by push_cast; rfl
  rw [C207_value_partial jc jw e hf φ hφ mxg r nc empty m h first i hi hm o ho fwd x j z hc pol p y yt g1 g2 g4 _ g3.symm
    hesc (noneSkipped_of_clear _ _ (Or.inl (by simp))) (Or.inr (by simp only [hw, Int.floor_intCast])) v, interp_alongZ i _ _ a _ (by rw [hi.emxg]; exact hd1)
    (by rw [hi.emxg, hi.enx]; exact hd2)]
  unfold alongZ
  simp only [hw, Int.floor_intCast, sub_self, spline_zero, add_zero]
  have : (((b : ℤ) + k * (i.nz : ℤ)) % (i.nz : ℤ)).toNat = b := by
    rw [Int.add_mul_emod_self_right, Int.emod_eq_of_lt (by omega) (by omega)]
    omega
  rw [this]

/-- **C255.** Applied `n` times, the operator has the value at the `n`-th point of the field line. -/
theorem C255_orbit (jc : ℕ → ℤ) (jw : ℕ → K) (e : MmEnv K) (hf : FollowOk e) (φ : K → K → K → K → K × K) (hφ : PointTracer e φ)
    (mxg r nc : ℕ) (empty : JState K) (m : ODict (MapVal K)) (h : makeMaps e 1 mxg 1 r nc empty = .ok m) (first : MapPol K) (i : Input K)
    (hi : ReadFrom e mxg 1 m first i) (hm : 2 * mxg ≤ first.nx) (o : Ops K)
    (ho : calculateOps jc jw (asMapDict first.nx e.grid.ny first.nz 1 m) = .ok o) (fwd : Bool) (cell : ℕ → ℕ × ℕ × ℕ) (n : ℕ)
    (hline : ∀ k < n, Meets e φ i fwd (cell k) (cell (k + 1))) (v : ℕ → ℤ → K) (hv : ∀ k < n, Applied i o fwd (v k) (v (k + 1))) :
    v n (o.cellNumber (cell 0)) = v 0 (o.cellNumber (cell n)) := by
  have key : ∀ k ≤ n, v n (o.cellNumber (cell 0)) = v (n - k) (o.cellNumber (cell k)) := by
    intro k
    induction k with
    | zero => intro _; rfl
    | succ k ih =>
      intro hk
      rw [ih (by omega)]
      have h1 : n - k = n - (k + 1) + 1 := by omega
      rw [h1]
      exact applied_meets jc jw e hf φ hφ mxg r nc empty m h first i hi hm o ho fwd _ _ (hline k (by omega)) _ _ (hv _ (by omega))
  have := key n le_rfl
  rw [Nat.sub_self] at this
  exact this

/-- **C255.** If the field line closes after `n` planes, the operator gives the value back after `n` applications, for any values. -/
theorem C255_closed (jc : ℕ → ℤ) (jw : ℕ → K) (e : MmEnv K) (hf : FollowOk e) (φ : K → K → K → K → K × K) (hφ : PointTracer e φ)
    (mxg r nc : ℕ) (empty : JState K) (m : ODict (MapVal K)) (h : makeMaps e 1 mxg 1 r nc empty = .ok m) (first : MapPol K) (i : Input K)
    (hi : ReadFrom e mxg 1 m first i) (hm : 2 * mxg ≤ first.nx) (o : Ops K)
    (ho : calculateOps jc jw (asMapDict first.nx e.grid.ny first.nz 1 m) = .ok o) (fwd : Bool) (cell : ℕ → ℕ × ℕ × ℕ) (n : ℕ)
    (hline : ∀ k < n, Meets e φ i fwd (cell k) (cell (k + 1))) (hclosed : cell n = cell 0) (v : ℕ → ℤ → K)
    (hv : ∀ k < n, Applied i o fwd (v k) (v (k + 1))) : v n (o.cellNumber (cell 0)) = v 0 (o.cellNumber (cell 0)) := by
  rw [C255_orbit jc jw e hf φ hφ mxg r nc empty m h first i hi hm o ho fwd cell n hline v hv, hclosed]

/-- **C255.** Values that the operator leaves as they are, are the same all along the field line. -/
theorem C255_constant (jc : ℕ → ℤ) (jw : ℕ → K) (e : MmEnv K) (hf : FollowOk e) (φ : K → K → K → K → K × K) (hφ : PointTracer e φ)
    (mxg r nc : ℕ) (empty : JState K) (m : ODict (MapVal K)) (h : makeMaps e 1 mxg 1 r nc empty = .ok m) (first : MapPol K) (i : Input K)
    (hi : ReadFrom e mxg 1 m first i) (hm : 2 * mxg ≤ first.nx) (o : Ops K)
    (ho : calculateOps jc jw (asMapDict first.nx e.grid.ny first.nz 1 m) = .ok o) (fwd : Bool) (cell : ℕ → ℕ × ℕ × ℕ) (n : ℕ)
    (hline : ∀ k < n, Meets e φ i fwd (cell k) (cell (k + 1))) (v : ℤ → K) (hv : Applied i o fwd v v) :
    v (o.cellNumber (cell n)) = v (o.cellNumber (cell 0)) :=
  (C255_orbit jc jw e hf φ hφ mxg r nc empty m h first i hi hm o ho fwd cell n hline (fun _ => v) fun _ _ => hv).symm

/-- The hypotheses can be met: in a slab with field lines that go up by one of four cells the line closes after four turns. -/
theorem slab_meets (m : ODict (MapVal ℚ)) (i : Input ℚ) (hi : ReadFrom (slabMm 1) 0 1 m slabPol.mapPol i) (k : ℕ) :
    Meets (slabMm 1) (slabLine 1 1 0 0) i true (0, 0, k % 4) (0, 0, (k + 1) % 4) := by
  have hp : i.plane true 0 = 0 := by
    unfold Input.plane
    rw [hi.eny]
    rfl
  have hint : ∀ z < 4, i.Interior (0, 0, z) := by
    intro z hz
    exact ⟨by rw [hi.emxg], by rw [hi.emxg, hi.enx]; clear hz; exact (by decide : 0 + 0 < slabPol.mapPol.nx), by rw [hi.eny]; exact (by decide : 0 < 1), by rw [hi.enz]; exact hz⟩
  obtain ⟨h0, h1⟩ := slabMm_here 1
  have hk : ((k % 4 : ℕ) : ℚ) + 1 = (((k + 1) % 4 : ℕ) : ℚ) + (((k % 4 + 1) / 4 : ℕ) : ℚ) * 4 := by
    have : k % 4 + 1 = (k + 1) % 4 + (k % 4 + 1) / 4 * 4 := by omega
    exact_mod_cast this
  refine ⟨hint _ (by omega), hint _ (by omega), hp.symm, _, _, _, _, (((k % 4 + 1) / 4 : ℕ) : ℤ), h0, h1, ?_, rfl⟩
  have hnz : i.nz = 4 := hi.enz
  rw [hnz]
  simp only [slabLine, RectPol.mapPol, RectPol.findIndex, RectPol.pol, slabPol, Prod.mk.injEq]
  rw [Int.cast_natCast]
  constructor
  · norm_num
  · norm_num
    linarith

example : ∃ (m : ODict (MapVal ℚ)) (i : Input ℚ) (o : Ops ℚ), makeMaps (slabMm 1) 1 0 1 1 1 ⟨fun _ => 0, fun _ _ => 0, fun _ _ => 0⟩ = .ok m ∧
    calculateOps (fun _ => 0) (fun _ => 0) (asMapDict slabPol.nx (slabMm 1).grid.ny slabPol.nz 1 m) = .ok o ∧
    (∀ v : ℕ → ℤ → ℚ, (∀ k < 2, Applied i o true (v k) (v (k + 1))) → v 2 (o.cellNumber (0, 0, 0)) = v 0 (o.cellNumber (0, 0, 2))) ∧
    ∀ v : ℕ → ℤ → ℚ, (∀ k < 4, Applied i o true (v k) (v (k + 1))) → v 4 (o.cellNumber (0, 0, 0)) = v 0 (o.cellNumber (0, 0, 0)) := by
  obtain ⟨m, i, o, h, hi, ho⟩ := slabMm_all 1
  refine ⟨m, i, o, h, ho, fun v hv => ?_, fun v hv => ?_⟩
  · exact C255_orbit (fun _ => 0) (fun _ => 0) (slabMm 1) (slabMm_env 1).follow _ (slabMm_env 1).lines 0 1 1 _ m h slabPol.mapPol i hi
      (by decide) o ho true (fun k => (0, 0, k % 4)) 2 (fun k _ => slab_meets m i hi k) v hv
  · exact C255_closed (fun _ => 0) (fun _ => 0) (slabMm 1) (slabMm_env 1).follow _ (slabMm_env 1).lines 0 1 1 _ m h slabPol.mapPol i hi
      (by decide) o ho true (fun k => (0, 0, k % 4)) 4 (fun k _ => slab_meets m i hi k) rfl v hv

end Zoidberg
