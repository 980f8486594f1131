import Verif.Props.EndToEnd

/-!
# C251: the backward operator undoes the forward operator
-/

set_option linter.unusedSectionVars false

namespace Zoidberg

open Weights

variable {K : Type} [Field K] [LinearOrder K] [IsStrictOrderedRing K] [FloorRing K]

/-- `findIndex` of the poloidal grid finds grid points. -/
def FindsNodes (p : MapPol K) : Prop :=
  ∀ (R Z : ℕ → ℕ → K) (x z a b : ℕ), a < p.nx → b < p.nz → R x z = p.R a b → Z x z = p.Z a b →
    p.findIndex R Z x z = ((a : K), (b : K))

theorem rect_findsNodes (g : RectPol K) (hR : g.dR ≠ 0) (hZ : g.dZ ≠ 0) : FindsNodes g.mapPol := by
  intro R Z x z a b _ _ h1 h2
  simp only [RectPol.mapPol, RectPol.findIndex, RectPol.pol] at h1 h2 ⊢
  rw [h1, h2]
  congr 1
  · field_simp; ring
  · field_simp; ring

/-- A field line that meets a grid point of the adjacent plane: the row has the value there. -/
theorem node_row (jc : ℕ → ℤ) (jw : ℕ → K) (e : MmEnv K) (hf : FollowOk e) (φ : K → K → K → K → K × K) (hφ : PointTracer e φ) (mxg r nc : ℕ)
    (empty : JState K) (m : ODict (MapVal K)) (h : makeMaps e 1 mxg 1 r nc empty = .ok m) (first : MapPol K) (i : Input K)
    (hi : ReadFrom e mxg 1 m first i) (hm : 2 * mxg ≤ first.nx) (o : Ops K)
    (ho : calculateOps jc jw (asMapDict first.nx e.grid.ny first.nz 1 m) = .ok o) (fwd : Bool) (x j z : ℕ) (hc : i.Interior (x, j, z))
    (pol p : MapPol K) (y yt : K) (h1 : e.grid.getPoloidalGrid (j : K) = .ok (some pol, y))
    (h2 : e.grid.getPoloidalGrid ((j : K) + (stepOf fwd : K)) = .ok (some p, yt)) (hp : FindsNodes p)
    (hsize : p.nx = first.nx ∧ p.nz = first.nz) (a b : ℕ) (ha1 : mxg ≤ a) (ha2 : a + mxg < first.nx) (hb : b < first.nz)
    (hend : φ (pol.R x z) (pol.Z x z) y yt = (p.R a b, p.Z a b)) (hin : e.outside (p.R a b) yt (p.Z a b) = false) (v : ℤ → K) :
    applyRow ((o.legs fwd).op.row ((o.legs fwd).legInterior (x, j, z)).toNat) v = v (o.cellNumber (a, i.plane fwd j, b)) := by
  have e1 : (φ (pol.R x z) (pol.Z x z) y yt).1 = p.R a b := by rw [hend]
  have e2 : (φ (pol.R x z) (pol.Z x z) y yt).2 = p.Z a b := by rw [hend]
  have hq : (((a : ℕ) : K), ((b : ℕ) : K)) = p.findIndex (fun x z => (φ (pol.R x z) (pol.Z x z) y yt).1)
      (fun x z => (φ (pol.R x z) (pol.Z x z) y yt).2) x z :=
    (hp _ _ x z a b (by rw [hsize.1]; omega) (by rw [hsize.2]; exact hb) e1 e2).symm
  have hesc : ¬ i.Escapes (((a : ℕ) : K), ((b : ℕ) : K)).1 := by
    unfold Input.Escapes
    rw [hi.emxg, hi.enx]
    push Not
    have : (a : K) + mxg + 1 ≤ first.nx := by exact_mod_cast ha2
    simp only
    exact ⟨by exact_mod_cast ha1, by linarith⟩
  rw [C207_value_partial jc jw e hf φ hφ mxg r nc empty m h first i hi hm o ho fwd x j z hc pol p y yt h1 h2 (by rw [e1, e2]; exact hin) _ hq
    hesc (noneSkipped_of_clear _ _ (Or.inl (by simp))) (Or.inl (by simp)) v, interp_alongZ i _ _ a _ (by rw [hi.emxg]; exact ha1)
    (by rw [hi.emxg, hi.enx]; exact ha2)]
  unfold alongZ
  simp only [Int.floor_natCast, Int.cast_natCast, sub_self, spline_zero, add_zero]
  have : (((b : ℕ) : ℤ) % (i.nz : ℤ)).toNat = b := by
    rw [hi.enz, Int.emod_eq_of_lt (by omega) (by omega)]
    omega
  rw [this]

/-- Periodic grids: the planes next to each other. -/
theorem periodic_step (g : Grid (MapPol K) K) (hl : g.polGrids.length = g.ycoords.length) (hper : g.yperiodic = true) (j : ℕ)
    (hj : j < g.ny) (s : ℤ) :
    ∃ j' p yp y' k, j' < g.ny ∧ (j' : ℤ) = ((j : ℤ) + s) % (g.ny : ℤ) ∧ (k : ℤ) = ((j : ℤ) + s) / (g.ny : ℤ) ∧
      g.getPoloidalGrid (j : K) = .ok (some p, yp) ∧
      (∃ q, g.getPoloidalGrid (j' : K) = .ok (some q, y') ∧ g.getPoloidalGrid ((j : K) + (s : K)) = .ok (some q, y' + (k : K) * g.Ly)) ∧
      g.getPoloidalGrid ((j' : K) + ((-s : ℤ) : K)) = .ok (some p, yp - (k : K) * g.Ly) := by
  have hn : (0 : ℤ) < g.ycoords.length := by have : g.ny = g.ycoords.length := rfl; omega
  have hny : g.ny = g.ycoords.length := rfl
  have h0 := Int.emod_nonneg ((j : ℤ) + s) hn.ne'
  have h1 := Int.emod_lt_of_pos ((j : ℤ) + s) hn
  have hd := Int.emod_add_mul_ediv ((j : ℤ) + s) g.ycoords.length
  set j' := (((j : ℤ) + s) % (g.ycoords.length : ℤ)).toNat with hj'
  set k := ((j : ℤ) + s) / (g.ycoords.length : ℤ) with hk
  have hj'l : j' < g.ycoords.length := by omega
  have hjl : j < g.ycoords.length := hj
  have a0 := Grid.getInt_periodic g hl (by omega) hper j hjl 0
  have a1 := Grid.getInt_periodic g hl (by omega) hper j' hj'l 0
  have a2 := Grid.getInt_periodic g hl (by omega) hper j' hj'l k
  have a3 := Grid.getInt_periodic g hl (by omega) hper j hjl (-k)
  have c1 : ((j' : ℤ) + k * (g.ycoords.length : ℤ)) = (j : ℤ) + s := by
    rw [hj', Int.toNat_of_nonneg h0, mul_comm]; exact hd
  have c2 : ((j : ℤ) + -k * (g.ycoords.length : ℤ)) = (j' : ℤ) + -s := by linarith
  rw [c1] at a2
  rw [c2] at a3
  rw [zero_mul, add_zero] at a0 a1
  simp only [Int.cast_zero, zero_mul, add_zero, Int.cast_natCast] at a0 a1
  refine ⟨j', g.polGrids[j]'(by omega), g.ycoords[j], g.ycoords[j'], k, by rw [hny]; exact hj'l, ?_, ?_, a0,
    ⟨g.polGrids[j']'(by omega), a1, ?_⟩, ?_⟩
  · rw [hny]; omega
  · rw [hny]
  · rw [← a2]; push_cast; rfl
  · have : g.ycoords[j] - (k : K) * g.Ly = g.ycoords[j] + ((-k : ℤ) : K) * g.Ly := by push_cast; ring
    rw [this, ← a3]
    push_cast
    rfl

/-- **C251.** On a periodic grid: if the field line of a cell meets a grid point of the adjacent plane, the row of the one direction has
the value there, and the row of the other direction at that grid point has the value of the cell. -/
theorem C251_inverse (jc : ℕ → ℤ) (jw : ℕ → K) (e : MmEnv K) (hf : FollowOk e) (φ : K → K → K → K → K × K) (hφ : PointTracer e φ)
    (hback : ∀ R Z s t, φ (φ R Z s t).1 (φ R Z s t).2 t s = (R, Z))
    (hshift : ∀ R Z s t, φ R Z (s + e.grid.Ly) (t + e.grid.Ly) = φ R Z s t)
    (hl : e.grid.polGrids.length = e.grid.ycoords.length) (hper : e.grid.yperiodic = true) (mxg r nc : ℕ)
    (empty : JState K) (m : ODict (MapVal K)) (h : makeMaps e 1 mxg 1 r nc empty = .ok m) (first : MapPol K) (i : Input K)
    (hi : ReadFrom e mxg 1 m first i) (hm : 2 * mxg ≤ first.nx)
    (hnodes : ∀ p ∈ e.grid.polGrids, FindsNodes p ∧ p.nx = first.nx ∧ p.nz = first.nz)
    (hin : ∀ p ∈ e.grid.polGrids, ∀ x z y, mxg ≤ x → x + mxg < first.nx → z < first.nz → e.outside (p.R x z) y (p.Z x z) = false) (o : Ops K)
    (ho : calculateOps jc jw (asMapDict first.nx e.grid.ny first.nz 1 m) = .ok o) (fwd : Bool) (x j z : ℕ) (hc : i.Interior (x, j, z))
    (a b : ℕ) (hab : i.Interior (a, i.plane fwd j, b))
    (hend : ∀ pol p y yt, e.grid.getPoloidalGrid (j : K) = .ok (some pol, y) →
      e.grid.getPoloidalGrid ((j : K) + (stepOf fwd : K)) = .ok (some p, yt) → φ (pol.R x z) (pol.Z x z) y yt = (p.R a b, p.Z a b)) :
    (∀ v : ℤ → K, applyRow ((o.legs fwd).op.row ((o.legs fwd).legInterior (x, j, z)).toNat) v = v (o.cellNumber (a, i.plane fwd j, b))) ∧
    ∀ v : ℤ → K, applyRow ((o.legs !fwd).op.row ((o.legs !fwd).legInterior (a, i.plane fwd j, b)).toNat) v = v (o.cellNumber (x, j, z)) := by
  obtain ⟨hx1, hx2, hjn, hz⟩ := hc
  obtain ⟨ha1, ha2, hpn, hb⟩ := hab
  have hjy : j < e.grid.ny := by rw [← hi.eny]; exact hjn
  obtain ⟨j', p, yp, y', k, hj', hje, hke, g1, ⟨q, g2, g3⟩, g4⟩ := periodic_step e.grid hl hper j hjy (stepOf fwd)
  have hpl : i.plane fwd j = j' := by
    unfold Input.plane
    rw [hi.eny]
    have : (if fwd = true then (1 : ℤ) else -1) = stepOf fwd := rfl
    rw [this, ← hje]
    simp
  have mem : ∀ (t : ℤ) (p : MapPol K) (y : K), e.grid.getPoloidalGrid (t : K) = .ok (some p, y) → p ∈ e.grid.polGrids := by
    intro t p y ht
    have hn : (0 : ℤ) < e.grid.ycoords.length := by have : e.grid.ny = e.grid.ycoords.length := rfl; omega
    have h0 := Int.emod_nonneg t hn.ne'
    have h1 := Int.emod_lt_of_pos t hn
    have hd := Int.emod_add_mul_ediv t e.grid.ycoords.length
    have := Grid.getInt_periodic e.grid hl (by omega) hper (t % (e.grid.ycoords.length : ℤ)).toNat (by omega) (t / e.grid.ycoords.length)
    rw [Int.toNat_of_nonneg h0, mul_comm (t / _) _, hd, ht] at this
    injection this with this
    injection this with this _
    injection this with this
    rw [this]
    exact List.getElem_mem _
  have hpm : p ∈ e.grid.polGrids := mem j p yp (by push_cast; exact g1)
  have hqm : q ∈ e.grid.polGrids := mem j' q y' (by push_cast; exact g2)
  rw [hi.emxg] at hx1 hx2 ha1 ha2
  rw [hi.enx] at hx2 ha2
  rw [hi.enz] at hz hb
  simp only at hx1 hx2 ha1 ha2 hz hb
  have hline := hend p q yp _ g1 g3
  have hci : i.Interior (x, j, z) := ⟨by rw [hi.emxg]; exact hx1, by rw [hi.emxg, hi.enx]; exact hx2, hjn, by rw [hi.enz]; exact hz⟩
  have hai : i.Interior (a, j', b) :=
    ⟨by rw [hi.emxg]; exact ha1, by rw [hi.emxg, hi.enx]; exact ha2, by rw [← hpl]; exact hpn, by rw [hi.enz]; exact hb⟩
  constructor
  · intro v
    exact node_row jc jw e hf φ hφ mxg r nc empty m h first i hi hm o ho fwd x j z hci p q yp _ g1 g3 (hnodes q hqm).1 (hnodes q hqm).2 a b ha1 ha2 hb
      hline (hin q hqm a b _ ha1 ha2 hb) v
  · intro v
    have hshift' : ∀ (n : ℕ) R Z s t, φ R Z (s + (n : K) * e.grid.Ly) (t + (n : K) * e.grid.Ly) = φ R Z s t := by
      intro n
      induction n with
      | zero => intro R Z s t; simp
      | succ n ih =>
        intro R Z s t
        have e1 : ∀ s : K, s + ((n + 1 : ℕ) : K) * e.grid.Ly = s + (n : K) * e.grid.Ly + e.grid.Ly := by intro s; push_cast; ring
        rw [e1, e1, hshift, ih]
    have hshiftk : ∀ R Z s t, φ R Z (s + (k : K) * e.grid.Ly) (t + (k : K) * e.grid.Ly) = φ R Z s t := by
      intro R Z s t
      rcases Int.eq_nat_or_neg k with ⟨n, hk | hk⟩
      · rw [hk]
        have := hshift' n R Z s t
        push_cast
        exact this
      · have := hshift' n R Z (s + (k : K) * e.grid.Ly) (t + (k : K) * e.grid.Ly)
        have e1 : ∀ s : K, s + (k : K) * e.grid.Ly + (n : K) * e.grid.Ly = s := by
          intro s
          rw [hk]; push_cast; ring
        rw [e1, e1] at this
        exact this.symm
    have hb' : φ (q.R a b) (q.Z a b) y' (yp - (k : K) * e.grid.Ly) = (p.R x z, p.Z x z) := by
      have h1 := hback (p.R x z) (p.Z x z) yp (y' + (k : K) * e.grid.Ly)
      rw [hline] at h1
      have h2 := hshiftk (q.R a b) (q.Z a b) y' (yp - (k : K) * e.grid.Ly)
      rw [sub_add_cancel] at h2
      rw [← h2]
      exact h1
    have hstep : (stepOf (!fwd) : ℤ) = -stepOf fwd := by cases fwd <;> rfl
    have hplb : i.plane (!fwd) j' = j := by
      unfold Input.plane
      have e1 : (if (!fwd) = true then (1 : ℤ) else -1) = -stepOf fwd := by cases fwd <;> rfl
      rw [e1, hi.eny, hje, ← Int.add_emod_emod]
      have hn : (0 : ℤ) < e.grid.ny := by omega
      rw [Int.add_emod_emod, Int.emod_add_emod]
      have : (j : ℤ) + stepOf fwd + -stepOf fwd = j := by ring
      rw [this, Int.emod_eq_of_lt (by omega) (by omega)]
      simp
    have := node_row jc jw e hf φ hφ mxg r nc empty m h first i hi hm o ho (!fwd) a j' b hai q p y' _ g2
      (by rw [hstep]; exact g4) (hnodes p hpm).1 (hnodes p hpm).2 x z hx1 hx2 hz hb' (hin p hpm x z _ hx1 hx2 hz) v
    rw [hpl, this, hplb]

/-- **C251.** So the operator of the other direction, applied to the result of the first, gives the value back. -/
theorem C251_undoes (jc : ℕ → ℤ) (jw : ℕ → K) (e : MmEnv K) (hf : FollowOk e) (φ : K → K → K → K → K × K) (hφ : PointTracer e φ)
    (hback : ∀ R Z s t, φ (φ R Z s t).1 (φ R Z s t).2 t s = (R, Z))
    (hshift : ∀ R Z s t, φ R Z (s + e.grid.Ly) (t + e.grid.Ly) = φ R Z s t)
    (hl : e.grid.polGrids.length = e.grid.ycoords.length) (hper : e.grid.yperiodic = true) (mxg r nc : ℕ)
    (empty : JState K) (m : ODict (MapVal K)) (h : makeMaps e 1 mxg 1 r nc empty = .ok m) (first : MapPol K) (i : Input K)
    (hi : ReadFrom e mxg 1 m first i) (hm : 2 * mxg ≤ first.nx)
    (hnodes : ∀ p ∈ e.grid.polGrids, FindsNodes p ∧ p.nx = first.nx ∧ p.nz = first.nz)
    (hin : ∀ p ∈ e.grid.polGrids, ∀ x z y, mxg ≤ x → x + mxg < first.nx → z < first.nz → e.outside (p.R x z) y (p.Z x z) = false) (o : Ops K)
    (ho : calculateOps jc jw (asMapDict first.nx e.grid.ny first.nz 1 m) = .ok o) (fwd : Bool) (x j z : ℕ) (hc : i.Interior (x, j, z))
    (a b : ℕ) (hab : i.Interior (a, i.plane fwd j, b))
    (hend : ∀ pol p y yt, e.grid.getPoloidalGrid (j : K) = .ok (some pol, y) →
      e.grid.getPoloidalGrid ((j : K) + (stepOf fwd : K)) = .ok (some p, yt) → φ (pol.R x z) (pol.Z x z) y yt = (p.R a b, p.Z a b))
    (v u : ℤ → K) (hu : ∀ c, i.Interior c → u (o.cellNumber c) = applyRow ((o.legs fwd).op.row ((o.legs fwd).legInterior c).toNat) v) :
    applyRow ((o.legs !fwd).op.row ((o.legs !fwd).legInterior (a, i.plane fwd j, b)).toNat) u = v (o.cellNumber (a, i.plane fwd j, b)) := by
  obtain ⟨q1, q2⟩ := C251_inverse jc jw e hf φ hφ hback hshift hl hper mxg r nc empty m h first i hi hm hnodes hin o ho fwd x j z hc a b hab hend
  rw [q2, hu _ hc, q1]

/-- The hypotheses can be met: a slab with field lines that go up by one cell. -/
example : ∃ (m : ODict (MapVal ℚ)) (i : Input ℚ) (o : Ops ℚ), makeMaps (slabMm 1) 1 0 1 1 1 ⟨fun _ => 0, fun _ _ => 0, fun _ _ => 0⟩ = .ok m ∧
    calculateOps (fun _ => 0) (fun _ => 0) (asMapDict slabPol.nx (slabMm 1).grid.ny slabPol.nz 1 m) = .ok o ∧
    ∀ v u : ℤ → ℚ, (∀ c, i.Interior c → u (o.cellNumber c) = applyRow ((o.legs true).op.row ((o.legs true).legInterior c).toNat) v) →
      applyRow ((o.legs false).op.row ((o.legs false).legInterior (0, 0, 2)).toNat) u = v (o.cellNumber (0, 0, 2)) := by
  obtain ⟨m, i, o, h, hi, ho⟩ := slabMm_all 1
  refine ⟨m, i, o, h, ho, fun v u hu => ?_⟩
  have hp : i.plane true 0 = 0 := by
    unfold Input.plane
    rw [hi.eny]
    rfl
  have hint : ∀ z < 4, i.Interior (0, 0, z) := by
    intro z hz
    exact ⟨by rw [hi.emxg], by rw [hi.emxg, hi.enx]; clear hz; exact (by decide : 0 + 0 < slabPol.mapPol.nx), by rw [hi.eny]; exact (by decide : 0 < 1), by rw [hi.enz]; exact hz⟩
  have hmem : ∀ p ∈ (slabMm 1).grid.polGrids, p = slabPol.mapPol := by
    intro p hp
    simpa [slabMm] using hp
  have := C251_undoes (fun _ => 0) (fun _ => 0) (slabMm 1) (slabMm_env 1).follow _ (slabMm_env 1).lines
    (by intro R Z s t; simp [slabLine]; ring) (by intro R Z s t; simp [slabLine]) rfl rfl 0 1 1 _ m h slabPol.mapPol i hi (by decide)
    (by
      intro p hp
      rw [hmem p hp]
      exact ⟨rect_findsNodes _ (by norm_num [slabPol]) (by norm_num [slabPol]), rfl, rfl⟩)
    (fun _ _ _ _ _ _ _ _ => rfl) o ho true 0 0 1 (hint 1 (by decide)) 0 2 (by rw [hp]; exact hint 2 (by decide))
    (by
      intro pol p y yt g1 g2
      obtain ⟨h0, h1⟩ := slabMm_here 1
      rw [h0] at g1
      rw [h1] at g2
      injection g1 with g1
      injection g1 with ga gb
      injection ga with ga
      injection g2 with g2
      injection g2 with gc gd
      injection gc with gc
      subst ga gb gc gd
      norm_num [slabLine, RectPol.mapPol, RectPol.pol, slabPol]) v u hu
  rw [hp] at this
  exact this

end Zoidberg
