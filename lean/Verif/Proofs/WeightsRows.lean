import Verif.Props.WeightsCells

/-! The exported rows of the operators. -/

set_option linter.unusedSectionVars false

namespace Zoidberg.Weights

variable {K : Type} [Field K] [LinearOrder K] [IsStrictOrderedRing K] [FloorRing K]
  (jc : ℕ → ℤ) (jw : ℕ → K) (maps : MapDict K) (i : Input K)

/-- The exported row of a leg. -/
def LegOps.rowOf (l : LegOps K) (k : Bool × Cell) : List (ℤ × K) := l.op.row (l.number k).toNat

theorem rowOf_eq (h : Represents maps i) (hm : 2 * i.mxg ≤ i.nx) (hw : i.GoodWeights) (o : Ops K)
    (ho : calculateOps jc jw maps = .ok o) (fwd : Bool) (c : Cell) :
    (i.Interior c → i.SomeEscape fwd c →
      (o.legs fwd).rowOf (true, c) = [(o.number (.bnd fwd c), 1)]) ∧
    (i.Interior c → i.SomeStay fwd c →
      (o.legs fwd).rowOf (false, c) = addAll [] (i.contribs fwd c)) := by
  obtain ⟨_, _, _, _, _, hl⟩ := calculateOps_inv jc jw maps i h o ho
  obtain ⟨b, ws, hb, _, e⟩ := hl fwd
  obtain ⟨b', hb', hbl, hrow⟩ := dest_ok i hm hw fwd
  have : b = b' := by
    have := hb.symm.trans hb'
    injection this
  subst this
  have hn := number_eq jc jw maps i h o ho (.bnd fwd c)
  have hbn : o.number (.bnd fwd c) = i.bn fwd c := by
    rw [hn]; cases fwd <;> rfl
  have row : ∀ k ∈ legOrder i.nx i.ny i.nz i.mxg ⟨i.n, i.xs fwd⟩,
      (o.legs fwd).rowOf k = b.getD ((i.ls fwd).number k).toNat [] := by
    intro k hk
    have h1 := (legs_number jc jw maps i h o ho fwd k).1
    have hlt : 0 ≤ (i.ls fwd).number k ∧ (i.ls fwd).number k < (i.ls fwd).nLegs :=
      leg_lt _ _ _ _ _ i.w k hk
    have hlt' : ((i.ls fwd).number k).toNat < b.length := by rw [hbl]; omega
    unfold LegOps.rowOf
    rw [h1, e]
    simp only [Input.legOps]
    rw [toCsr_row jc jw b _ hlt', List.getD_eq_getElem _ _ hlt']
  constructor
  · intro hi he
    have hk := (legKey_iff i fwd true c).2 ⟨hi, he⟩
    rw [row _ hk, hbn]
    exact (hrow c).1 hk
  · intro hi he
    have hk := (legKey_iff i fwd false c).2 ⟨hi, he⟩
    rw [row _ hk]
    exact (hrow c).2 hk

theorem contribs_eq (hlen : i.w.length = i.n) (fwd : Bool) (c : Cell) :
    i.contribs fwd c = (List.range i.n).flatMap fun s =>
      contribSample (i.nx, i.ny, i.nz) i.cs.cellNumber c.2.1 (if fwd then 1 else -1) i.mxg
        (∑ s ∈ i.staying fwd c, i.w.getD s 0)
        (i.xs fwd c s, i.zs fwd c s, i.w.getD s 0, hits (i.xs fwd c s) i.nx i.mxg) := by
  unfold Input.contribs contribs
  simp only
  rw [maskedSum_staying i fwd c hlen]
  simp only [SubArr.row, List.map_map]
  rw [samples_eq _ _ _ _ _ hlen, List.flatMap_map]
  rfl

/-- The plane of the destination. -/
theorem plane_eq (fwd : Bool) (y : ℕ) :
    (pyMod ((y : ℤ) + (if fwd then 1 else -1) + i.ny) i.ny).toNat = i.plane fwd y := by
  unfold pyMod Input.plane
  rw [Int.add_emod_right]

theorem plane_lt (hy : 0 < i.ny) (fwd : Bool) (y : ℕ) : i.plane fwd y < i.ny := by
  rw [← plane_eq]; exact toNat_pyMod_lt _ _ hy

/-- Where the columns of an interior row point to. -/
theorem mem_contribs (hlen : i.w.length = i.n) (fwd : Bool) (c : Cell) (hc : i.Interior c)
    (e : ℤ × K) (he : e ∈ i.contribs fwd c) :
    ∃ d, i.Interior d ∧ d.2.1 = i.plane fwd c.2.1 ∧ e.1 = i.cs.cellNumber d := by
  rw [contribs_eq i hlen, List.mem_flatMap] at he
  obtain ⟨s, _, he⟩ := he
  unfold contribSample at he
  split at he
  · simp at he
  · rename_i hh
    simp only at hh
    rw [List.mem_flatMap] at he
    obtain ⟨p, hp, he⟩ := he
    unfold contribX at he
    split at he
    · simp at he
    · rename_i hthr
      rw [List.mem_map] at he
      obtain ⟨q, hq, rfl⟩ := he
      obtain ⟨_, hlo, hhi⟩ := pyInt_interior _ _ _ (by simpa using hh)
      have h0 : p.2 ≠ 0 := by
        intro h0; apply hthr; rw [h0]; norm_num
      have sup := shifted_support _ _ _ _ _ _ _ hlo hhi p hp h0
      obtain ⟨h1, h2, h3, h4⟩ := hc
      refine ⟨_, ⟨?_, ?_, ?_, ?_⟩, ?_, rfl⟩
      · change i.mxg ≤ (npClip (pyInt (i.xs fwd c s) + p.1) 0 ((i.nx : ℤ) - 1)).toNat
        unfold npClip; omega
      · change (npClip (pyInt (i.xs fwd c s) + p.1) 0 ((i.nx : ℤ) - 1)).toNat + i.mxg < i.nx
        unfold npClip; omega
      · exact toNat_pyMod_lt _ _ (show 0 < i.ny by omega)
      · exact toNat_pyMod_lt _ _ (show 0 < i.nz by omega)
      · exact plane_eq i fwd c.2.1

/-- The row as a sum over the sub-samples that stay. -/
theorem applyRow_contribs (hlen : i.w.length = i.n) (fwd : Bool) (c : Cell) (v : ℤ → K) :
    applyRow (i.contribs fwd c) v = ∑ s ∈ i.staying fwd c,
      i.w.getD s 0 / (∑ s ∈ i.staying fwd c, i.w.getD s 0) *
        ((xOffsets.zip (shiftedCR (i.xs fwd c s - (pyInt (i.xs fwd c s) : K)) (pyInt (i.xs fwd c s))
            i.nx i.mxg)).map
          fun p => thr p.2 * zApply (i.nx, i.ny, i.nz) i.cs.cellNumber (pyInt (i.xs fwd c s))
            (pyInt (i.zs fwd c s)) c.2.1 (if fwd then 1 else -1)
            (catmullRom (i.zs fwd c s - (pyInt (i.zs fwd c s) : K))) v p.1).sum := by
  rw [contribs_eq i hlen, applyRow_flatMap, list_range_sum]
  generalize ∑ s ∈ i.staying fwd c, i.w.getD s 0 = W
  unfold Input.staying
  rw [Finset.sum_filter]
  apply Finset.sum_congr rfl
  intro s _
  rw [applyRow_contribSample]
  simp only
  by_cases hE : i.Escapes (i.xs fwd c s)
  · rw [if_pos ((hits_iff i _).2 hE), if_neg (not_not.2 hE)]
  · rw [if_neg (fun h => hE ((hits_iff i _).1 h)), if_pos hE]

theorem staying_pos (hw : i.GoodWeights) (fwd : Bool) (c : Cell) (hs : i.SomeStay fwd c) :
    0 < ∑ s ∈ i.staying fwd c, i.w.getD s 0 := by
  apply Finset.sum_pos
  · intro s hs
    unfold Input.staying at hs
    have hlt : s < i.w.length := by
      rw [hw.len]; simpa using (Finset.mem_filter.1 hs).1
    rw [List.getD_eq_getElem _ _ hlt]
    exact hw.pos _ (List.getElem_mem hlt)
  · obtain ⟨s, h1, h2⟩ := hs
    exact ⟨s, by simp [Input.staying, h1, h2]⟩

/-- The weighted average of bounded errors is bounded. -/
theorem average_bound (S : Finset ℕ) (w : ℕ → K) (hw : ∀ s ∈ S, 0 < w s) (hS : S.Nonempty)
    (a b : ℕ → K) (B : K) (h : ∀ s ∈ S, |a s - b s| ≤ B) :
    |∑ s ∈ S, w s / (∑ t ∈ S, w t) * a s - (∑ s ∈ S, w s * b s) / (∑ t ∈ S, w t)| ≤ B := by
  have hpos : 0 < ∑ t ∈ S, w t := Finset.sum_pos hw hS
  have e : ∑ s ∈ S, w s / (∑ t ∈ S, w t) * a s - (∑ s ∈ S, w s * b s) / (∑ t ∈ S, w t) =
      (∑ s ∈ S, w s * (a s - b s)) / (∑ t ∈ S, w t) := by
    rw [Finset.sum_congr rfl (fun s _ => show w s * (a s - b s) = w s * a s - w s * b s by ring),
      Finset.sum_sub_distrib, sub_div]
    congr 1
    generalize ∑ t ∈ S, w t = W
    rw [Finset.sum_div]
    apply Finset.sum_congr rfl; intro s _; ring
  rw [e, abs_div, abs_of_pos hpos, div_le_iff₀ hpos]
  calc |∑ s ∈ S, w s * (a s - b s)| ≤ ∑ s ∈ S, |w s * (a s - b s)| := Finset.abs_sum_le_sum_abs ..
    _ ≤ ∑ s ∈ S, w s * B := by
        apply Finset.sum_le_sum
        intro s hs
        rw [abs_mul, abs_of_pos (hw s hs)]
        exact mul_le_mul_of_nonneg_left (h s hs) (hw s hs).le
    _ = B * ∑ t ∈ S, w t := by rw [← Finset.sum_mul, mul_comm]

/-- z-interpolation of a vector, expressed with the spline. -/
theorem zApply_eq (hx : 0 < i.nx) (xb zb : ℤ) (y : ℕ) (fwd : Bool) (u : K) (v : ℤ → K) (xo : ℤ)
    (h1 : (i.mxg : ℤ) ≤ xb + xo) (h2 : xb + xo < (i.nx : ℤ) - i.mxg) :
    zApply (i.nx, i.ny, i.nz) i.cs.cellNumber xb zb y (if fwd then 1 else -1) (catmullRom u) v xo =
      catmullRomSpline (fun oz => v (i.cs.cellNumber
        (i.clampX (xb + xo), i.plane fwd y, ((zb + oz) % (i.nz : ℤ)).toNat))) u := by
  rw [← catmullRom_apply]
  unfold zApply
  congr 1
  apply List.map_congr_left
  intro p _
  congr 2
  have e1 : (npClip (xb + xo) 0 ((i.nx : ℤ) - 1)).toNat = i.clampX (xb + xo) := by
    unfold npClip Input.clampX; omega
  have e3 : pyMod (zb + p.1 + (i.nz : ℤ)) (i.nz : ℤ) = (zb + p.1) % (i.nz : ℤ) := by
    unfold pyMod; rw [Int.add_emod_right]
  simp only [e1, e3, plane_eq i fwd y]

/-- One sub-sample: adjusted weights times z-interpolation is the tensor product
interpolation. -/
theorem sample_ideal (hx : 0 < i.nx) (x z : K) (hE : ¬ i.Escapes x) (y : ℕ) (fwd : Bool)
    (v : ℤ → K) (hz : 0 ≤ z) :
    ((xOffsets.zip (shiftedCR (x - (pyInt x : K)) (pyInt x) i.nx i.mxg)).map
      fun p => p.2 * zApply (i.nx, i.ny, i.nz) i.cs.cellNumber (pyInt x) (pyInt z) y
        (if fwd then 1 else -1) (catmullRom (z - (pyInt z : K))) v p.1).sum =
      i.interp (fun d => v (i.cs.cellNumber d)) (i.plane fwd y) x z := by
  have hh : hits x i.nx i.mxg = false := by
    rw [← Bool.not_eq_true, hits_iff]; exact hE
  obtain ⟨hfl, hlo, hhi⟩ := pyInt_interior x _ _ hh
  have hzf : pyInt z = ⌊z⌋ := by simp [pyInt, hz]
  have e := shiftedCR_apply (x - (pyInt x : K)) (pyInt x) i.nx i.mxg hlo hhi
    (fun X => catmullRomSpline (fun oz => v (i.cs.cellNumber
        (i.clampX X, i.plane fwd y, ((pyInt z + oz) % (i.nz : ℤ)).toNat))) (z - (pyInt z : K)))
  have e2 : ((xOffsets.zip (shiftedCR (x - (pyInt x : K)) (pyInt x) i.nx i.mxg)).map
      fun p => p.2 * zApply (i.nx, i.ny, i.nz) i.cs.cellNumber (pyInt x) (pyInt z) y
        (if fwd then 1 else -1) (catmullRom (z - (pyInt z : K))) v p.1) =
      ((xOffsets.zip (shiftedCR (x - (pyInt x : K)) (pyInt x) i.nx i.mxg)).map
        fun p => p.2 * catmullRomSpline (fun oz => v (i.cs.cellNumber
        (i.clampX (pyInt x + p.1), i.plane fwd y, ((pyInt z + oz) % (i.nz : ℤ)).toNat)))
          (z - (pyInt z : K))) := by
    apply List.map_congr_left
    intro p hp
    by_cases h0 : p.2 = 0
    · rw [h0]; simp
    · obtain ⟨s1, s2⟩ := shifted_support _ _ _ _ _ _ _ hlo hhi p hp h0
      rw [zApply_eq i hx _ _ _ _ _ _ _ s1 s2]
  rw [e2, e]
  have hcl : ∀ X : ℤ, i.clampX (max (i.mxg : ℤ) (min X ((i.nx : ℤ) - i.mxg - 1))) = i.clampX X := by
    intro X; unfold Input.clampX
    congr 1
    omega
  simp only [hcl]
  rw [hfl, hzf]
  rfl

end Zoidberg.Weights
