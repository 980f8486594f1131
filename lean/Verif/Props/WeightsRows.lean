import Verif.Proofs.WeightsRows

/-! # C11-C14: content of the exported operator rows -/

set_option linter.unusedSectionVars false

namespace Zoidberg.Weights

variable {K : Type} [Field K] [LinearOrder K] [IsStrictOrderedRing K] [FloorRing K]
  (jc : ℕ → ℤ) (jw : ℕ → K) (maps : MapDict K) (i : Input K)

/-- C11: a boundary row is the unit row of its own boundary cell; the columns of
an interior row are evolving cells of the neighbouring plane, none repeated. -/
theorem C11_row_columns (h : Represents maps i) (hm : 2 * i.mxg ≤ i.nx) (hw : i.GoodWeights)
    (o : Ops K) (ho : calculateOps jc jw maps = .ok o) (fwd : Bool) (c : Cell)
    (hc : i.Interior c) :
    (i.SomeEscape fwd c →
      (o.legs fwd).op.row ((o.legs fwd).legBoundary c).toNat = [(o.number (.bnd fwd c), 1)]) ∧
    (i.SomeStay fwd c →
      (((o.legs fwd).op.row ((o.legs fwd).legInterior c).toNat).map (·.1)).Nodup ∧
      ∀ e ∈ (o.legs fwd).op.row ((o.legs fwd).legInterior c).toNat,
        ∃ d, i.Interior d ∧ d.2.1 = i.plane fwd c.2.1 ∧ e.1 = o.cellNumber d ∧
          0 ≤ e.1 ∧ e.1 < i.nEvolving) := by
  obtain ⟨h1, h2⟩ := rowOf_eq jc jw maps i h hm hw o ho fwd c
  constructor
  · intro he; exact h1 hc he
  · intro hs
    have hr : (o.legs fwd).op.row ((o.legs fwd).legInterior c).toNat = addAll [] (i.contribs fwd c) :=
      h2 hc hs
    rw [hr]
    refine ⟨nodup_addAll _ _ (by simp), ?_⟩
    intro e he
    have hcol : e.1 ∈ (i.contribs fwd c).map (·.1) := by
      have := (cols_addAll (i.contribs fwd c) [] e.1).1 (List.mem_map_of_mem he)
      simpa using this
    obtain ⟨e', he', hee⟩ := List.mem_map.1 hcol
    obtain ⟨d, hd, hp, hnum⟩ := mem_contribs i hw.len fwd c hc e' he'
    obtain ⟨_, _, hcn, _⟩ := calculateOps_inv jc jw maps i h o ho
    refine ⟨d, hd, hp, by rw [← hee, hnum, hcn], ?_⟩
    obtain ⟨x, y, z⟩ := d
    obtain ⟨q1, q2, q3, q4⟩ := hd
    simp only at q1 q2 q3 q4
    have := (C02_numbering_order jc jw maps i h hm o ho).1 x y z q1 q2 q3 q4
    rw [hcn] at this
    rw [← hee, hnum, this]
    refine ⟨by omega, ?_⟩
    rw [Input.nEvolving]
    have a1 : (x - i.mxg) * i.ny + y < (i.nx - 2 * i.mxg) * i.ny := by
      have : x - i.mxg + 1 ≤ i.nx - 2 * i.mxg := by omega
      have := Nat.mul_le_mul_right i.ny this
      rw [Nat.add_mul] at this; omega
    have a2 : ((x - i.mxg) * i.ny + y) * i.nz + z < (i.nx - 2 * i.mxg) * i.ny * i.nz := by
      have : (x - i.mxg) * i.ny + y + 1 ≤ (i.nx - 2 * i.mxg) * i.ny := a1
      have := Nat.mul_le_mul_right i.nz this
      rw [Nat.add_mul] at this; omega
    exact_mod_cast a2

/-- Distance from the nearest grid row from which no X weight is ever dropped. -/
def ClearOfNodes (x : K) : Prop :=
  x = (⌊x⌋ : K) ∨ (1 / 10 ^ 4 ≤ x - (⌊x⌋ : K) ∧ x - (⌊x⌋ : K) ≤ 1 - 1 / 10 ^ 4)

/-- No non-zero X weight used for mapped index `x` is below the drop tolerance
(what these weights are is C08 and C09). -/
def Input.NoneSkipped (i : Input K) (x : K) : Prop :=
  ∀ a ∈ shiftedCR (x - (⌊x⌋ : K)) ⌊x⌋ i.nx i.mxg, a = 0 ∨ 1 / 10 ^ 10 ≤ |a|

/-- A condition on the position that guarantees it. -/
theorem noneSkipped_of_clear (x : K) (hx : ClearOfNodes x) : i.NoneSkipped x := by
  intro a ha
  have hu : x - (⌊x⌋ : K) = 0 ∨
      (1 / 10 ^ 4 ≤ x - (⌊x⌋ : K) ∧ x - (⌊x⌋ : K) ≤ 1 - 1 / 10 ^ 4) := by
    rcases hx with h | h
    · left; exact sub_eq_zero.2 h
    · exact Or.inr h
  have hm : (xOffsets.zip (shiftedCR (x - (⌊x⌋ : K)) ⌊x⌋ i.nx i.mxg)).map (fun p => p.2) =
      shiftedCR (x - (⌊x⌋ : K)) ⌊x⌋ i.nx i.mxg := by
    rw [List.map_snd_zip]
    rw [shiftedCR, length_shifted]; rfl
  rw [← hm, List.mem_map] at ha
  obtain ⟨p, hp, rfl⟩ := ha
  have := thr_shiftedCR _ hu _ _ _ p hp
  unfold thr at this
  split at this
  · exact Or.inl this.symm
  · rename_i h; exact Or.inr (not_lt.1 h)

theorem thr_sum_exact (x : K) (hE : ¬ i.Escapes x) (hx : i.NoneSkipped x) (g : ℤ → K) :
    ((xOffsets.zip (shiftedCR (x - (pyInt x : K)) (pyInt x) i.nx i.mxg)).map
      fun p => thr p.2 * g p.1).sum =
    ((xOffsets.zip (shiftedCR (x - (pyInt x : K)) (pyInt x) i.nx i.mxg)).map
      fun p => p.2 * g p.1).sum := by
  have hh : hits x i.nx i.mxg = false := by
    rw [← Bool.not_eq_true, hits_iff]; exact hE
  obtain ⟨hfl, _, _⟩ := pyInt_interior x _ _ hh
  congr 1
  apply List.map_congr_left
  intro p hp
  rw [hfl] at hp
  have h2 : p.2 ∈ shiftedCR (x - (⌊x⌋ : K)) ⌊x⌋ i.nx i.mxg := (List.of_mem_zip (a := p.1) (b := p.2) hp).2
  rcases hx _ h2 with h | h
  · rw [h]; simp [thr]
  · unfold thr; rw [if_neg (not_lt.2 h)]

theorem zApply_one (shape : ℕ × ℕ × ℕ) (cn : Cell → ℤ) (xb zb y yo : ℤ) (u : K) (xo : ℤ) :
    zApply shape cn xb zb y yo (catmullRom u) (fun _ => 1) xo = 1 := by
  have := sum_catmullRom u
  simp only [zApply, xOffsets, catmullRom, List.zip_cons_cons, List.zip_nil_right, List.map_cons,
    List.map_nil, List.sum_cons, List.sum_nil, mul_one] at this ⊢
  exact this

/-- One staying sub-sample applied to the constant 1. -/
theorem sample_one (x : K) (y : ℤ) (yo : ℤ) (z : K) :
    let L := xOffsets.zip (shiftedCR (x - (pyInt x : K)) (pyInt x) i.nx i.mxg)
    (L.map fun p => p.2 * zApply (i.nx, i.ny, i.nz) i.cs.cellNumber (pyInt x) (pyInt z) y yo
      (catmullRom (z - (pyInt z : K))) (fun _ => (1 : K)) p.1).sum = 1 := by
  intro L
  simp only [zApply_one, mul_one]
  have : L.map (fun p => p.2) = shiftedCR (x - (pyInt x : K)) (pyInt x) i.nx i.mxg := by
    rw [List.map_snd_zip]
    rw [shiftedCR, length_shifted]; rfl
  rw [this, shiftedCR, sum_shifted]
  ring

/-- C12: every boundary row sums to exactly one, every interior row to one up to
the skipped weights below 1e-10, and exactly if no non-zero weight is skipped
(which `noneSkipped_of_clear` reduces to a condition on the position). -/
theorem C12_row_sums (h : Represents maps i) (hm : 2 * i.mxg ≤ i.nx) (hw : i.GoodWeights)
    (o : Ops K) (ho : calculateOps jc jw maps = .ok o) (fwd : Bool) (c : Cell)
    (hc : i.Interior c) :
    (i.SomeEscape fwd c →
      (((o.legs fwd).op.row ((o.legs fwd).legBoundary c).toNat).map (·.2)).sum = 1) ∧
    (i.SomeStay fwd c →
      |(((o.legs fwd).op.row ((o.legs fwd).legInterior c).toNat).map (·.2)).sum - 1| ≤ 4 / 10 ^ 10) ∧
    (i.SomeStay fwd c → (∀ s ∈ i.staying fwd c, i.NoneSkipped (i.xs fwd c s)) →
      (((o.legs fwd).op.row ((o.legs fwd).legInterior c).toNat).map (·.2)).sum = 1) := by
  obtain ⟨h1, h2⟩ := rowOf_eq jc jw maps i h hm hw o ho fwd c
  have hsum : ∀ r : List (ℤ × K), (r.map (·.2)).sum = applyRow r (fun _ => 1) := by
    intro r; simp [applyRow]
  have hwpos : ∀ s ∈ i.staying fwd c, 0 < i.w.getD s 0 := by
    intro s hs
    have hlt : s < i.w.length := by
      rw [hw.len]
      unfold Input.staying at hs
      simpa using (Finset.mem_filter.1 hs).1
    rw [List.getD_eq_getElem _ _ hlt]
    exact hw.pos _ (List.getElem_mem hlt)
  have main : i.SomeStay fwd c → (i.staying fwd c).Nonempty ∧
      (((o.legs fwd).op.row ((o.legs fwd).legInterior c).toNat).map (·.2)).sum =
        applyRow (i.contribs fwd c) (fun _ => 1) := by
    intro hs
    have hr : (o.legs fwd).op.row ((o.legs fwd).legInterior c).toNat = addAll [] (i.contribs fwd c) :=
      h2 hc hs
    refine ⟨?_, by rw [hr, hsum, applyRow_addAll]; simp [applyRow]⟩
    obtain ⟨s, q1, q2⟩ := hs
    exact ⟨s, by simp [Input.staying, q1, q2]⟩
  refine ⟨?_, ?_, ?_⟩
  · intro he
    have hr : (o.legs fwd).op.row ((o.legs fwd).legBoundary c).toNat = _ := h1 hc he
    rw [hr]; simp
  · intro hs
    obtain ⟨hne, e⟩ := main hs
    rw [e, applyRow_contribs i hw.len]
    have := average_bound (i.staying fwd c) (fun s => i.w.getD s 0) hwpos hne
      (fun s => ((xOffsets.zip (shiftedCR (i.xs fwd c s - (pyInt (i.xs fwd c s) : K))
            (pyInt (i.xs fwd c s)) i.nx i.mxg)).map
          fun p => thr p.2 * zApply (i.nx, i.ny, i.nz) i.cs.cellNumber (pyInt (i.xs fwd c s))
            (pyInt (i.zs fwd c s)) c.2.1 (if fwd then 1 else -1)
            (catmullRom (i.zs fwd c s - (pyInt (i.zs fwd c s) : K))) (fun _ => 1) p.1).sum)
      (fun _ => 1) (4 / 10 ^ 10) (by
        intro s _
        have := thr_error (xOffsets.zip (shiftedCR (i.xs fwd c s - (pyInt (i.xs fwd c s) : K))
            (pyInt (i.xs fwd c s)) i.nx i.mxg)) (length_zip_shiftedCR ..)
          (fun xo => zApply (i.nx, i.ny, i.nz) i.cs.cellNumber (pyInt (i.xs fwd c s))
            (pyInt (i.zs fwd c s)) c.2.1 (if fwd then 1 else -1)
            (catmullRom (i.zs fwd c s - (pyInt (i.zs fwd c s) : K))) (fun _ => 1) xo) 1
          (by intro xo; rw [zApply_one, abs_one])
        rw [sample_one, mul_one] at this
        exact this)
    simp only [mul_one] at this
    rw [div_self (staying_pos i hw fwd c hs).ne'] at this
    exact this
  · intro hs hclear
    obtain ⟨hne, e⟩ := main hs
    rw [e, applyRow_contribs i hw.len]
    have hone : ∀ s ∈ i.staying fwd c,
        i.w.getD s 0 / (∑ s ∈ i.staying fwd c, i.w.getD s 0) *
        ((xOffsets.zip (shiftedCR (i.xs fwd c s - (pyInt (i.xs fwd c s) : K)) (pyInt (i.xs fwd c s))
            i.nx i.mxg)).map
          fun p => thr p.2 * zApply (i.nx, i.ny, i.nz) i.cs.cellNumber (pyInt (i.xs fwd c s))
            (pyInt (i.zs fwd c s)) c.2.1 (if fwd then 1 else -1)
            (catmullRom (i.zs fwd c s - (pyInt (i.zs fwd c s) : K))) (fun _ => 1) p.1).sum =
        i.w.getD s 0 / (∑ s ∈ i.staying fwd c, i.w.getD s 0) := by
      intro s hs'
      have hE : ¬ i.Escapes (i.xs fwd c s) := (Finset.mem_filter.1 hs').2
      rw [thr_sum_exact i _ hE (hclear s hs') (fun xo => zApply (i.nx, i.ny, i.nz) i.cs.cellNumber
        (pyInt (i.xs fwd c s)) (pyInt (i.zs fwd c s)) c.2.1 (if fwd then 1 else -1)
        (catmullRom (i.zs fwd c s - (pyInt (i.zs fwd c s) : K))) (fun _ => 1) xo),
        sample_one, mul_one]
    rw [Finset.sum_congr rfl hone, ← Finset.sum_div, div_self (staying_pos i hw fwd c hs).ne']

/-- C13, in part: an exported interior row, applied to any vector of cell values, is the
documented interpolation averaged over the staying sub-samples: exactly if no
non-zero X weight is skipped, and otherwise up to 5e-10 times the size of the values.  Missing: negative mapped z
indices, for which the claim is false (`C13_fails_for_negative_z`). -/
theorem C13_row_is_interpolation_partial (h : Represents maps i) (hm : 2 * i.mxg ≤ i.nx)
    (hw : i.GoodWeights) (o : Ops K) (ho : calculateOps jc jw maps = .ok o) (fwd : Bool) (c : Cell)
    (hc : i.Interior c) (hs : i.SomeStay fwd c) (hz : ∀ s ∈ i.staying fwd c, 0 ≤ i.zs fwd c s)
    (v : ℤ → K) :
    (∀ M, (∀ k, |v k| ≤ M) →
      |applyRow ((o.legs fwd).op.row ((o.legs fwd).legInterior c).toNat) v -
        i.legAverage fwd c (fun d => v (o.cellNumber d))| ≤ 5 / 10 ^ 10 * M) ∧
    ((∀ s ∈ i.staying fwd c, i.NoneSkipped (i.xs fwd c s)) →
      applyRow ((o.legs fwd).op.row ((o.legs fwd).legInterior c).toNat) v =
        i.legAverage fwd c (fun d => v (o.cellNumber d))) := by
  obtain ⟨_, h2⟩ := rowOf_eq jc jw maps i h hm hw o ho fwd c
  obtain ⟨_, _, hcn, _⟩ := calculateOps_inv jc jw maps i h o ho
  have hr : (o.legs fwd).op.row ((o.legs fwd).legInterior c).toNat = addAll [] (i.contribs fwd c) :=
    h2 hc hs
  have hnx : 0 < i.nx := by have := hc.2.1; omega
  have hwpos : ∀ s ∈ i.staying fwd c, 0 < i.w.getD s 0 := by
    intro s hs
    have hlt : s < i.w.length := by
      rw [hw.len]
      unfold Input.staying at hs
      simpa using (Finset.mem_filter.1 hs).1
    rw [List.getD_eq_getElem _ _ hlt]
    exact hw.pos _ (List.getElem_mem hlt)
  have hne : (i.staying fwd c).Nonempty := by
    obtain ⟨s, q1, q2⟩ := hs
    exact ⟨s, by simp [Input.staying, q1, q2]⟩
  have e0 : applyRow ([] : List (ℤ × K)) v = 0 := by simp [applyRow]
  have ideal : ∀ s ∈ i.staying fwd c, _ := fun s hs' =>
    sample_ideal i hnx (i.xs fwd c s) (i.zs fwd c s) (Finset.mem_filter.1 hs').2 c.2.1 fwd v
      (hz s hs')
  rw [hr, applyRow_addAll, e0, zero_add, applyRow_contribs i hw.len, hcn]
  constructor
  · intro M hM
    have hzb : ∀ s ∈ i.staying fwd c, ∀ xo, |zApply (i.nx, i.ny, i.nz) i.cs.cellNumber
        (pyInt (i.xs fwd c s)) (pyInt (i.zs fwd c s)) c.2.1 (if fwd then 1 else -1)
        (catmullRom (i.zs fwd c s - (pyInt (i.zs fwd c s) : K))) v xo| ≤ 5 / 4 * M := by
      intro s hs' xo
      have hzf : pyInt (i.zs fwd c s) = ⌊i.zs fwd c s⌋ := by simp [pyInt, hz s hs']
      have e := catmullRom_apply (i.zs fwd c s - (pyInt (i.zs fwd c s) : K)) (fun oz =>
        v (i.cs.cellNumber
        ( (npClip (pyInt (i.xs fwd c s) + xo) 0 ((i.nx : ℤ) - 1)).toNat
        , (pyMod ((c.2.1 : ℤ) + (if fwd then 1 else -1) + i.ny) i.ny).toNat
        , (pyMod (pyInt (i.zs fwd c s) + oz + i.nz) i.nz).toNat )))
      unfold zApply
      simp only at e ⊢
      rw [e]
      apply catmullRom_l1
      · rw [hzf]; exact sub_nonneg.2 (Int.floor_le _)
      · rw [hzf]; have := Int.lt_floor_add_one (i.zs fwd c s); linarith
      · intro oz; exact hM _
    have := average_bound (i.staying fwd c) (fun s => i.w.getD s 0) hwpos hne
      (fun s => ((xOffsets.zip (shiftedCR (i.xs fwd c s - (pyInt (i.xs fwd c s) : K))
            (pyInt (i.xs fwd c s)) i.nx i.mxg)).map
          fun p => thr p.2 * zApply (i.nx, i.ny, i.nz) i.cs.cellNumber (pyInt (i.xs fwd c s))
            (pyInt (i.zs fwd c s)) c.2.1 (if fwd then 1 else -1)
            (catmullRom (i.zs fwd c s - (pyInt (i.zs fwd c s) : K))) v p.1).sum)
      (fun s => i.interp (fun d => v (i.cs.cellNumber d)) (i.plane fwd c.2.1) (i.xs fwd c s)
        (i.zs fwd c s)) (4 / 10 ^ 10 * (5 / 4 * M)) (by
        intro s hs'
        rw [← ideal s hs']
        exact thr_error (xOffsets.zip (shiftedCR (i.xs fwd c s - (pyInt (i.xs fwd c s) : K))
            (pyInt (i.xs fwd c s)) i.nx i.mxg)) (length_zip_shiftedCR ..)
          (fun xo => zApply (i.nx, i.ny, i.nz) i.cs.cellNumber (pyInt (i.xs fwd c s))
            (pyInt (i.zs fwd c s)) c.2.1 (if fwd then 1 else -1)
            (catmullRom (i.zs fwd c s - (pyInt (i.zs fwd c s) : K))) v xo) _ (hzb s hs'))
    calc _ ≤ _ := this
      _ = _ := by ring
  · intro hclear
    unfold Input.legAverage
    rw [Finset.sum_div]
    apply Finset.sum_congr rfl
    intro s hs'
    rw [thr_sum_exact i _ (Finset.mem_filter.1 hs').2 (hclear s hs')
      (fun xo => zApply (i.nx, i.ny, i.nz) i.cs.cellNumber
        (pyInt (i.xs fwd c s)) (pyInt (i.zs fwd c s)) c.2.1 (if fwd then 1 else -1)
        (catmullRom (i.zs fwd c s - (pyInt (i.zs fwd c s) : K))) v xo), ideal s hs']
    ring

/-- The hypotheses of C11-C13 hold for the split cell of the example. -/
example : ∃ o, calculateOps (fun _ => 7) (fun _ => 7) exMaps = .ok o ∧
    (((o.legs true).op.row ((o.legs true).legInterior (3, 0, 0)).toNat).map (·.2)).sum = 1 ∧
    ∀ v : ℤ → ℚ, applyRow ((o.legs true).op.row ((o.legs true).legInterior (3, 0, 0)).toNat) v =
        exIn.legAverage true (3, 0, 0) (fun d => v (o.cellNumber d)) := by
  obtain ⟨o, ho⟩ := C10_assembly_succeeds (fun _ => 7) (fun _ => 7) exMaps exIn exMaps_represents
    exIn_guards exIn_goodWeights
  have hst : ∀ s ∈ exIn.staying true (3, 0, 0), s = 0 := by
    intro s hs
    obtain ⟨h1, h2⟩ := Finset.mem_filter.1 hs
    have h3 : s < 2 := Finset.mem_range.1 h1
    by_contra h0
    have : s = 1 := by omega
    subst this
    exact h2 (by norm_num [Input.Escapes, Input.xs, exIn])
  have hclear : ∀ s ∈ exIn.staying true (3, 0, 0), exIn.NoneSkipped (exIn.xs true (3, 0, 0) s) := by
    intro s hs
    apply noneSkipped_of_clear
    rw [hst s hs]
    have hf : ⌊(7 / 2 : ℚ)⌋ = 3 := by norm_num [Int.floor_eq_iff]
    have : exIn.xs true (3, 0, 0) 0 = 7 / 2 := by norm_num [Input.xs, exIn]
    rw [this]
    right
    rw [hf]; norm_num
  have hz : ∀ s ∈ exIn.staying true (3, 0, 0), 0 ≤ exIn.zs true (3, 0, 0) s := by
    intro s hs
    rw [hst s hs]
    norm_num [Input.zs, exIn]
  refine ⟨o, ho, ?_, ?_⟩
  · exact (C12_row_sums _ _ exMaps exIn exMaps_represents exIn_guards exIn_goodWeights o ho true
      (3, 0, 0) exIn_split.1).2.2 exIn_split.2.2 hclear
  · intro v
    exact (C13_row_is_interpolation_partial _ _ exMaps exIn exMaps_represents exIn_guards exIn_goodWeights
      o ho true (3, 0, 0) exIn_split.1 exIn_split.2.2 hz v).2 hclear

end Zoidberg.Weights
