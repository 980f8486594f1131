import Verif.Proofs.WeightsStencil
import Mathlib.Data.List.GetD
import Verif.Proofs.WeightsSpaces

/-! Assembly of the operator rows in `weights.py`. -/

set_option linter.unusedSectionVars false

namespace Zoidberg.Weights

variable {K : Type} [Field K] [LinearOrder K] [IsStrictOrderedRing K] [FloorRing K]

/-! ### generic loop lemma -/

theorem pyIndex_nat (n r : ℕ) (h : r < n) : pyIndex n (r : ℤ) = some r := by
  simp [pyIndex, h]

theorem foldlM_addAll {ε : Type} (r : ℕ) (f : Builder K → ε → Except Err (Builder K))
    (g : ε → List (ℤ × K)) (L : List ε) (b : Builder K) (hr : r < b.length)
    (hf : ∀ e ∈ L, ∀ b : Builder K, r < b.length →
      f b e = .ok (b.set r (addAll (b.getD r []) (g e)))) :
    L.foldlM f b = .ok (b.set r (addAll (b.getD r []) (L.flatMap g))) := by
  induction L generalizing b with
  | nil =>
    simp only [List.foldlM_nil, List.flatMap_nil, addAll, List.foldl_nil]
    rw [List.getD_eq_getElem _ _ hr, List.set_getElem_self]; rfl
  | cons e L ih =>
    rw [List.foldlM_cons, hf e (by simp) b hr]
    simp only [bind, Except.bind]
    rw [ih _ (by simpa using hr) (fun e' h' => hf e' (by simp [h']))]
    have : (b.set r (addAll (b.getD r []) (g e))).getD r [] = addAll (b.getD r []) (g e) := by
      rw [List.getD_eq_getElem _ _ (by simpa using hr)]; simp
    rw [this, List.set_set]
    simp [addAll]

/-! ### pure description of the contributions -/

/-- Column and weight added by the innermost loop. -/
def contribZ (shape : ℕ × ℕ × ℕ) (cellNumber : Cell → ℤ) (xBase zBase y yOff : ℤ)
    (scale xw : K) (xo : ℤ) (p : ℤ × K) : ℤ × K :=
  (cellNumber
    ( (npClip (xBase + xo) 0 ((shape.1 : ℤ) - 1)).toNat
    , (pyMod (y + yOff + shape.2.1) shape.2.1).toNat
    , (pyMod (zBase + p.1 + shape.2.2) shape.2.2).toNat ), scale * xw * p.2)

/-- Contributions of one X offset. -/
def contribX (shape : ℕ × ℕ × ℕ) (cellNumber : Cell → ℤ) (xBase zBase y yOff : ℤ)
    (scale : K) (wz : List K) (p : ℤ × K) : List (ℤ × K) :=
  if |p.2| < 1 / 10 ^ 10 then []
  else (xOffsets.zip wz).map (contribZ shape cellNumber xBase zBase y yOff scale p.2 p.1)

/-- Adjusted Catmull-Rom weights of a position. -/
def shiftedCR (u : K) (xb : ℤ) (nx mxg : ℕ) : List K :=
  shifted (1 / 2 * (-(u ^ 3) + 2 * u ^ 2 - u)) (1 / 2 * (3 * u ^ 3 - 5 * u ^ 2 + 2))
    (1 / 2 * (-3 * u ^ 3 + 4 * u ^ 2 + u)) (1 / 2 * (u ^ 3 - u ^ 2)) xb nx mxg

/-- Contributions of one sub-sample. -/
def contribSample (shape : ℕ × ℕ × ℕ) (cellNumber : Cell → ℤ) (y yOff : ℤ) (mxg : ℕ)
    (interiorWeight : K) (s : K × K × K × Bool) : List (ℤ × K) :=
  if s.2.2.2 then []
  else
    (xOffsets.zip (shiftedCR (s.1 - (pyInt s.1 : K)) (pyInt s.1) shape.1 mxg)).flatMap
      (contribX shape cellNumber (pyInt s.1) (pyInt s.2.1) y yOff (s.2.2.1 / interiorWeight)
        (catmullRom (s.2.1 - (pyInt s.2.1 : K))))

/-- Every cell of the grid has a valid number. -/
def Numbered (shape : ℕ × ℕ × ℕ) (cellNumber : Cell → ℤ) : Prop :=
  ∀ c : Cell, c.1 < shape.1 → c.2.1 < shape.2.1 → c.2.2 < shape.2.2 → 0 ≤ cellNumber c

theorem toNat_pyMod_lt (a : ℤ) (n : ℕ) (h : 0 < n) : (pyMod a n).toNat < n := by
  unfold pyMod
  have h1 := Int.emod_nonneg a (b := (n : ℤ)) (by omega)
  have h2 := Int.emod_lt_of_pos a (b := (n : ℤ)) (by omega)
  omega

theorem toNat_npClip_lt (a : ℤ) (n : ℕ) (h : 0 < n) : (npClip a 0 ((n : ℤ) - 1)).toNat < n := by
  unfold npClip; omega

theorem stencilEntry_eq (shape : ℕ × ℕ × ℕ) (cellNumber : Cell → ℤ)
    (hn : Numbered shape cellNumber) (hx : 0 < shape.1) (hy : 0 < shape.2.1) (hz : 0 < shape.2.2)
    (r : ℕ) (xBase zBase y yOff : ℤ) (scale xw : K) (xo : ℤ) (b : Builder K) (p : ℤ × K)
    (hr : r < b.length) :
    stencilEntry shape cellNumber (r : ℤ) xBase zBase y yOff scale xw xo b p =
      .ok (b.set r (addAll (b.getD r [])
        [contribZ shape cellNumber xBase zBase y yOff scale xw xo p])) := by
  obtain ⟨nx, ny, nz⟩ := shape
  unfold stencilEntry
  simp only []
  rw [if_neg]
  · unfold Builder.addToEntry
    rw [pyIndex_nat _ _ hr]
    rfl
  · rw [not_lt]
    apply hn
    · exact toNat_npClip_lt _ _ hx
    · exact toNat_pyMod_lt _ _ hy
    · exact toNat_pyMod_lt _ _ hz

theorem flatMap_singleton' {α β : Type} (L : List α) (f : α → β) :
    L.flatMap (fun a => [f a]) = L.map f := by
  induction L with
  | nil => rfl
  | cons a L ih => simp [ih]

theorem stencilX_eq (shape : ℕ × ℕ × ℕ) (cellNumber : Cell → ℤ)
    (hn : Numbered shape cellNumber) (hx : 0 < shape.1) (hy : 0 < shape.2.1) (hz : 0 < shape.2.2)
    (r : ℕ) (xBase zBase y yOff : ℤ) (scale : K) (wz : List K) (b : Builder K) (p : ℤ × K)
    (hr : r < b.length) :
    stencilX shape cellNumber (r : ℤ) xBase zBase y yOff scale wz b p =
      .ok (b.set r (addAll (b.getD r [])
        (contribX shape cellNumber xBase zBase y yOff scale wz p))) := by
  unfold stencilX contribX
  split
  · simp only [addAll, List.foldl_nil]
    rw [List.getD_eq_getElem _ _ hr, List.set_getElem_self]
  · rw [foldlM_addAll r _ (fun q => [contribZ shape cellNumber xBase zBase y yOff scale p.2 p.1 q])
      _ b hr, flatMap_singleton']
    intro e _ b hb
    exact stencilEntry_eq shape cellNumber hn hx hy hz r xBase zBase y yOff scale p.2 p.1 b e hb

/-- `int(x)` of an interior position. -/
theorem pyInt_interior (x : K) (nx mxg : ℕ) (h : hits x nx mxg = false) :
    pyInt x = ⌊x⌋ ∧ (mxg : ℤ) ≤ pyInt x ∧ pyInt x ≤ (nx : ℤ) - mxg - 1 := by
  simp only [hits, Bool.or_eq_false_iff, decide_eq_false_iff_not, not_lt, gt_iff_lt] at h
  have h0 : (0 : K) ≤ x := le_trans (Nat.cast_nonneg _) h.1
  have e : pyInt x = ⌊x⌋ := by simp [pyInt, h0]
  refine ⟨e, ?_, ?_⟩
  · rw [e, Int.le_floor]; exact_mod_cast h.1
  · rw [e]
    have h1 := Int.floor_le x
    have h2 : ((⌊x⌋ : ℤ) : K) ≤ (((nx : ℤ) - mxg - 1 : ℤ) : K) := by
      push_cast; exact le_trans h1 h.2
    exact_mod_cast h2

theorem stencilSample_eq (shape : ℕ × ℕ × ℕ) (cellNumber : Cell → ℤ)
    (hn : Numbered shape cellNumber) (hx : 0 < shape.1) (hy : 0 < shape.2.1) (hz : 0 < shape.2.2)
    (r : ℕ) (y yOff : ℤ) (mxg : ℕ) (iw : K) (b : Builder K) (s : K × K × K × Bool)
    (hs : s.2.2.2 = hits s.1 shape.1 mxg) (hr : r < b.length) :
    stencilSample shape cellNumber (r : ℤ) y yOff mxg iw b s =
      .ok (b.set r (addAll (b.getD r []) (contribSample shape cellNumber y yOff mxg iw s))) := by
  obtain ⟨mx, mz, sw, hit⟩ := s
  simp only at hs
  unfold stencilSample contribSample
  simp only []
  by_cases hh : hit = true
  · rw [if_pos hh, if_pos hh]
    simp only [addAll, List.foldl_nil]
    rw [List.getD_eq_getElem _ _ hr, List.set_getElem_self]
  · rw [if_neg hh, if_neg hh]
    have hh' : hits mx shape.1 mxg = false := by rw [← hs]; simpa using hh
    obtain ⟨_, hlo, hhi⟩ := pyInt_interior mx shape.1 mxg hh'
    have hsum := sum_catmullRom (mx - (pyInt mx : K))
    have hzs := sum_catmullRom (mz - (pyInt mz : K))
    have e : shiftWeights (catmullRom (mx - (pyInt mx : K))) (pyInt mx) xOffsets shape.1 mxg =
        .ok (shiftedCR (mx - (pyInt mx : K)) (pyInt mx) shape.1 mxg) := by
      unfold catmullRom shiftedCR
      apply shiftWeights4 _ _ _ _ _ _ _ _ hlo hhi
      ring
    rw [e]
    simp only [bind, Except.bind, hzs]
    rw [if_neg (by simp)]
    apply foldlM_addAll r _ _ _ b hr
    intro p _ b hb
    exact stencilX_eq shape cellNumber hn hx hy hz r _ _ y yOff _ _ b p hb

theorem accumulateStencil_eq (shape : ℕ × ℕ × ℕ) (cellNumber : Cell → ℤ)
    (hn : Numbered shape cellNumber) (hx : 0 < shape.1) (hy : 0 < shape.2.1) (hz : 0 < shape.2.2)
    (r : ℕ) (y yOff : ℤ) (mxg : ℕ) (xs zs w : List K) (b : Builder K) (hr : r < b.length)
    (hw : 0 < maskedSum w ((xs.map fun x => hits x shape.1 mxg).map not)) :
    let mask := xs.map fun x => hits x shape.1 mxg
    accumulateStencil shape b (r : ℤ) xs zs w mask y yOff cellNumber mxg =
      .ok (b.set r (addAll (b.getD r [])
        ((xs.zip (zs.zip (w.zip mask))).flatMap
          (contribSample shape cellNumber y yOff mxg (maskedSum w (mask.map not)))))) := by
  intro mask
  unfold accumulateStencil
  simp only []
  rw [if_neg (not_le.2 hw)]
  apply foldlM_addAll r _ _ _ b hr
  intro s hs b hb
  apply stencilSample_eq shape cellNumber hn hx hy hz r y yOff mxg _ b s _ hb
  -- the mask entry belongs to the same sample
  obtain ⟨k, hk, rfl⟩ := List.getElem_of_mem hs
  simp [mask]

end Zoidberg.Weights
