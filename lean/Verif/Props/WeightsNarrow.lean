import Verif.Props.WeightsCells

/-! # C01-C03, C10 with more guard cells than fit: `nx < 2 * MXG`

The theorems about interior cells (C11-C14) need nothing here: an interior cell exists only if `2 * MXG < nx`. -/

set_option linter.unusedSectionVars false

namespace Zoidberg.Weights

variable {K : Type} [Field K] [LinearOrder K] [IsStrictOrderedRing K] [FloorRing K]
  (jc : ℕ → ℤ) (jw : ℕ → K) (maps : MapDict K) (i : Input K)

theorem loop3_empty {x0 x1 : ℕ} (h : x1 ≤ x0) (ny nz : ℕ) : loop3 x0 x1 ny nz = [] := by
  rw [List.eq_nil_iff_forall_not_mem]
  intro c hc
  rw [mem_loop3] at hc
  omega

theorem two_of_interior (c : Cell) (hc : i.Interior c) : 2 * i.mxg ≤ i.nx := by
  unfold Input.Interior at hc; omega

/-- **C10**, exactly when, for accepted positive weights: there are not more guard cells on a side than cells. -/
theorem C10_iff (h : Represents maps i) (hw : i.GoodWeights) (hy : 0 < i.ny) (hz : 0 < i.nz) :
    ((∃ o, calculateOps jc jw maps = .ok o) ↔ i.mxg ≤ i.nx) ∧
    (i.nx < i.mxg → calculateOps jc jw maps = .error (.index "cell_number")) := by
  have bad : i.nx < i.mxg → calculateOps jc jw maps = .error (.index "cell_number") := by
    intro hlt
    obtain ⟨h1, _⟩ := lookups maps i h
    simp [calculateOps, h1, assign_error maps i h (not_not.2 ⟨hlt, hy, hz⟩), bind, Except.bind]
  refine ⟨⟨fun ⟨o, ho⟩ => ?_, fun hle => ?_⟩, bad⟩
  · by_contra hlt
    rw [bad (by omega)] at ho
    cases ho
  · by_cases hm : 2 * i.mxg ≤ i.nx
    · exact C10_assembly_succeeds jc jw maps i h hm hw
    · rw [calculateOps_eq jc jw maps i h (i.fits_of_le hle) (getSubcellWeights_ok maps i h hw)]
      have hd : ∀ fwd, ∃ b, i.dest fwd = .ok b := by
        intro fwd
        unfold Input.dest destCore
        simp only
        rw [loop3_empty (by omega)]
        exact ⟨_, rfl⟩
      obtain ⟨fo, hf⟩ := hd true
      obtain ⟨bo, hb⟩ := hd false
      obtain ⟨fw, hfw, _⟩ := buildLegWeights_eq i.nx i.ny i.nz i.mxg ⟨i.n, i.xs true⟩ i.w
      obtain ⟨bw, hbw, _⟩ := buildLegWeights_eq i.nx i.ny i.nz i.mxg ⟨i.n, i.xs false⟩ i.w
      have hfw' : buildLegWeights (i.nx, i.ny, i.nz) (i.ls true) = .ok fw := hfw
      have hbw' : buildLegWeights (i.nx, i.ny, i.nz) (i.ls false) = .ok bw := hbw
      simp only [hf, hb, hfw', hbw', bind, Except.bind]
      exact ⟨_, rfl⟩

/-- **C03** for all numbers of guard cells. -/
theorem C03_all (h : Represents maps i) (o : Ops K)
    (ho : calculateOps jc jw maps = .ok o) (fwd : Bool) (c : Cell) :
    (0 ≤ o.number (.bnd fwd c) ↔ i.Interior c ∧ i.SomeEscape fwd c) ∧
      (¬ (i.Interior c ∧ i.SomeEscape fwd c) → o.number (.bnd fwd c) = -1) := by
  by_cases hm : 2 * i.mxg ≤ i.nx
  · exact C03_boundary_iff_escape jc jw maps i h hm o ho fwd c
  · have hno : ¬ i.Interior c := fun hc => hm (two_of_interior i c hc)
    have hn := number_eq jc jw maps i h o ho (.bnd fwd c)
    have e : i.cs.number (.bnd fwd c) = -1 := by
      cases fwd <;> simp [CellSpace.number, Input.cs, assignCore, loop3_empty (show i.nx - i.mxg ≤ i.mxg by omega)]
    rw [hn, e]
    constructor
    · constructor
      · intro h; omega
      · intro h; exact absurd h.1 hno
    · intro _; rfl

/-- **C02** if there are more guard cells than fit: all cells are guard cells, the outer ones, which are numbered last, come after the others. -/
theorem C02_narrow (h : Represents maps i) (hm : i.nx < 2 * i.mxg) (o : Ops K)
    (ho : calculateOps jc jw maps = .ok o) :
    (∀ x y z, x + i.mxg < i.nx → y < i.ny → z < i.nz → o.cellNumber (x, y, z) = ((x * i.ny + y) * i.nz + z : ℕ)) ∧
    (∀ x y z, i.nx ≤ x + i.mxg → x < i.nx → y < i.ny → z < i.nz →
      o.cellNumber (x, y, z) = (i.mxg * i.ny * i.nz + (((x - (i.nx - i.mxg)) * i.ny + y) * i.nz + z) : ℕ)) ∧
    (∀ fwd c, o.number (.bnd fwd c) = -1) := by
  obtain ⟨_, _, hc, _⟩ := calculateOps_inv jc jw maps i h o ho
  have e1 : loop3 i.mxg (i.nx - i.mxg) i.ny i.nz = [] := loop3_empty (by omega) _ _
  have e2 : i.cs.cellNumber = (numberKeys (loop3 (i.nx - i.mxg) i.nx i.ny i.nz)
      (numberKeys (loop3 0 i.mxg i.ny i.nz) (fun _ => -1, 0))).1 := by
    rw [Input.cs, assignCore_cellNumber, cellOrder, e1, List.nil_append, numberKeys_append]
  have l2 : (loop3 0 i.mxg i.ny i.nz).length = i.mxg * i.ny * i.nz := by
    rw [length_loop3, mul_assoc]; simp
  rw [hc, e2]
  refine ⟨?_, ?_, ?_⟩
  · intro x y z h1 h2 h3
    rw [numberKeys_not_mem _ _ _ (by rw [mem_loop3]; simp only; omega)]
    have hk := getElem?_loop3 0 i.mxg i.ny i.nz x y z (Nat.zero_le _) (by omega) h2 h3
    rw [Nat.sub_zero] at hk
    obtain ⟨hlt, hk⟩ := List.getElem?_eq_some_iff.1 hk
    have := numberKeys_getElem _ (nodup_loop3 0 i.mxg i.ny i.nz) (fun _ => -1, 0) _ hlt
    rw [hk] at this
    rw [this]; simp
  · intro x y z h1 h2 h3 h4
    have hk := getElem?_loop3 (i.nx - i.mxg) i.nx i.ny i.nz x y z (by omega) h2 h3 h4
    obtain ⟨hlt, hk⟩ := List.getElem?_eq_some_iff.1 hk
    have := numberKeys_getElem _ (nodup_loop3 (i.nx - i.mxg) i.nx i.ny i.nz)
      (numberKeys (loop3 0 i.mxg i.ny i.nz) (fun _ => -1, 0)) _ hlt
    rw [hk] at this
    rw [this, numberKeys_snd, l2]
    push_cast
    ring
  · intro fwd c
    exact (C03_all jc jw maps i h o ho fwd c).2 fun hh => by
      have := two_of_interior i c hh.1
      omega

/-- Why C01 asks for `2 * MXG <= nx`: if not, some numbers below `total_cells` are given to no cell, because those given to the inner guard cells are overwritten. -/
theorem C01_narrow (h : Represents maps i) (hm : i.nx < 2 * i.mxg) (hle : i.mxg ≤ i.nx) (hy : 0 < i.ny) (hz : 0 < i.nz) (o : Ops K)
    (ho : calculateOps jc jw maps = .ok o) :
    ∃ k : ℕ, k < o.totalCells ∧ ∀ w : Owner, i.InGrid w.pos → o.number w ≠ k := by
  obtain ⟨h1, h2, h3⟩ := C02_narrow jc jw maps i h hm o ho
  obtain ⟨_, ht, _⟩ := calculateOps_inv jc jw maps i h o ho
  have e1 : loop3 i.mxg (i.nx - i.mxg) i.ny i.nz = [] := loop3_empty (by omega) _ _
  have htot : o.totalCells = i.mxg * i.ny * i.nz + i.mxg * i.ny * i.nz := by
    rw [ht]
    simp only [Input.cs, assignCore, e1, List.foldl_nil, foldl_numberCell, numberKeys_snd, length_loop3]
    have : i.nx - (i.nx - i.mxg) = i.mxg := by omega
    rw [this]
    simp [mul_assoc]
  refine ⟨(i.nx - i.mxg) * i.ny * i.nz, ?_, ?_⟩
  · rw [htot]
    have : (i.nx - i.mxg) * i.ny * i.nz < i.mxg * i.ny * i.nz :=
      Nat.mul_lt_mul_of_pos_right (Nat.mul_lt_mul_of_pos_right (by omega) hy) hz
    omega
  · intro w hw hk
    cases w with
    | bnd fwd c => rw [h3] at hk; omega
    | cell c =>
      obtain ⟨x, y, z⟩ := c
      obtain ⟨hx, hy', hz'⟩ := hw
      simp only [Owner.pos] at hx hy' hz'
      have hn : o.number (.cell (x, y, z)) = o.cellNumber (x, y, z) := rfl
      rw [hn] at hk
      by_cases hxm : x + i.mxg < i.nx
      · rw [h1 x y z hxm hy' hz'] at hk
        have hk' : (x * i.ny + y) * i.nz + z = (i.nx - i.mxg) * i.ny * i.nz := by exact_mod_cast hk
        have : (x + 1) * i.ny * i.nz ≤ (i.nx - i.mxg) * i.ny * i.nz :=
          Nat.mul_le_mul_right _ (Nat.mul_le_mul_right _ (by omega))
        have h5 : (y + 1) * i.nz ≤ i.ny * i.nz := Nat.mul_le_mul_right _ (by omega)
        have h6 : (x + 1) * i.ny * i.nz = (x * i.ny) * i.nz + i.ny * i.nz := by ring
        have h7 : (x * i.ny + y) * i.nz = (x * i.ny) * i.nz + y * i.nz := by ring
        have h8 : (y + 1) * i.nz = y * i.nz + i.nz := by ring
        omega
      · rw [h2 x y z (by omega) hx hy' hz'] at hk
        have hk' : i.mxg * i.ny * i.nz + (((x - (i.nx - i.mxg)) * i.ny + y) * i.nz + z) = (i.nx - i.mxg) * i.ny * i.nz := by
          exact_mod_cast hk
        have : (i.nx - i.mxg) * i.ny * i.nz < i.mxg * i.ny * i.nz :=
          Nat.mul_lt_mul_of_pos_right (Nat.mul_lt_mul_of_pos_right (by omega) hy) hz
        omega

/-- Three cells and two guard cells on each side: the middle one is both. -/
def narrowIn : Input ℚ := { exIn with nx := 3, mxg := 2 }

def narrowMaps : MapDict ℚ := fun k =>
  if k = "R" then some (.arr3 3 2 3 fun c => (c.1 : ℚ))
  else if k = "MXG" then some (.nat 2)
  else if k = "forward_xt_primes" then some (.arr4 3 2 3 2 exIn.fx)
  else if k = "forward_zt_primes" then some (.arr4 3 2 3 2 exIn.fz)
  else if k = "backward_xt_primes" then some (.arr4 3 2 3 2 exIn.bx)
  else if k = "backward_zt_primes" then some (.arr4 3 2 3 2 exIn.bz)
  else if k = "subcell_weights" then some (.vec [1 / 4, 3 / 4])
  else none

theorem narrowMaps_represents : Represents narrowMaps narrowIn where
  shape := ⟨_, rfl⟩
  mxg := rfl
  fx := Or.inl rfl
  fz := Or.inl rfl
  bx := Or.inl rfl
  bz := Or.inl rfl
  w := Or.inl rfl

example : ∃ o, calculateOps (fun _ => 7) (fun _ => 7) narrowMaps = .ok o ∧ o.cellNumber (0, 1, 2) = 5 ∧ o.cellNumber (1, 0, 0) = 12 := by
  have hw : narrowIn.GoodWeights := ⟨exIn_goodWeights.len, exIn_goodWeights.sum, exIn_goodWeights.pos⟩
  obtain ⟨o, ho⟩ := (C10_iff (fun _ => 7) (fun _ => 7) narrowMaps narrowIn narrowMaps_represents hw (by decide) (by decide)).1.2 (by decide)
  obtain ⟨h1, h2, _⟩ := C02_narrow _ _ _ _ narrowMaps_represents (by decide) o ho
  exact ⟨o, ho, h1 0 1 2 (by decide) (by decide) (by decide), h2 1 0 0 (by decide) (by decide) (by decide) (by decide)⟩

end Zoidberg.Weights
