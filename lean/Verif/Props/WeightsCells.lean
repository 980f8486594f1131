import Verif.Proofs.WeightsInterp
import Verif.Props.WeightsExample

/-! # C01-C05, C10: numbering of cells and legs, leg weights, success -/

set_option linter.unusedSectionVars false

namespace Zoidberg.Weights

variable {K : Type} [Field K] [LinearOrder K] [IsStrictOrderedRing K] [FloorRing K]
  (jc : ℕ → ℤ) (jw : ℕ → K) (maps : MapDict K) (i : Input K)

theorem number_eq (h : Represents maps i) (o : Ops K) (ho : calculateOps jc jw maps = .ok o)
    (w : Owner) : o.number w = i.cs.number w := by
  obtain ⟨_, _, h1, h2, h3, _⟩ := calculateOps_inv jc jw maps i h o ho
  exact ops_number o _ h1 h2 h3 w

/-- C10: the operators can always be assembled. -/
theorem C10_assembly_succeeds (h : Represents maps i) (hm : 2 * i.mxg ≤ i.nx)
    (hw : i.GoodWeights) : ∃ o, calculateOps jc jw maps = .ok o := by
  rw [calculateOps_eq jc jw maps i h (i.fits_of_two hm) (getSubcellWeights_ok maps i h hw)]
  obtain ⟨fo, hf, _⟩ := dest_ok i hm hw true
  obtain ⟨bo, hb, _⟩ := dest_ok i hm hw false
  obtain ⟨fw, hfw, _⟩ := buildLegWeights_eq i.nx i.ny i.nz i.mxg ⟨i.n, i.xs true⟩ i.w
  obtain ⟨bw, hbw, _⟩ := buildLegWeights_eq i.nx i.ny i.nz i.mxg ⟨i.n, i.xs false⟩ i.w
  have hfw' : buildLegWeights (i.nx, i.ny, i.nz) (i.ls true) = .ok fw := hfw
  have hbw' : buildLegWeights (i.nx, i.ny, i.nz) (i.ls false) = .ok bw := hbw
  simp only [hf, hb, hfw', hbw', bind, Except.bind]
  exact ⟨_, rfl⟩

/-- The hypotheses of C10 and of the theorems below hold for the example. -/
example : ∃ o, calculateOps (fun _ => 7) (fun _ => 7) exMaps = .ok o :=
  C10_assembly_succeeds _ _ exMaps exIn exMaps_represents exIn_guards exIn_goodWeights

/-- C01: the exported numbers of cells and parallel boundary cells are a
bijection onto `0, ..., total_cells - 1`, and every grid cell has one. -/
theorem C01_cell_numbers_bijective (h : Represents maps i) (hm : 2 * i.mxg ≤ i.nx) (o : Ops K)
    (ho : calculateOps jc jw maps = .ok o) :
    Set.BijOn o.number {w | i.InGrid w.pos ∧ 0 ≤ o.number w} {k | 0 ≤ k ∧ k < (o.totalCells : ℤ)} ∧
      ∀ c, i.InGrid c → 0 ≤ o.cellNumber c := by
  have hn := number_eq jc jw maps i h o ho
  obtain ⟨_, ht, hc, _⟩ := calculateOps_inv jc jw maps i h o ho
  constructor
  · refine bijOn_of_list (ownerOrder i.nx i.ny i.nz i.mxg ⟨i.n, i.fx⟩ ⟨i.n, i.bx⟩) _ _ ?_ ?_ _ ?_
    · rw [ht]; exact nCells_eq _ _ _ _ _ _ hm
    · intro k hk; rw [hn]; exact number_ownerOrder _ _ _ _ _ _ hm k hk
    · intro w
      rw [Set.mem_ofPred_eq, hn, Input.cs, mem_ownerOrder_iff _ _ _ _ _ _ hm]
      constructor
      · exact fun h => h.2
      · intro h0
        refine ⟨?_, h0⟩
        rw [← mem_ownerOrder_iff _ _ _ _ _ _ hm] at h0
        simp only [ownerOrder, List.mem_append, List.mem_map] at h0
        rcases h0 with ⟨c, hc, rfl⟩ | ⟨k, hk, rfl⟩
        · exact (mem_cellOrder hm).1 hc
        · rw [bndOrder, mem_twoKeys_flatMap, mem_loop3] at hk
          simp only [Owner.pos, Input.InGrid]
          omega
  · intro c hg
    rw [hc]
    exact cs_numbered i hm c hg.1 hg.2.1 hg.2.2

/-- C03: a parallel boundary cell exists exactly behind an interior cell with an
escaping sub-sample; elsewhere the exported entry is -1. -/
theorem C03_boundary_iff_escape (h : Represents maps i) (hm : 2 * i.mxg ≤ i.nx) (o : Ops K)
    (ho : calculateOps jc jw maps = .ok o) (fwd : Bool) (c : Cell) :
    (0 ≤ o.number (.bnd fwd c) ↔ i.Interior c ∧ i.SomeEscape fwd c) ∧
      (¬ (i.Interior c ∧ i.SomeEscape fwd c) → o.number (.bnd fwd c) = -1) := by
  have hn := number_eq jc jw maps i h o ho (.bnd fwd c)
  have hmem : Owner.bnd fwd c ∈ ownerOrder i.nx i.ny i.nz i.mxg ⟨i.n, i.fx⟩ ⟨i.n, i.bx⟩ ↔
      i.Interior c ∧ i.SomeEscape fwd c := by
    rw [interior_iff, ← anyHit_iff]
    simp only [ownerOrder, List.mem_append, List.mem_map, reduceCtorEq, and_false, exists_false,
      false_or]
    constructor
    · rintro ⟨⟨b, c'⟩, hk, hk'⟩
      rw [bndOrder, mem_twoKeys_flatMap] at hk
      injection hk' with h1 h2
      subst h1 h2
      refine ⟨hk.1, ?_⟩
      cases b
      · simpa [Input.xs] using hk.2
      · simpa [Input.xs] using hk.2
    · rintro ⟨h1, h2⟩
      refine ⟨(fwd, c), ?_, rfl⟩
      rw [bndOrder, mem_twoKeys_flatMap]
      refine ⟨h1, ?_⟩
      cases fwd
      · simpa [Input.xs] using h2
      · simpa [Input.xs] using h2
  rw [hn, Input.cs, ← mem_ownerOrder_iff _ _ _ _ _ _ hm, hmem]
  exact ⟨Iff.rfl, fun hno => number_not_mem _ _ _ _ _ _ hm _ (by rwa [hmem])⟩

example : ∃ o, calculateOps (fun _ => 7) (fun _ => 7) exMaps = .ok o ∧
    0 ≤ o.number (.bnd true (3, 0, 0)) := by
  obtain ⟨o, ho⟩ := C10_assembly_succeeds (fun _ => 7) (fun _ => 7) exMaps exIn exMaps_represents
    exIn_guards exIn_goodWeights
  exact ⟨o, ho, (C03_boundary_iff_escape _ _ exMaps exIn exMaps_represents exIn_guards o ho true
    (3, 0, 0)).1.2 ⟨exIn_split.1, exIn_split.2.1⟩⟩

/-- Position of a cell in the list of cells gives its number. -/
theorem cellNumber_of_getElem? (hm : 2 * i.mxg ≤ i.nx) (k : ℕ) (c : Cell)
    (hk : (cellOrder i.nx i.ny i.nz i.mxg)[k]? = some c) : i.cs.cellNumber c = k := by
  obtain ⟨hlt, hc⟩ := List.getElem?_eq_some_iff.1 hk
  have := numberKeys_getElem _ (nodup_cellOrder hm) (fun _ => -1, 0) k hlt
  rw [hc] at this
  rw [Input.cs, assignCore_cellNumber, this]; simp

/-- C02: evolving cells come first in (x,y,z) order, then the inner guard cells,
then the outer guard cells, each again in (x,y,z) order, then parallel boundary
cells. -/
theorem C02_numbering_order (h : Represents maps i) (hm : 2 * i.mxg ≤ i.nx) (o : Ops K)
    (ho : calculateOps jc jw maps = .ok o) :
    (∀ x y z, i.mxg ≤ x → x + i.mxg < i.nx → y < i.ny → z < i.nz →
      o.cellNumber (x, y, z) = (((x - i.mxg) * i.ny + y) * i.nz + z : ℕ)) ∧
    (∀ x y z, x < i.mxg → y < i.ny → z < i.nz →
      o.cellNumber (x, y, z) = (i.nEvolving + ((x * i.ny + y) * i.nz + z) : ℕ)) ∧
    (∀ x y z, i.nx ≤ x + i.mxg → x < i.nx → y < i.ny → z < i.nz →
      o.cellNumber (x, y, z) = (i.nEvolving + i.mxg * i.ny * i.nz +
        (((x - (i.nx - i.mxg)) * i.ny + y) * i.nz + z) : ℕ)) ∧
    (∀ fwd c, 0 ≤ o.number (.bnd fwd c) → (i.nx * i.ny * i.nz : ℕ) ≤ o.number (.bnd fwd c)) := by
  obtain ⟨_, _, hc, _⟩ := calculateOps_inv jc jw maps i h o ho
  have l1 : (loop3 i.mxg (i.nx - i.mxg) i.ny i.nz).length = i.nEvolving := by
    rw [length_loop3, Input.nEvolving, mul_assoc]
    congr 1; omega
  have l2 : (loop3 0 i.mxg i.ny i.nz).length = i.mxg * i.ny * i.nz := by
    rw [length_loop3, mul_assoc]; simp
  rw [hc]
  refine ⟨?_, ?_, ?_, ?_⟩
  · intro x y z h1 h2 h3 h4
    apply cellNumber_of_getElem? i hm
    have := getElem?_loop3 i.mxg (i.nx - i.mxg) i.ny i.nz x y z h1 (by omega) h3 h4
    obtain ⟨hlt, _⟩ := List.getElem?_eq_some_iff.1 this
    rw [cellOrder, List.getElem?_append_left, List.getElem?_append_left hlt, this]
    rw [List.length_append]; omega
  · intro x y z h1 h3 h4
    apply cellNumber_of_getElem? i hm
    have := getElem?_loop3 0 i.mxg i.ny i.nz x y z (Nat.zero_le _) h1 h3 h4
    rw [Nat.sub_zero] at this
    obtain ⟨hlt, _⟩ := List.getElem?_eq_some_iff.1 this
    rw [cellOrder, List.getElem?_append_left, List.getElem?_append_right, l1,
      Nat.add_sub_cancel_left, this]
    · omega
    · rw [List.length_append]; omega
  · intro x y z h1 h2 h3 h4
    apply cellNumber_of_getElem? i hm
    have := getElem?_loop3 (i.nx - i.mxg) i.nx i.ny i.nz x y z (by omega) h2 h3 h4
    rw [cellOrder, List.getElem?_append_right, List.length_append, l1, l2,
      Nat.add_sub_cancel_left, this]
    rw [List.length_append, l1, l2]; omega
  · intro fwd c h0
    have hn := number_eq jc jw maps i h o ho (.bnd fwd c)
    rw [hn, Input.cs] at h0 ⊢
    have hmem := (mem_ownerOrder_iff _ _ _ _ _ _ hm _).2 h0
    obtain ⟨k, hk, hkw⟩ := List.getElem_of_mem hmem
    have := number_ownerOrder _ _ _ _ _ _ hm k hk
    rw [hkw] at this
    rw [this]
    by_contra hlt
    have hlt' : k < ((cellOrder i.nx i.ny i.nz i.mxg).map Owner.cell).length := by
      rw [List.length_map, length_cellOrder hm, ← mul_assoc]; omega
    have hkw' := List.getElem_eq_iff hk |>.1 hkw
    unfold ownerOrder at hkw'
    rw [List.getElem?_append_left hlt', List.getElem?_map] at hkw'
    cases hq : (cellOrder i.nx i.ny i.nz i.mxg)[k]? <;> simp [hq] at hkw'

/-- C02: `N_evolving` as returned by `assign_cell_space_numbers` is the number of
evolving cells, and a cell of the grid has a number below it exactly if it is
evolving. -/
theorem C02_evolving_count (h : Represents maps i) (hm : 2 * i.mxg ≤ i.nx) :
    ∃ cs, assignCellSpaceNumbers maps = .ok cs ∧ cs.nEvolving = (i.nEvolving : ℕ) ∧
      ∀ x y z, x < i.nx → y < i.ny → z < i.nz →
        (cs.cellNumber (x, y, z) < cs.nEvolving ↔ i.mxg ≤ x ∧ x + i.mxg < i.nx) := by
  have hN : i.cs.nEvolving = (i.nEvolving : ℕ) := by
    simp only [Input.cs, assignCore, Input.nEvolving]
    push_cast [Nat.cast_sub hm]
    ring
  have l1 : (loop3 i.mxg (i.nx - i.mxg) i.ny i.nz).length = i.nEvolving := by
    rw [length_loop3, Input.nEvolving, mul_assoc]
    congr 1; omega
  refine ⟨i.cs, assign_ok maps i h (i.fits_of_two hm), hN, ?_⟩
  intro x y z hx hy hz
  rw [hN]
  have hin : (x, y, z) ∈ cellOrder i.nx i.ny i.nz i.mxg := by
    unfold cellOrder
    simp only [List.mem_append, mem_loop3]
    omega
  obtain ⟨k, hk, hkc⟩ := List.getElem_of_mem hin
  have hk' : (cellOrder i.nx i.ny i.nz i.mxg)[k]? = some (x, y, z) := by
    rw [List.getElem?_eq_getElem hk, hkc]
  rw [cellNumber_of_getElem? i hm k _ hk']
  rw [Nat.cast_lt]
  unfold cellOrder at hk'
  rw [List.append_assoc] at hk'
  by_cases hlt : k < i.nEvolving
  · rw [List.getElem?_append_left (by omega)] at hk'
    have := List.mem_of_getElem? hk'
    rw [mem_loop3] at this
    exact ⟨fun _ => by omega, fun _ => hlt⟩
  · rw [List.getElem?_append_right (by omega)] at hk'
    have := List.mem_of_getElem? hk'
    rw [List.mem_append, mem_loop3, mem_loop3] at this
    exact ⟨fun h => absurd h hlt, fun _ => by omega⟩

example : ∃ cs, assignCellSpaceNumbers exMaps = .ok cs ∧ cs.nEvolving = 24 := by
  obtain ⟨cs, h1, h2, _⟩ := C02_evolving_count exMaps exIn exMaps_represents exIn_guards
  exact ⟨cs, h1, by rw [h2]; rfl⟩

/-- The example grid: the last evolving cell has number 23, the first guard cell
24, the outer guard cells follow the inner ones. -/
example : ∃ o, calculateOps (fun _ => 7) (fun _ => 7) exMaps = .ok o ∧
    o.cellNumber (4, 1, 2) = 23 ∧ o.cellNumber (0, 0, 0) = 24 ∧ o.cellNumber (5, 0, 0) = 30 := by
  obtain ⟨o, ho⟩ := C10_assembly_succeeds (fun _ => 7) (fun _ => 7) exMaps exIn exMaps_represents
    exIn_guards exIn_goodWeights
  obtain ⟨h1, h2, h3, _⟩ := C02_numbering_order _ _ exMaps exIn exMaps_represents exIn_guards o ho
  refine ⟨o, ho, ?_, ?_, ?_⟩
  · exact h1 4 1 2 (by decide) (by decide) (by decide) (by decide)
  · exact h2 0 0 0 (by decide) (by decide) (by decide)
  · exact h3 5 0 0 (by decide) (by decide) (by decide) (by decide)

theorem legs_number (h : Represents maps i) (o : Ops K) (ho : calculateOps jc jw maps = .ok o)
    (fwd : Bool) (k : Bool × Cell) :
    (o.legs fwd).number k = (i.ls fwd).number k ∧ (o.legs fwd).nLegs = (i.ls fwd).nLegs := by
  obtain ⟨_, _, _, _, _, hl⟩ := calculateOps_inv jc jw maps i h o ho
  obtain ⟨b, ws, _, _, e⟩ := hl fwd
  rw [e]
  obtain ⟨b, c⟩ := k
  cases b <;> exact ⟨rfl, rfl⟩

/-- C04: leg rows are numbered `0, ..., n_legs - 1` without gaps or clashes, and
which cells own which rows. -/
theorem C04_leg_numbers_bijective (h : Represents maps i) (o : Ops K)
    (ho : calculateOps jc jw maps = .ok o) (fwd : Bool) :
    Set.BijOn (o.legs fwd).number {k | i.InGrid k.2 ∧ 0 ≤ (o.legs fwd).number k}
      {k | 0 ≤ k ∧ k < ((o.legs fwd).nLegs : ℤ)} ∧
    (∀ c, 0 ≤ (o.legs fwd).number (true, c) ↔ i.Interior c ∧ i.SomeEscape fwd c) ∧
    (∀ c, 0 ≤ (o.legs fwd).number (false, c) ↔ i.Interior c ∧ i.SomeStay fwd c) ∧
    (∀ k, ¬ 0 ≤ (o.legs fwd).number k → (o.legs fwd).number k = -1) := by
  have hn := fun k => (legs_number jc jw maps i h o ho fwd k).1
  have hl := (legs_number jc jw maps i h o ho fwd (true, (0, 0, 0))).2
  have key : ∀ b c, 0 ≤ (o.legs fwd).number (b, c) ↔
      i.Interior c ∧ (if b then i.SomeEscape fwd c else i.SomeStay fwd c) := by
    intro b c
    rw [hn, ← legKey_iff, mem_legOrder_iff]; rfl
  refine ⟨?_, fun c => key true c, fun c => key false c, ?_⟩
  · refine bijOn_of_list (legOrder i.nx i.ny i.nz i.mxg ⟨i.n, i.xs fwd⟩) _ _ ?_ ?_ _ ?_
    · rw [hl]; exact legCore_nLegs ..
    · intro k hk; rw [hn]; exact legCore_getElem _ _ _ _ _ _ k hk
    · rintro ⟨b, c⟩
      rw [legKey_iff, Set.mem_ofPred_eq, key]
      simp only [Input.Interior, Input.InGrid]
      constructor
      · exact fun h => h.2
      · intro h; refine ⟨?_, h⟩; omega
  · intro k hk
    rw [hn] at hk ⊢
    exact legCore_not_mem _ _ _ _ _ _ _ (fun hm => hk ((mem_legOrder_iff ..).1 hm))

/-- How many rows a cell owns: two if its sub-samples disagree, one if they
agree (and there is a sub-sample), none if it is a guard cell. -/
theorem C04_rows_per_cell (h : Represents maps i) (o : Ops K)
    (ho : calculateOps jc jw maps = .ok o) (fwd : Bool) (c : Cell) (hn : 0 < i.n) :
    let rows := ([true, false].filter fun b => 0 ≤ (o.legs fwd).number (b, c)).length
    (i.Interior c → (rows = 2 ↔ i.SomeEscape fwd c ∧ i.SomeStay fwd c) ∧
      (rows = 1 ↔ ¬ (i.SomeEscape fwd c ∧ i.SomeStay fwd c))) ∧
    (¬ i.Interior c → rows = 0) := by
  intro rows
  obtain ⟨_, h1, h2, _⟩ := C04_leg_numbers_bijective jc jw maps i h o ho fwd
  have some : i.SomeEscape fwd c ∨ i.SomeStay fwd c := by
    by_cases hx : i.Escapes (i.xs fwd c 0)
    · exact Or.inl ⟨0, hn, hx⟩
    · exact Or.inr ⟨0, hn, hx⟩
  have e : rows = (if 0 ≤ (o.legs fwd).number (true, c) then 1 else 0) +
      (if 0 ≤ (o.legs fwd).number (false, c) then 1 else 0) := by
    simp only [rows, List.filter_cons, List.filter_nil]
    split_ifs <;> simp_all
  have g1 := h1 c
  have g2 := h2 c
  constructor
  · intro hi
    simp only [hi, true_and] at g1 g2
    rw [e, ← g1, ← g2]
    rw [← g1, ← g2] at some
    split_ifs <;> simp_all
  · intro hi
    rw [e, if_neg (fun h => hi (g1.1 h).1), if_neg (fun h => hi (g2.1 h).1)]

/-- C05: weights of the rows of an interior cell. -/
theorem C05_leg_weights_sum (h : Represents maps i) (o : Ops K)
    (ho : calculateOps jc jw maps = .ok o) (fwd : Bool) (c : Cell) (hc : i.Interior c)
    (hn : 0 < i.n) :
    let num := fun b => (o.legs fwd).number (b, c)
    let wt := fun b => (o.legs fwd).legWeights.getD (num b).toNat 0
    ((0 ≤ num true ∧ 0 ≤ num false) → wt true + wt false = i.w.sum ∧
      wt true = (∑ s ∈ Finset.range i.n \ i.staying fwd c, i.w.getD s 0)) ∧
    (0 ≤ num true → ¬ 0 ≤ num false → wt true = 1) ∧
    (0 ≤ num false → ¬ 0 ≤ num true → wt false = 1) ∧
    (0 ≤ num true ∨ 0 ≤ num false) ∧
    (o.legs fwd).legWeights.length = (o.legs fwd).nLegs ∧
    |i.w.sum - 1| < 1 / 10 ^ 8 ∧
    ((∀ v ∈ i.w, 0 < v) → ∀ b, 0 ≤ num b → 0 < wt b) := by
  intro num wt
  obtain ⟨⟨hlen, hsum⟩, _, _, _, _, hl⟩ := calculateOps_inv jc jw maps i h o ho
  obtain ⟨bd, ws, _, hws, e⟩ := hl fwd
  obtain ⟨ws', hws', hwl, hval⟩ := buildLegWeights_eq i.nx i.ny i.nz i.mxg ⟨i.n, i.xs fwd⟩ i.w
  have : ws = ws' := by
    have := hws.symm.trans hws'
    injection this
  subst this
  obtain ⟨_, k1, k2, _⟩ := C04_leg_numbers_bijective jc jw maps i h o ho fwd
  have hnum := fun b => (legs_number jc jw maps i h o ho fwd (b, c)).1
  have hS := anyStay_iff i fwd c
  have hE := anyHit_iff i fwd c
  have hwt : ∀ b, 0 ≤ num b → wt b = legValue i.nx i.mxg ⟨i.n, i.xs fwd⟩ i.w (b, c) := by
    intro b hb
    have hm : (b, c) ∈ legOrder i.nx i.ny i.nz i.mxg ⟨i.n, i.xs fwd⟩ := by
      rw [mem_legOrder_iff (w := i.w)]
      have : 0 ≤ (i.ls fwd).number (b, c) := by rw [← hnum]; exact hb
      exact this
    have := hval _ hm
    simp only [wt, num]
    rw [e]
    simp only [Input.legOps]
    have e2 : LegOps.number (⟨(i.ls fwd).nLegs, (i.ls fwd).interiorLeg, (i.ls fwd).boundaryLeg, ws,
        Builder.toCsr jc jw bd⟩ : LegOps K) (b, c) = (i.ls fwd).number (b, c) := by cases b <;> rfl
    rw [e2, List.getD_eq_getElem?_getD]
    have this' : ws[((i.ls fwd).number (b, c)).toNat]? = _ := this
    rw [this']; rfl
  have lenrow : i.w.length = (((SubArr.mk i.n (i.xs fwd)).row c).map
      fun x => hits x i.nx i.mxg).length := by simp [SubArr.row, hlen]
  have hT : 0 ≤ num true ↔ i.SomeEscape fwd c := by
    have := k1 c; simp only [num]; rw [this]; simp [hc]
  have hF : 0 ≤ num false ↔ i.SomeStay fwd c := by
    have := k2 c; simp only [num]; rw [this]; simp [hc]
  refine ⟨?_, ?_, ?_, ?_, ?_, hsum, ?_⟩
  · rintro ⟨a, b⟩
    rw [hwt _ a, hwt _ b]
    have a' := hE.2 (hT.1 a)
    have b' := hS.2 (hF.1 b)
    simp only [legValue, a', b', Bool.and_self, if_true, Bool.false_eq_true, if_false]
    simp only [classify]
    refine ⟨maskedSum_add_not _ _ lenrow, ?_⟩
    exact maskedSum_escaping i fwd c hlen
  · intro a b
    rw [hwt _ a]
    have b' : anyStay i.nx i.mxg ⟨i.n, i.xs fwd⟩ c = false := by
      rw [← Bool.not_eq_true, hS, ← hF]; exact b
    simp [legValue, b']
  · intro a b
    rw [hwt _ a]
    have b' : anyHit i.nx i.mxg ⟨i.n, i.xs fwd⟩ c = false := by
      rw [← Bool.not_eq_true, hE, ← hT]; exact b
    simp [legValue, b']
  · rw [hT, hF]
    by_cases hx : i.Escapes (i.xs fwd c 0)
    · exact Or.inl ⟨0, hn, hx⟩
    · exact Or.inr ⟨0, hn, hx⟩
  · rw [e]; exact hwl
  · intro hp b hb
    rw [hwt _ hb]
    simp only [legValue]
    split
    · rename_i hab
      rw [Bool.and_eq_true] at hab
      cases b
      · exact maskedSum_pos _ _ (by rw [lenrow]; simp) hp hab.1
      · exact maskedSum_pos _ _ lenrow hp hab.2
    · exact one_pos

/-- In the example the split cell `(3, 0, 0)` has a boundary leg of weight 3/4. -/
example : ∃ o, calculateOps (fun _ => 7) (fun _ => 7) exMaps = .ok o ∧
    (o.legs true).legWeights.getD ((o.legs true).number (true, (3, 0, 0))).toNat 0 = 3 / 4 := by
  obtain ⟨o, ho⟩ := C10_assembly_succeeds (fun _ => 7) (fun _ => 7) exMaps exIn exMaps_represents
    exIn_guards exIn_goodWeights
  obtain ⟨_, k1, k2, _⟩ := C04_leg_numbers_bijective _ _ exMaps exIn exMaps_represents o ho true
  obtain ⟨h, _⟩ := C05_leg_weights_sum _ _ exMaps exIn exMaps_represents o ho true (3, 0, 0)
    exIn_split.1 (by decide)
  refine ⟨o, ho, ?_⟩
  refine (h ⟨(k1 _).2 ⟨exIn_split.1, exIn_split.2.1⟩, (k2 _).2 ⟨exIn_split.1, exIn_split.2.2⟩⟩).2.trans ?_
  have : Finset.range exIn.n \ exIn.staying true (3, 0, 0) = {1} := by
    ext s
    simp only [Finset.mem_sdiff, Finset.mem_range, Input.staying, Finset.mem_filter,
      Finset.mem_singleton]
    have hn : exIn.n = 2 := rfl
    rw [hn]
    constructor
    · rintro ⟨h1, h2⟩
      by_contra h3
      have : s = 0 := by omega
      subst this
      exact h2 ⟨h1, by norm_num [Input.Escapes, Input.xs, exIn]⟩
    · rintro rfl
      refine ⟨by decide, fun hh => hh.2 ?_⟩
      norm_num [Input.Escapes, Input.xs, exIn]
  rw [this]
  simp [exIn]

end Zoidberg.Weights
