import Verif.Proofs.WeightsStencil
import Verif.Proofs.WeightsAssembly

/-! # C06-C09: sparse matrix builder, interpolation weights -/

set_option linter.unusedSectionVars false

namespace Zoidberg.Weights

variable {K : Type} [Field K] [LinearOrder K] [IsStrictOrderedRing K] [FloorRing K]

/-- C06: the CSR export represents the assembled rows, whatever the `np.empty`
arrays contained before. -/
theorem C06_csr_faithful (jc : ℕ → ℤ) (jw : ℕ → K) (b : Builder K) :
    let m := b.toCsr jc jw
    m.rows.length = b.length + 1 ∧ m.rows.getD 0 1 = 0 ∧
    (∀ k < b.length, m.rows.getD k 0 ≤ m.rows.getD (k + 1) 0) ∧
    m.rows.getLastD 0 = m.columns.length ∧ m.columns.length = m.weights.length ∧
    m.columns.length = (b.map List.length).sum ∧
    ∀ k (hk : k < b.length), m.row k = b[k] := by
  intro m
  obtain ⟨h1, h2, h3⟩ := toCsr_eq jc jw b
  have hflat : b.flatten.length = (b.map List.length).sum := by rw [List.length_flatten]
  refine ⟨?_, ?_, ?_, ?_, ?_, ?_, ?_⟩
  · simp only [m, h3, length_cumsum0, List.length_map]
  · have := cumsum0_getD (b.map List.length) 0 (Nat.zero_le _)
    have hl := length_cumsum0 (b.map List.length)
    simp only [m, h3]
    cases hc : cumsum0 (b.map List.length) with
    | nil => rw [hc] at hl; simp at hl
    | cons a l => rw [hc] at this; simpa using this
  · intro k hk
    simp only [m, h3]
    rw [cumsum0_getD _ _ (by rw [List.length_map]; omega),
      cumsum0_getD _ _ (by rw [List.length_map]; omega)]
    rw [List.take_add_one, List.sum_append]; omega
  · simp only [m, h3, h1, cumsum0_last, List.length_map, hflat]
  · simp only [m, h1, h2, List.length_map]
  · simp only [m, h1, List.length_map, hflat]
  · intro k hk; exact toCsr_row jc jw b k hk

/-- The theorem says something about matrices with several, also empty, rows. -/
example : (Builder.toCsr (fun _ => 5) (fun _ => (5 : ℚ)) [[(0, 1), (4, 2)], [], [(7, 3)]]).rows
    = [0, 2, 2, 3] := by decide

/-- Calls a user of the builder can make. -/
inductive BuilderOp (K : Type) where
  | add (row col : ℤ) (w : K)
  | set (row : ℤ) (entries : List (ℤ × K))

/-- Perform one call (weights.py:279-291). -/
def BuilderOp.run (b : Builder K) : BuilderOp K → Except Err (Builder K)
  | .add r c w => b.addToEntry r c w
  | .set r es => b.setRow r es

/-- The row a call names, and what it puts there. -/
def BuilderOp.row : BuilderOp K → ℤ
  | .add r _ _ => r
  | .set r _ => r

/-- See `BuilderOp.row`. -/
def BuilderOp.put : BuilderOp K → List (ℤ × K)
  | .add _ c w => [(c, w)]
  | .set _ es => es

/-- A call addresses row `r` of an `n` row matrix, directly or counted from the
end. -/
def BuilderOp.Addresses (n r : ℕ) (op : BuilderOp K) : Prop :=
  op.row = r ∨ op.row = (r : ℤ) - n

instance (n r : ℕ) : DecidablePred (BuilderOp.Addresses (K := K) n r) :=
  fun _ => inferInstanceAs (Decidable (_ ∨ _))

theorem pyIndex_some (n : ℕ) (j : ℤ) (r : ℕ) :
    pyIndex n j = some r ↔ r < n ∧ (j = r ∨ j = (r : ℤ) - n) := by
  unfold pyIndex
  split_ifs
  · simp only [Option.some.injEq]; omega
  · simp only [false_iff]; omega
  · simp only [Option.some.injEq]; omega
  · simp only [false_iff]; omega

/-- What one successful call does to row `r`. -/
theorem builderOp_run (b b' : Builder K) (op : BuilderOp K) (h : op.run b = .ok b') :
    b'.length = b.length ∧ ∀ r < b.length,
      (¬ op.Addresses b.length r → b'.getD r [] = b.getD r []) ∧
      (op.Addresses b.length r → (∀ v, applyRow (b'.getD r []) v =
          applyRow (b.getD r []) v + applyRow op.put v) ∧
        ((b.getD r []).map (·.1)).Nodup ∧ (op.put.map (·.1)).Nodup →
          ((b'.getD r []).map (·.1)).Nodup) ∧
      (op.Addresses b.length r → (∀ v, applyRow (b'.getD r []) v =
          applyRow (b.getD r []) v + applyRow op.put v)) := by
  have getset : ∀ (l : Builder K) (q r : ℕ) (x : List (ℤ × K)), q < l.length →
      (l.set q x).getD r [] = if q = r then x else l.getD r [] := by
    intro l q r x hq
    rw [List.getD_eq_getElem?_getD, List.getElem?_set, List.getD_eq_getElem?_getD]
    by_cases e : q = r
    · subst e; simp [hq]
    · simp [e]
  cases op with
  | add row col w =>
    simp only [BuilderOp.run, Builder.addToEntry] at h
    cases hp : pyIndex b.length row with
    | none => simp [hp] at h
    | some q =>
      simp only [hp, Except.ok.injEq] at h
      obtain ⟨hq, hrow⟩ := (pyIndex_some _ _ _).1 hp
      subst h
      refine ⟨by simp, fun r hr => ?_⟩
      have hA : BuilderOp.Addresses b.length r (.add row col w) ↔ q = r := by
        simp only [BuilderOp.Addresses, BuilderOp.row]; omega
      rw [hA, getset _ _ _ _ hq]
      refine ⟨fun hne => if_neg hne, fun he => ?_, fun he => ?_⟩
      · rintro ⟨_, h1, _⟩
        subst he
        rw [if_pos rfl]
        exact nodup_addEntry _ _ _ h1
      · subst he
        intro v
        rw [if_pos rfl, applyRow_addEntry]
        simp [BuilderOp.put, applyRow]
  | set row es =>
    simp only [BuilderOp.run, Builder.setRow] at h
    cases hp : pyIndex b.length row with
    | none => simp [hp] at h
    | some q =>
      simp only [hp] at h
      obtain ⟨hq, hrow⟩ := (pyIndex_some _ _ _).1 hp
      split at h
      · simp at h
      · rename_i hempty
        simp only [Except.ok.injEq] at h
        simp only [ne_eq, not_not] at hempty
        subst h
        refine ⟨by simp, fun r hr => ?_⟩
        have hA : BuilderOp.Addresses b.length r (.set row es) ↔ q = r := by
          simp only [BuilderOp.Addresses, BuilderOp.row]; omega
        rw [hA, getset _ _ _ _ hq]
        refine ⟨fun hne => if_neg hne, fun he => ?_, fun he => ?_⟩
        · rintro ⟨_, _, h2⟩
          subst he
          rw [if_pos rfl]
          exact h2
        · subst he
          intro v
          rw [if_pos rfl, hempty]
          simp [BuilderOp.put, applyRow]

/-- C07: after any history of successful `add_to_entry` and `set_row` calls each
row acts on vectors as the sum of everything put there; other calls do not touch
it; and no column occurs twice unless a `set_row` call put it there twice. -/
theorem C07_history_additive (n : ℕ) (ops : List (BuilderOp K)) (b : Builder K)
    (h : ops.foldlM BuilderOp.run (Builder.init K n) = .ok b) :
    b.length = n ∧ ∀ r < n,
      (∀ v, applyRow (b.getD r []) v =
        ((ops.filter fun op => decide (op.Addresses n r)).map fun op => applyRow op.put v).sum) ∧
      ((∀ op ∈ ops, (op.put.map (·.1)).Nodup) → ((b.getD r []).map (·.1)).Nodup) := by
  have gen : ∀ (ops : List (BuilderOp K)) (b0 b : Builder K), b0.length = n →
      ops.foldlM BuilderOp.run b0 = .ok b →
      b.length = n ∧ ∀ r < n,
        (∀ v, applyRow (b.getD r []) v = applyRow (b0.getD r []) v +
          ((ops.filter fun op => decide (op.Addresses n r)).map fun op => applyRow op.put v).sum) ∧
        (((b0.getD r []).map (·.1)).Nodup → (∀ op ∈ ops, (op.put.map (·.1)).Nodup) →
          ((b.getD r []).map (·.1)).Nodup) := by
    intro ops
    induction ops with
    | nil =>
      intro b0 b hl h
      have : b0 = b := by simpa [pure, Except.pure] using h
      subst this
      exact ⟨hl, fun r _ => ⟨fun v => by simp, fun h _ => h⟩⟩
    | cons op ops ih =>
      intro b0 b hl h
      rw [List.foldlM_cons] at h
      cases hr : BuilderOp.run b0 op with
      | error e => rw [hr] at h; simp [bind, Except.bind] at h
      | ok b1 =>
        rw [hr] at h
        obtain ⟨hl1, hrow⟩ := builderOp_run b0 b1 op hr
        obtain ⟨hlen, hi⟩ := ih b1 b (by rw [hl1, hl]) h
        refine ⟨hlen, fun r hrn => ?_⟩
        obtain ⟨i1, i2⟩ := hi r hrn
        obtain ⟨k1, k2, k3⟩ := hrow r (by rw [hl]; exact hrn)
        rw [hl] at k1 k2 k3
        by_cases hA : op.Addresses n r
        · refine ⟨fun v => ?_, fun hn ho => ?_⟩
          · rw [i1, k3 hA, List.filter_cons_of_pos (by simpa using hA), List.map_cons, List.sum_cons]
            ring
          · exact i2 (k2 hA ⟨k3 hA, hn, ho op (by simp)⟩) (fun o h => ho o (by simp [h]))
        · refine ⟨fun v => ?_, fun hn ho => ?_⟩
          · rw [i1, k1 hA, List.filter_cons_of_neg (by simpa using hA)]
          · exact i2 (by rw [k1 hA]; exact hn) (fun o h => ho o (by simp [h]))
  obtain ⟨h1, h2⟩ := gen ops (Builder.init K n) b (by simp [Builder.init]) h
  refine ⟨h1, fun r hr => ?_⟩
  have e : (Builder.init K n).getD r [] = [] := by
    simp [Builder.init, List.getD_eq_getElem?_getD, hr]
  obtain ⟨i1, i2⟩ := h2 r hr
  rw [e] at i1 i2
  exact ⟨fun v => by rw [i1 v]; simp [applyRow], i2 (by simp)⟩

/-- A history with a repeated column and a negative row index succeeds. -/
example : ∃ b, [BuilderOp.add 0 3 (1 : ℚ), .add (-2) 3 2, .set 1 [(4, 1)], .add 0 5 7].foldlM
    BuilderOp.run (Builder.init ℚ 2) = .ok b ∧ b.getD 0 [] = [(3, 3), (5, 7)] := by
  refine ⟨[[(3, 3), (5, 7)], [(4, 1)]], ?_, rfl⟩
  simp [BuilderOp.run, Builder.addToEntry, Builder.setRow, Builder.init, pyIndex, addEntry, bind,
    Except.bind, pure, Except.pure]
  norm_num

/-- C08: the four weights sum to one, reproduce all quadratics sampled at
-1, 0, 1, 2 and select a grid point at the ends of the interval. -/
theorem C08_catmullRom (u : K) :
    (catmullRom u).sum = 1 ∧
    (∀ a b c : K, (((catmullRom u).zip [(-1 : K), 0, 1, 2]).map
      fun p => p.1 * (a + b * p.2 + c * p.2 ^ 2)).sum = a + b * u + c * u ^ 2) ∧
    (u = 0 → catmullRom u = [0, 1, 0, 0]) ∧ (u = 1 → catmullRom u = [0, 0, 1, 0]) := by
  refine ⟨sum_catmullRom u, ?_, ?_, ?_⟩
  · intro a b c
    simp only [catmullRom, List.zip_cons_cons, List.zip_nil_right, List.map_cons, List.map_nil,
      List.sum_cons, List.sum_nil]
    ring
  · rintro rfl; norm_num [catmullRom]
  · rintro rfl; norm_num [catmullRom]

/-- Cubics are not reproduced: quadratics are the best possible. -/
theorem C08_not_cubic : ¬ ∀ u : ℚ, (((catmullRom u).zip [(-1 : ℚ), 0, 1, 2]).map
    fun p => p.1 * p.2 ^ 3).sum = u ^ 3 := by
  intro h
  have := h (1 / 4)
  norm_num [catmullRom] at this

/-- C09: moving weight off the guard cells keeps the sum, empties the guard
cells, equals sampling with the index clamped to the evolving rows, changes
nothing if the stencil is inside, and never fails. -/
theorem C09_shift_weights (a b c d : K) (xb : ℤ) (nx mxg : ℕ) (hs : a + b + c + d = 1)
    (hlo : (mxg : ℤ) ≤ xb) (hhi : xb ≤ (nx : ℤ) - mxg - 1) :
    ∃ w : List K, shiftWeights [a, b, c, d] xb xOffsets nx mxg = .ok w ∧ w.length = 4 ∧ w.sum = 1 ∧
      (∀ (k : ℕ) (off : ℤ), xOffsets[k]? = some off → (xb + off < mxg ∨ (nx : ℤ) - mxg ≤ xb + off) →
        w[k]? = some 0) ∧
      ((mxg : ℤ) ≤ xb - 1 → xb + 2 < (nx : ℤ) - mxg → w = [a, b, c, d]) ∧
      (∀ g : ℤ → K, ((xOffsets.zip w).map fun p => p.2 * g (xb + p.1)).sum =
        ((xOffsets.zip [a, b, c, d]).map fun p =>
          p.2 * g (max (mxg : ℤ) (min (xb + p.1) ((nx : ℤ) - mxg - 1)))).sum) := by
  refine ⟨_, shiftWeights4 a b c d xb nx mxg hs hlo hhi, length_shifted .., ?_, ?_, ?_, ?_⟩
  · rw [sum_shifted, hs]
  · intro k off hk ho
    have hkl : k < 4 := (List.getElem?_eq_some_iff.1 hk).1
    have hk2 : k < (shifted a b c d xb nx mxg).length := by rw [length_shifted]; exact hkl
    rw [List.getElem?_eq_getElem hk2]
    congr 1
    by_contra h0
    have hmem : (off, (shifted a b c d xb nx mxg)[k]) ∈ xOffsets.zip (shifted a b c d xb nx mxg) := by
      rw [List.mem_iff_getElem?]
      refine ⟨k, ?_⟩
      rw [List.getElem?_zip_eq_some]
      exact ⟨hk, List.getElem?_eq_getElem hk2⟩
    have := shifted_support a b c d xb nx mxg hlo hhi _ hmem h0
    simp only at this
    omega
  · intro h1 h2
    unfold shifted
    simp only [if_neg (show ¬ xb = (mxg : ℤ) by omega), if_neg (show ¬ xb = (nx : ℤ) - mxg - 1 by omega),
      if_neg (show ¬ xb = (nx : ℤ) - mxg - 2 by omega)]
  · intro g
    rw [shifted_apply _ _ _ _ _ _ _ hlo hhi]
    simp only [xOffsets, List.zip_cons_cons, List.zip_nil_right, List.map_cons, List.map_nil,
      List.sum_cons, List.sum_nil]
    ring

/-- A stencil at the last evolving row really moves weight. -/
example : shiftWeights (catmullRom (1 / 2 : ℚ)) 3 xOffsets 6 1 = .ok [-1 / 16, 9 / 16, 1 / 2, 0] := by
  have h : catmullRom (1 / 2 : ℚ) = [-1 / 16, 9 / 16, 9 / 16, -1 / 16] := by norm_num [catmullRom]
  rw [h, shiftWeights4 _ _ _ _ _ _ _ (by norm_num) (by norm_num) (by norm_num)]
  norm_num [shifted]

end Zoidberg.Weights
