import Verif.Spec.Weights
import Mathlib.Algebra.BigOperators.Group.List.Basic
import Mathlib.Data.List.Nodup
import Mathlib.Tactic.Abel

/-! Sparse rows and CSR export of `weights.py`. -/

set_option linter.unusedSectionVars false

namespace Zoidberg.Weights

variable {K : Type} [Field K] [LinearOrder K] [FloorRing K]

theorem cumsum0_aux (l : List ℕ) (acc : List ℕ) (hacc : acc ≠ []) :
    let r := l.foldl (fun acc n => acc ++ [acc.getLastD 0 + n]) acc
    r.length = acc.length + l.length ∧ (∀ k < acc.length, r[k]? = acc[k]?) ∧
      ∀ k ≤ l.length, r[acc.length - 1 + k]? = some (acc.getLastD 0 + (l.take k).sum) := by
  induction l generalizing acc with
  | nil =>
    refine ⟨by simp, by simp, ?_⟩
    intro k hk
    have : k = 0 := by simpa using hk
    subst this
    simp only [Nat.add_zero, List.take_nil, List.sum_nil, List.foldl_nil]
    rw [← List.getLast?_eq_getElem?, List.getLast?_eq_some_getLast hacc, List.getLastD_eq_getLast?,
      List.getLast?_eq_some_getLast hacc]
    rfl
  | cons n l ih =>
    simp only [List.foldl_cons]
    obtain ⟨h1, h2, h3⟩ := ih (acc ++ [acc.getLastD 0 + n]) (by simp)
    have hpos : 0 < acc.length := List.length_pos_iff.2 hacc
    refine ⟨by rw [h1]; simp; omega, ?_, ?_⟩
    · intro k hk
      rw [h2 k (by simp; omega), List.getElem?_append_left hk]
    · intro k hk
      cases k with
      | zero =>
        rw [h2 _ (by simp; omega), List.getElem?_append_left (by omega)]
        simp only [Nat.add_zero, List.take_zero, List.sum_nil]
        rw [← List.getLast?_eq_getElem?, List.getLast?_eq_some_getLast hacc,
          List.getLastD_eq_getLast?, List.getLast?_eq_some_getLast hacc]
        rfl
      | succ k =>
        have := h3 k (by simpa using hk)
        simp only [List.length_append, List.length_singleton, Nat.add_sub_cancel] at this
        rw [show acc.length - 1 + (k + 1) = acc.length + k by omega, this]
        simp [List.getLastD_eq_getLast?]; omega

theorem length_cumsum0 (l : List ℕ) : (cumsum0 l).length = l.length + 1 := by
  rw [cumsum0, (cumsum0_aux l [0] (by simp)).1]; simp; omega

theorem cumsum0_getD (l : List ℕ) (k : ℕ) (hk : k ≤ l.length) :
    (cumsum0 l).getD k 0 = (l.take k).sum := by
  have := (cumsum0_aux l [0] (by simp)).2.2 k hk
  simp only [List.length_singleton, Nat.sub_self, Nat.zero_add] at this
  rw [cumsum0, List.getD_eq_getElem?_getD, this]
  simp

theorem cumsum0_last (l : List ℕ) : (cumsum0 l).getLastD 0 = l.sum := by
  have h := cumsum0_getD l l.length le_rfl
  rw [List.take_length] at h
  rw [← h, List.getLastD_eq_getLast?, List.getLast?_eq_getElem?, length_cumsum0,
    List.getD_eq_getElem?_getD, Nat.add_sub_cancel]

/-- Overwrite part of a list. -/
theorem writeRow_eq (start : ℕ) (es : List (ℤ × K)) (C : List ℤ) (W : List K) :
    writeRow start es (C, W) =
      ((enumerate es).foldl (fun s e => s.set (start + e.1) e.2.1) C,
       (enumerate es).foldl (fun s e => s.set (start + e.1) e.2.2) W) := by
  unfold writeRow
  generalize enumerate es = L
  induction L generalizing C W with
  | nil => rfl
  | cons e L ih => simp only [List.foldl_cons, ih]

theorem enumerate_cons {α : Type} (a : α) (l : List α) :
    enumerate (a :: l) = (0, a) :: (enumerate l).map (fun p => (p.1 + 1, p.2)) := by
  unfold enumerate
  rw [List.length_cons, List.range_succ_eq_map, List.zip_cons_cons, List.zip_map_left]
  congr 1

/-- Writing the entries `start..` in the list `pre ++ old ++ post` with
`old` as long as the new entries gives `pre ++ new ++ post`. -/
theorem foldl_set_enumerate {α β : Type} (f : α → β) (es : List α) (pre old post : List β)
    (h : old.length = es.length) :
    (enumerate es).foldl (fun s e => s.set (pre.length + e.1) (f e.2)) (pre ++ old ++ post) =
      pre ++ es.map f ++ post := by
  induction es generalizing pre old with
  | nil =>
    have : old = [] := by simpa using h
    subst this; simp [enumerate]
  | cons a es ih =>
    cases old with
    | nil => simp at h
    | cons o old =>
      rw [enumerate_cons, List.foldl_cons, List.foldl_map]
      have e : (pre ++ o :: old ++ post).set (pre.length + (0, a).1) (f (0, a).2) =
          (pre ++ [f a]) ++ old ++ post := by
        simp
      rw [e]
      have := ih (pre ++ [f a]) old (by simpa using h)
      simp only [List.length_append, List.length_singleton] at this
      rw [show (fun (s : List β) (e : ℕ × α) => s.set (pre.length + ((e.1 + 1, e.2) : ℕ × α).1)
        (f ((e.1 + 1, e.2) : ℕ × α).2)) =
        (fun s e => s.set (pre.length + 1 + e.1) (f e.2)) from by
          funext s e; congr 1; simp only []; omega]
      rw [this]; simp

theorem toCsr_aux (ptr : ℕ → ℕ) (rows : List (List (ℤ × K))) (k0 : ℕ) (preC : List ℤ)
    (preW : List K) (oldC : List ℤ) (oldW : List K)
    (hC : oldC.length = (rows.map List.length).sum)
    (hW : oldW.length = (rows.map List.length).sum)
    (hl : preC.length = preW.length)
    (hp : ∀ j ≤ rows.length, ptr (k0 + j) = preC.length + ((rows.take j).map List.length).sum) :
    ((enumerate rows).foldl (fun s e => writeRow (ptr (k0 + e.1)) e.2 s)
      (preC ++ oldC, preW ++ oldW)) =
      (preC ++ (rows.flatten.map (·.1)), preW ++ (rows.flatten.map (·.2))) := by
  induction rows generalizing k0 preC preW oldC oldW with
  | nil =>
    have h1 : oldC = [] := by simpa using hC
    have h2 : oldW = [] := by simpa using hW
    subst h1; subst h2
    simp [enumerate]
  | cons r rows ih =>
    rw [enumerate_cons, List.foldl_cons, List.foldl_map]
    have hp0 := hp 0 (by simp)
    simp only [Nat.add_zero, List.take_zero, List.map_nil, List.sum_nil] at hp0
    simp only [List.map_cons, List.sum_cons] at hC hW
    simp only [Nat.add_zero, hp0, writeRow_eq]
    have eC : preC ++ oldC = preC ++ oldC.take r.length ++ oldC.drop r.length := by simp
    have eW : preW ++ oldW = preW ++ oldW.take r.length ++ oldW.drop r.length := by simp
    rw [eC, eW, foldl_set_enumerate (fun e : ℤ × K => e.1) r preC _ _ (by simp; omega)]
    rw [hl, foldl_set_enumerate (fun e : ℤ × K => e.2) r preW _ _ (by simp; omega)]
    have := ih (k0 + 1) (preC ++ r.map (·.1)) (preW ++ r.map (·.2)) (oldC.drop r.length)
      (oldW.drop r.length) (by simp; omega) (by simp; omega) (by simp [hl]) (by
        intro j hj
        have := hp (j + 1) (by simpa using hj)
        simp only [List.take_succ_cons, List.map_cons, List.sum_cons] at this
        rw [show k0 + 1 + j = k0 + (j + 1) by omega, this]
        simp; omega)
    rw [show (fun (s : List ℤ × List K) (e : ℕ × List (ℤ × K)) =>
        writeRow (ptr (k0 + ((e.1 + 1, e.2) : ℕ × List (ℤ × K)).1))
          ((e.1 + 1, e.2) : ℕ × List (ℤ × K)).2 s) =
        (fun s e => writeRow (ptr (k0 + 1 + e.1)) e.2 s) from by
          funext s e; congr 2; simp only []; omega]
    rw [this]
    simp

/-- The exported arrays are the concatenation of the rows. -/
theorem toCsr_eq (jc : ℕ → ℤ) (jw : ℕ → K) (b : Builder K) :
    (b.toCsr jc jw).columns = b.flatten.map (·.1) ∧
    (b.toCsr jc jw).weights = b.flatten.map (·.2) ∧
    (b.toCsr jc jw).rows = cumsum0 (b.map List.length) := by
  have := toCsr_aux (fun k => (cumsum0 (b.map List.length)).getD k 0) b 0 [] []
    ((List.range ((cumsum0 (b.map List.length)).getLastD 0)).map jc)
    ((List.range ((cumsum0 (b.map List.length)).getLastD 0)).map jw)
    (by rw [cumsum0_last]; simp) (by rw [cumsum0_last]; simp) rfl (by
      intro j hj
      rw [Nat.zero_add, cumsum0_getD _ _ (by simpa using hj)]
      simp [List.map_take])
  simp only [Nat.zero_add, List.nil_append] at this
  simp only [Builder.toCsr]
  rw [this]
  simp

/-- A row of the exported matrix is the assembled row. -/
theorem toCsr_row (jc : ℕ → ℤ) (jw : ℕ → K) (b : Builder K) (i : ℕ) (hi : i < b.length) :
    (b.toCsr jc jw).row i = b[i] := by
  obtain ⟨h1, h2, h3⟩ := toCsr_eq jc jw b
  unfold CSR.row
  rw [h1, h2, h3, cumsum0_getD _ _ (by simp; omega), cumsum0_getD _ _ (by simp; omega)]
  have e : (b.flatten.map (·.1)).zip (b.flatten.map (·.2)) = b.flatten := by
    rw [List.zip_map', List.map_congr_left (g := id) (by simp)]; simp
  rw [e]
  have hsplit : b = b.take i ++ b[i] :: b.drop (i + 1) := by
    rw [List.getElem_cons_drop, List.take_append_drop]
  have h4 : ((b.map List.length).take i).sum = (b.take i).flatten.length := by
    rw [List.length_flatten, List.map_take]
  have h5 : ((b.map List.length).take (i + 1)).sum = (b.take i).flatten.length + b[i].length := by
    rw [List.take_add_one, List.sum_append, h4]
    simp [List.getElem?_eq_getElem hi]
  simp only [h4, h5, Nat.add_sub_cancel_left]
  have hf : b.flatten = (b.take i).flatten ++ (b[i] ++ (b.drop (i + 1)).flatten) := by
    conv_lhs => rw [hsplit]
    rw [List.flatten_append, List.flatten_cons]
  rw [hf]
  simp

/-! ### accumulation -/

theorem applyRow_addEntry (c : ℤ) (w : K) (row : List (ℤ × K)) (v : ℤ → K) :
    applyRow (addEntry c w row) v = applyRow row v + w * v c := by
  induction row with
  | nil => simp [addEntry, applyRow]
  | cons e row ih =>
    obtain ⟨d, u⟩ := e
    unfold addEntry
    split
    · rename_i h; subst h; simp [applyRow]; ring
    · simp only [applyRow, List.map_cons, List.sum_cons] at ih ⊢
      rw [ih]; ring

theorem cols_addEntry (c : ℤ) (w : K) (row : List (ℤ × K)) (d : ℤ) :
    d ∈ (addEntry c w row).map (·.1) ↔ d = c ∨ d ∈ row.map (·.1) := by
  induction row with
  | nil => simp [addEntry]
  | cons e row ih =>
    obtain ⟨e, u⟩ := e
    unfold addEntry
    split
    · rename_i h; subst h; simp
    · simp only [List.map_cons, List.mem_cons, ih]; tauto

theorem nodup_addEntry (c : ℤ) (w : K) (row : List (ℤ × K)) (h : (row.map (·.1)).Nodup) :
    ((addEntry c w row).map (·.1)).Nodup := by
  induction row with
  | nil => simp [addEntry]
  | cons e row ih =>
    obtain ⟨e, u⟩ := e
    unfold addEntry
    simp only [List.map_cons, List.nodup_cons] at h
    split
    · rename_i hc; subst hc; simpa using h
    · rename_i hc
      simp only [List.map_cons, List.nodup_cons]
      refine ⟨?_, ih h.2⟩
      rw [cols_addEntry]
      rintro (rfl | hm)
      · exact hc rfl
      · exact h.1 hm

/-- Accumulate a list of contributions into a row. -/
def addAll (row : List (ℤ × K)) (cs : List (ℤ × K)) : List (ℤ × K) :=
  cs.foldl (fun r e => addEntry e.1 e.2 r) row

theorem applyRow_addAll (cs row : List (ℤ × K)) (v : ℤ → K) :
    applyRow (addAll row cs) v = applyRow row v + applyRow cs v := by
  induction cs generalizing row with
  | nil => simp [addAll, applyRow]
  | cons e cs ih =>
    simp only [addAll, List.foldl_cons] at ih ⊢
    rw [ih, applyRow_addEntry]
    simp [applyRow]; ring

theorem cols_addAll (cs row : List (ℤ × K)) (d : ℤ) :
    d ∈ (addAll row cs).map (·.1) ↔ d ∈ row.map (·.1) ∨ d ∈ cs.map (·.1) := by
  induction cs generalizing row with
  | nil => simp [addAll]
  | cons e cs ih =>
    simp only [addAll, List.foldl_cons] at ih ⊢
    rw [ih, cols_addEntry]
    simp only [List.map_cons, List.mem_cons]; tauto

theorem nodup_addAll (cs row : List (ℤ × K)) (h : (row.map (·.1)).Nodup) :
    ((addAll row cs).map (·.1)).Nodup := by
  induction cs generalizing row with
  | nil => exact h
  | cons e cs ih =>
    simp only [addAll, List.foldl_cons] at ih ⊢
    exact ih _ (nodup_addEntry _ _ _ h)

end Zoidberg.Weights
