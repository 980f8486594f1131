import Verif.Props.FieldData
import Verif.Props.Tighten
import Mathlib.Data.List.Basic
import Mathlib.Data.String.Basic

/-! # The names of the saved fields (C144) -/

set_option linter.unusedSectionVars false

namespace Zoidberg

/-! ## Reading text up to a dot -/

theorem upto_dot {u v x y : List Char} (hu : '.' ∉ u) (hv : '.' ∉ v) (h : u ++ '.' :: x = v ++ '.' :: y) : u = v ∧ x = y := by
  induction u generalizing v with
  | nil =>
    cases v with
    | nil => simpa using h
    | cons c v =>
      simp only [List.nil_append, List.cons_append, List.cons.injEq] at h
      exact absurd (by rw [h.1]; simp) hv
  | cons c u ih =>
    cases v with
    | nil =>
      simp only [List.nil_append, List.cons_append, List.cons.injEq] at h
      exact absurd (by rw [← h.1]; simp) hu
    | cons d v =>
      simp only [List.cons_append, List.cons.injEq] at h
      obtain ⟨h1, h2⟩ := ih (fun hm => hu (List.mem_cons_of_mem _ hm)) (fun hm => hv (List.mem_cons_of_mem _ hm)) h.2
      exact ⟨by rw [h.1, h1], h2⟩

theorem nat_chars (n : ℕ) : '.' ∉ (toString n).toList ∧ '-' ∉ (toString n).toList := by
  have h : (toString n).toList = Nat.toDigits 10 n := Nat.toList_repr
  rw [h]
  constructor <;> intro hm <;> have := Nat.isDigit_of_mem_toDigits (by norm_num) (by norm_num) hm <;> revert this <;> decide

theorem nat_inj {n m : ℕ} (h : (toString n).toList = (toString m).toList) : n = m := by
  have h1 : (toString n).toList = Nat.toDigits 10 n := Nat.toList_repr
  have h2 : (toString m).toList = Nat.toDigits 10 m := Nat.toList_repr
  rw [h1, h2] at h
  have := congrArg (fun l => Nat.ofDigitChars 10 l 0) h
  simpa [Nat.ofDigitChars_toDigits] using this

theorem int_text (n : ℤ) : (toString n).toList = if 0 ≤ n then (toString n.toNat).toList else '-' :: (toString (-n).toNat).toList := by
  rw [Int.toString_eq_repr, Int.repr_eq_if]
  split_ifs
  · rfl
  · rw [String.toList_append]
    rfl

theorem int_chars (n : ℤ) : '.' ∉ (toString n).toList := by
  rw [int_text]
  split_ifs
  · exact (nat_chars _).1
  · intro h
    rcases List.mem_cons.1 h with h | h
    · exact absurd h (by decide)
    · exact (nat_chars _).1 h

theorem int_inj {n m : ℤ} (h : (toString n).toList = (toString m).toList) : n = m := by
  rw [int_text, int_text] at h
  split_ifs at h with h1 h2 h2
  · have := nat_inj h
    omega
  · exact absurd (by rw [h]; simp) (nat_chars n.toNat).2
  · exact absurd (by rw [← h]; simp) (nat_chars m.toNat).2
  · have := nat_inj (List.cons.inj h).2
    omega

/-! ## Numbers with two decimals -/

/-- The text has a dot and then two characters. -/
def TwoDecimals {K : Type} (fmt : K → String) : Prop := ∀ v, ∃ (u : List Char) (c d : Char), '.' ∉ u ∧ (fmt v).toList = u ++ ['.', c, d]

theorem TwoDecimals.prefix {K : Type} {fmt : K → String} (h : TwoDecimals fmt) (v w : K) (x y : List Char) (e : (fmt v).toList ++ x = (fmt w).toList ++ y) :
    fmt v = fmt w ∧ x = y := by
  obtain ⟨u, c, d, hu, h1⟩ := h v
  obtain ⟨u', c', d', hu', h2⟩ := h w
  rw [h1, h2] at e
  simp only [List.append_assoc, List.cons_append, List.nil_append] at e
  obtain ⟨e1, e2⟩ := upto_dot hu hu' e
  simp only [List.cons.injEq] at e2
  obtain ⟨rfl, rfl, rfl⟩ := e2
  refine ⟨String.toList_inj.1 ?_, rfl⟩
  rw [h1, h2, e1]

/-- Two sets of arguments that cannot be told apart by the name of the file. -/
def SameName {K : Type} (fmt : K → String) (a b : W7Args K) : Prop :=
  a.configuration = b.configuration ∧ a.nx = b.nx ∧ a.ny = b.ny ∧ a.nz = b.nz ∧ fmt a.r.1 = fmt b.r.1 ∧ fmt a.r.2 = fmt b.r.2 ∧
    fmt a.phi.1 = fmt b.phi.1 ∧ fmt a.phi.2 = fmt b.phi.2 ∧ fmt a.z.1 = fmt b.z.1 ∧ fmt a.z.2 = fmt b.z.2

/-- **C144.** Exactly when two sets of arguments have the same file. -/
theorem C144_names {K : Type} (fmt : K → String) (hf : TwoDecimals fmt) (a b : W7Args K) : a.fname fmt = b.fname fmt ↔ SameName fmt a b := by
  constructor
  · intro h
    have h := String.toList_inj.2 h
    unfold W7Args.fname W7Args.stem at h
    simp only [String.toList_append] at h
    have d1 : ".".toList = ['.'] := rfl
    have d2 : "-".toList = ['-'] := rfl
    simp only [d1, d2, List.append_assoc, List.cons_append, List.nil_append, List.append_cancel_left_eq] at h
    obtain ⟨e1, h⟩ := upto_dot (int_chars _) (int_chars _) h
    obtain ⟨e2, h⟩ := upto_dot (nat_chars _).1 (nat_chars _).1 h
    obtain ⟨e3, h⟩ := upto_dot (nat_chars _).1 (nat_chars _).1 h
    obtain ⟨e4, h⟩ := upto_dot (nat_chars _).1 (nat_chars _).1 h
    obtain ⟨f1, h⟩ := hf.prefix _ _ _ _ h
    obtain ⟨f2, h⟩ := hf.prefix _ _ _ _ (List.cons.inj h).2
    obtain ⟨f3, h⟩ := hf.prefix _ _ _ _ (List.cons.inj h).2
    obtain ⟨f4, h⟩ := hf.prefix _ _ _ _ (List.cons.inj h).2
    obtain ⟨f5, h⟩ := hf.prefix _ _ _ _ (List.cons.inj h).2
    obtain ⟨f6, -⟩ := hf.prefix _ _ _ _ (List.cons.inj h).2
    exact ⟨int_inj e1, nat_inj e2, nat_inj e3, nat_inj e4, f1, f2, f3, f4, f5, f6⟩
  · rintro ⟨h1, h2, h3, h4, h5, h6, h7, h8, h9, h10⟩
    unfold W7Args.fname W7Args.stem
    rw [h1, h2, h3, h4, h5, h6, h7, h8, h9, h10]

/-- New and old names differ. -/
theorem fname_ne_old {K : Type} (fmt : K → String) (a b : W7Args K) : a.fname fmt ≠ b.fnameOld fmt := by
  intro h
  have h := congrArg List.reverse (String.toList_inj.2 h)
  unfold W7Args.fname W7Args.fnameOld at h
  simp only [String.toList_append, List.reverse_append] at h
  have d1 : ".nc".toList.reverse = ['c', 'n', '.'] := rfl
  have d2 : ".dat".toList.reverse = ['t', 'a', 'd', '.'] := rfl
  rw [d1, d2] at h
  simp at h

/-- **C144.** Exactly for which sets of arguments all histories without old files give the right fields: if no two of them have the same numbers and limits that agree to two decimals. -/
theorem C144_iff {K : Type} (fmt : K → String) (hf : TwoDecimals fmt) (S : W7Args K → Prop) :
    (∀ (compute : W7Args K → Except Err (W7Args K)) (calls : List (W7Args K)), (∀ a ∈ calls, S a) →
      fieldValuesCalls fmt compute (fun _ => none) calls = calls.map compute) ↔ ∀ a b, S a → S b → SameName fmt a b → a = b := by
  constructor
  · intro h a b ha hb hs
    have h1 := h .ok [a, b] (by simp [ha, hb])
    have hn := (C144_names fmt hf a b).2 hs
    simp [fieldValuesCalls, fieldValues, Dict.set, hn] at h1
    exact h1
  · intro h compute calls hc
    refine C144_saved_partial fmt compute S (fun a b ha hb hn => h a b ha hb ((C144_names fmt hf a b).1 hn)) (fun a b _ _ => fname_ne_old fmt a b) calls _ ?_ hc
    intro a _
    exact ⟨fun b hb => (by cases hb), rfl⟩

/-! ## The format of Python -/

theorem digit_text {n : ℕ} (h : n < 10) : (toString n).toList = [n.digitChar] := by
  have h1 : (toString n).toList = Nat.toDigits 10 n := Nat.toList_repr
  rw [h1, Nat.toDigits_of_lt_base h]

theorem fixed2_list (v : ℚ) : (fixed2 v).toList = (if v < 0 then ['-'] else []) ++ (toString ((nearestEven (100 * |v|)).toNat / 100)).toList ++
    ['.', ((nearestEven (100 * |v|)).toNat / 10 % 10).digitChar, ((nearestEven (100 * |v|)).toNat % 10).digitChar] := by
  unfold fixed2
  simp only [String.toList_append]
  rw [digit_text (Nat.mod_lt _ (by norm_num)), digit_text (Nat.mod_lt _ (by norm_num))]
  have d1 : ".".toList = ['.'] := rfl
  have d2 : "-".toList = ['-'] := rfl
  have d3 : "".toList = [] := rfl
  split_ifs <;> simp [d1, d2, d3]

theorem fixed2_two : TwoDecimals fixed2 := by
  intro v
  refine ⟨_, _, _, ?_, fixed2_list v⟩
  intro h
  rcases List.mem_append.1 h with h | h
  · split_ifs at h
    · exact absurd (List.mem_singleton.1 h) (by decide)
    · simp at h
  · exact (nat_chars _).1 h

theorem digitChar_inj {a b : ℕ} (ha : a < 10) (hb : b < 10) (h : a.digitChar = b.digitChar) : a = b := by
  have := congrArg Char.toNat h
  rw [Nat.toNat_digitChar_of_lt_ten ha, Nat.toNat_digitChar_of_lt_ten hb] at this
  omega

theorem nearestEven_nonneg {q : ℚ} (h : 0 ≤ q) : 0 ≤ nearestEven q := by
  have := Int.floor_nonneg.2 h
  unfold nearestEven
  split_ifs <;> omega

/-- **C144.** Two limits have the same text exactly if they have the same sign and the nearest multiples of a hundredth are the same. -/
theorem C144_limits (v w : ℚ) : fixed2 v = fixed2 w ↔ ((v < 0 ↔ w < 0) ∧ nearestEven (100 * |v|) = nearestEven (100 * |w|)) := by
  constructor
  · intro h
    have h := String.toList_inj.2 h
    have hv := nearestEven_nonneg (show 0 ≤ 100 * |v| by positivity)
    have hw := nearestEven_nonneg (show 0 ≤ 100 * |w| by positivity)
    rw [fixed2_list, fixed2_list] at h
    generalize nearestEven (100 * |v|) = n at *
    generalize nearestEven (100 * |w|) = m at *
    have key : ∀ k l : ℕ, (toString (k / 100)).toList ++ ['.', (k / 10 % 10).digitChar, (k % 10).digitChar] =
        (toString (l / 100)).toList ++ ['.', (l / 10 % 10).digitChar, (l % 10).digitChar] → k = l := by
      intro k l h
      obtain ⟨h1, h2⟩ := upto_dot (nat_chars _).1 (nat_chars _).1 h
      have e1 := nat_inj h1
      simp only [List.cons.injEq, and_true] at h2
      have e2 := digitChar_inj (Nat.mod_lt _ (by norm_num)) (Nat.mod_lt _ (by norm_num)) h2.1
      have e3 := digitChar_inj (Nat.mod_lt _ (by norm_num)) (Nat.mod_lt _ (by norm_num)) h2.2
      omega
    have noSign : ∀ (k : ℕ) (t t' : List Char), (toString k).toList ++ '.' :: t ≠ '-' :: t' := by
      intro k t t' h
      cases hk : (toString k).toList with
      | nil =>
        rw [hk] at h
        simp at h
      | cons c r =>
        rw [hk] at h
        have h1 := (List.cons.inj h).1
        exact (nat_chars k).2 (by rw [hk, h1]; simp)
    by_cases h1 : v < 0 <;> by_cases h2 : w < 0
    · simp only [h1, h2, if_true, List.append_assoc, List.append_cancel_left_eq] at h
      have := key _ _ h
      exact ⟨by simp [h1, h2], by omega⟩
    · simp only [h1, h2, if_true, if_false, List.nil_append, List.cons_append] at h
      exact absurd h.symm (noSign _ _ _)
    · simp only [h1, h2, if_true, if_false, List.nil_append, List.cons_append] at h
      exact absurd h (noSign _ _ _)
    · simp only [h1, h2, if_false, List.nil_append] at h
      have := key _ _ h
      exact ⟨by simp [h1, h2], by omega⟩
  · rintro ⟨h1, h2⟩
    unfold fixed2
    rw [h2]
    simp only [h1]

/-- Cases: 4.052 and 4.048 have the same name, 4.06 has another; the text itself. -/
example : fixed2 (4052 / 1000) = fixed2 (4048 / 1000) ∧ fixed2 (4052 / 1000) ≠ fixed2 (406 / 100) ∧ fixed2 (-135 / 100) = "-1.35" := by
  decide +kernel

/-- A set of arguments for which all histories are right: all configurations on one grid. -/
example : ∀ a b : W7Args ℚ, (∃ n, a = ⟨n, 8, 8, 8, (4, 6), (0, 1), (-1, 1)⟩) → (∃ n, b = ⟨n, 8, 8, 8, (4, 6), (0, 1), (-1, 1)⟩) → SameName fixed2 a b → a = b := by
  rintro _ _ ⟨n, rfl⟩ ⟨m, rfl⟩ h
  have := h.1
  simp only at this
  rw [this]

end Zoidberg
