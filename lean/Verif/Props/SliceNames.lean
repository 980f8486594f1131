import Verif.Model.MakeMaps

/-! # C30: names of parallel slices -/

set_option linter.unusedSectionVars false

namespace Zoidberg

variable {K : Type} [Field K] [LinearOrder K] [IsStrictOrderedRing K] [FloorRing K]

/-- The name of a field that is not itself the name of a parallel slice: its
first word is not `forward` or `backward`, and its last word is not a number
(words being separated by underscores). -/
structure Plain (f : String) : Prop where
  notForward : ¬ "forward_".toList <+: f.toList ++ ['_']
  notBackward : ¬ "backward_".toList <+: f.toList ++ ['_']
  notNumber : ∀ (p : List Char) (n : ℕ), 2 ≤ n → f.toList ≠ p ++ '_' :: (toString n).toList

/-- The offsets zoidberg uses: non-zero integers and half cells. -/
def SliceOffset (o : PyNum K) : Prop :=
  (∃ n : ℤ, n ≠ 0 ∧ o = .int n) ∨ o = .float (1 / 2) ∨ o = .float (-1 / 2)

theorem digits_inj {n m : ℕ} (h : (toString n).toList = (toString m).toList) : n = m := by
  have e : ∀ k : ℕ, (toString k).toList = Nat.toDigits 10 k := fun k => by
    change (Nat.repr k).toList = _
    exact Nat.toList_repr
  rw [e, e] at h
  have := congrArg (fun l => Nat.ofDigitChars 10 l 0) h
  simpa [Nat.ofDigitChars_ten_toDigits] using this

theorem digits_no_underscore (n : ℕ) : '_' ∉ (toString n).toList := by
  have e : (toString n).toList = Nat.toDigits 10 n := by
    change (Nat.repr n).toList = _
    exact Nat.toList_repr
  rw [e]
  exact Nat.underscore_not_in_toDigits

/-- Split at the last underscore. -/
theorem split_last {a b u v : List Char} (hu : '_' ∉ u) (hv : '_' ∉ v)
    (h : a ++ '_' :: u = b ++ '_' :: v) : a = b ∧ u = v := by
  induction a generalizing b with
  | nil =>
    cases b with
    | nil => simpa using h
    | cons c t =>
      exfalso
      simp only [List.nil_append, List.cons_append, List.cons.injEq] at h
      apply hu
      rw [h.2]
      simp
  | cons c t ih =>
    cases b with
    | nil =>
      exfalso
      simp only [List.nil_append, List.cons_append, List.cons.injEq] at h
      apply hv
      rw [← h.2]
      simp
    | cons c' t' =>
      simp only [List.cons_append, List.cons.injEq] at h
      obtain ⟨e1, e2⟩ := ih h.2
      exact ⟨by rw [h.1, e1], e2⟩

/-- The possible shapes of a name, as lists of characters. -/
theorem name_int (repr : K → String) (f : String) (n : ℤ) (hn : n ≠ 0) :
    ∃ s, parallelSliceFieldName repr f (.int n) = .ok s ∧
      s.toList = (if 0 < n then "forward_".toList else "backward_".toList) ++ f.toList ++
        (if 1 < n.natAbs then '_' :: (toString n.natAbs).toList else []) := by
  have h1 : ¬ |(PyNum.int n : PyNum K).val| < 1 := by
    change ¬ |(n : K)| < 1
    have : (1 : ℤ) ≤ |n| := Int.one_le_abs hn
    have : ((1 : ℤ) : K) ≤ ((|n| : ℤ) : K) := by exact_mod_cast this
    rw [Int.cast_abs] at this
    simpa using this
  have hna : ((n.natAbs : ℕ) : ℤ) = |n| := Int.natCast_natAbs n
  have h2 : (|(PyNum.int n : PyNum K).val| > 1) ↔ 1 < n.natAbs := by
    change (|(n : K)| > 1) ↔ 1 < n.natAbs
    rw [← Int.cast_abs, gt_iff_lt]
    constructor
    · intro h
      have : (1 : ℤ) < |n| := by exact_mod_cast h
      omega
    · intro h
      have : (1 : ℤ) < |n| := by omega
      exact_mod_cast this
  have h3 : ((PyNum.int n : PyNum K).val > 0) ↔ 0 < n := by
    change ((n : K) > 0) ↔ 0 < n
    rw [gt_iff_lt]; exact_mod_cast Iff.rfl
  unfold parallelSliceFieldName
  rw [if_neg h1]
  refine ⟨_, rfl, ?_⟩
  by_cases a : 0 < n <;> by_cases b : 1 < n.natAbs <;>
    simp [h2, h3, a, b, String.toList_append, PyNum.absText]

theorem name_half (repr : K → String) (f : String) (o : PyNum K)
    (ho : o = .float (1 / 2) ∨ o = .float (-1 / 2)) :
    ∃ s, parallelSliceFieldName repr f o = .ok s ∧
      s.toList = f.toList ++ "_cell_y".toList ++ (if o.val < 0 then "low".toList else "high".toList) := by
  have h1 : |o.val| < 1 := by
    rcases ho with rfl | rfl <;> simp only [PyNum.val] <;> rw [abs_lt] <;> constructor <;> norm_num
  have h2 : |(|o.val| - 1 / 2)| < 1 / 10 ^ 6 := by
    have : |o.val| = 1 / 2 := by
      rcases ho with rfl | rfl <;> simp only [PyNum.val]
      · rw [abs_of_pos (by norm_num)]
      · rw [abs_of_neg (by norm_num)]; norm_num
    rw [this]; norm_num
  unfold parallelSliceFieldName
  rw [if_pos h1, if_pos h2]
  refine ⟨_, rfl, ?_⟩
  by_cases a : o.val < 0 <;> simp [a, String.toList_append]

/-- C30: names for half cells and non-zero integers exist. -/
theorem C30_accepts (repr : K → String) (f : String) (o : PyNum K) (ho : SliceOffset o) :
    ∃ s, parallelSliceFieldName repr f o = .ok s := by
  rcases ho with ⟨n, hn, rfl⟩ | h
  · obtain ⟨s, h, _⟩ := name_int repr f n hn
    exact ⟨s, h⟩
  · obtain ⟨s, h, _⟩ := name_half repr f o h
    exact ⟨s, h⟩

/-- C30: any other offset between -1 and 1 is rejected (the test has a tolerance
of 1e-6). -/
theorem C30_rejects (repr : K → String) (f : String) (o : PyNum K) (h1 : |o.val| < 1)
    (h2 : 1 / 10 ^ 6 ≤ |(|o.val| - 1 / 2)|) :
    ∃ m, parallelSliceFieldName repr f o = .error (.assertion m) := by
  unfold parallelSliceFieldName
  rw [if_pos h1, if_neg (not_lt.2 h2)]
  exact ⟨_, rfl⟩

/-- A name with a direction is not the name of a half cell. -/
theorem directed_ne_half {f' s : List Char} (P : List Char)
    (hP : P = "forward_".toList ∨ P = "backward_".toList) (hf : ¬ P <+: f' ++ ['_']) (t : List Char)
    (h : P ++ s = f' ++ '_' :: t) : False := by
  have h1 : P <+: f' ++ '_' :: t := ⟨s, h⟩
  have h2 : f' ++ ['_'] <+: f' ++ '_' :: t := ⟨t, by simp⟩
  rcases List.prefix_or_prefix_of_prefix h1 h2 with h3 | h3
  · exact hf h3
  · obtain ⟨q, hq⟩ := h3
    cases q with
    | nil => exact hf ⟨[], by rw [← hq]; simp⟩
    | cons c q =>
      have hmem : '_' ∈ P.dropLast := by
        rw [← hq, List.append_assoc, List.dropLast_append_of_ne_nil (by simp)]
        refine List.mem_append.2 (Or.inr ?_)
        rw [List.dropLast_append_of_ne_nil (by simp)]
        simp
      rcases hP with rfl | rfl <;> exact absurd hmem (by decide)

/-- C30: for plain names and the offsets in use, the name determines field and
offset. -/
theorem C30_unique (repr : K → String) (f f' : String) (o o' : PyNum K) (hf : Plain f)
    (hf' : Plain f') (ho : SliceOffset o) (ho' : SliceOffset o')
    (h : parallelSliceFieldName repr f o = parallelSliceFieldName repr f' o') : f = f' ∧ o = o' := by
  rcases ho with ⟨n, hn, rfl⟩ | ho <;> rcases ho' with ⟨n', hn', rfl⟩ | ho'
  · obtain ⟨s, e, l⟩ := name_int repr f n hn
    obtain ⟨s', e', l'⟩ := name_int repr f' n' hn'
    rw [e, e'] at h
    injection h with h
    rw [h, l'] at l
    have hsign : (0 < n) ↔ (0 < n') := by
      by_cases a : 0 < n <;> by_cases b : 0 < n' <;> simp [a, b] at l ⊢
    have l2 : f.toList ++ (if 1 < n.natAbs then '_' :: (toString n.natAbs).toList else []) =
        f'.toList ++ (if 1 < n'.natAbs then '_' :: (toString n'.natAbs).toList else []) := by
      by_cases a : 0 < n
      · rw [if_pos a, if_pos (hsign.1 a), List.append_assoc, List.append_assoc] at l
        exact (List.append_cancel_left l).symm
      · rw [if_neg a, if_neg (fun b => a (hsign.2 b)), List.append_assoc, List.append_assoc] at l
        exact (List.append_cancel_left l).symm
    by_cases a : 1 < n.natAbs <;> by_cases b : 1 < n'.natAbs
    · rw [if_pos a, if_pos b] at l2
      obtain ⟨h1, h2⟩ := split_last (digits_no_underscore _) (digits_no_underscore _) l2
      refine ⟨String.toList_inj.1 h1, ?_⟩
      have := digits_inj h2
      congr 1
      omega
    · rw [if_pos a, if_neg b, List.append_nil] at l2
      exact absurd l2.symm (hf'.notNumber _ _ a)
    · rw [if_neg a, if_pos b, List.append_nil] at l2
      exact absurd l2 (hf.notNumber _ _ b)
    · rw [if_neg a, if_neg b, List.append_nil, List.append_nil] at l2
      refine ⟨String.toList_inj.1 l2, ?_⟩
      congr 1
      omega
  · exfalso
    obtain ⟨s, e, l⟩ := name_int repr f n hn
    obtain ⟨s', e', l'⟩ := name_half repr f' o' ho'
    rw [e, e'] at h
    injection h with h
    rw [h, l'] at l
    rw [List.append_assoc, List.append_assoc] at l
    by_cases a : 0 < n
    · rw [if_pos a] at l
      exact directed_ne_half _ (Or.inl rfl) hf'.notForward _ l.symm
    · rw [if_neg a] at l
      exact directed_ne_half _ (Or.inr rfl) hf'.notBackward _ l.symm
  · exfalso
    obtain ⟨s, e, l⟩ := name_int repr f' n' hn'
    obtain ⟨s', e', l'⟩ := name_half repr f o ho
    rw [e, e'] at h
    injection h with h
    rw [← h, l'] at l
    rw [List.append_assoc, List.append_assoc] at l
    by_cases a : 0 < n'
    · rw [if_pos a] at l
      exact directed_ne_half _ (Or.inl rfl) hf.notForward _ l.symm
    · rw [if_neg a] at l
      exact directed_ne_half _ (Or.inr rfl) hf.notBackward _ l.symm
  · obtain ⟨s, e, l⟩ := name_half repr f o ho
    obtain ⟨s', e', l'⟩ := name_half repr f' o' ho'
    rw [e, e'] at h
    injection h with h
    rw [h, l'] at l
    have pos : ¬ (PyNum.float (1 / 2 : K)).val < 0 := by change ¬ (1 / 2 : K) < 0; norm_num
    have neg : (PyNum.float (-1 / 2 : K)).val < 0 := by change (-1 / 2 : K) < 0; norm_num
    have lastne : ∀ a b : List Char, a ++ "_cell_y".toList ++ "low".toList ≠
        b ++ "_cell_y".toList ++ "high".toList := by
      intro a b hab
      have := congrArg List.getLast? hab
      simp at this
    rcases ho with rfl | rfl <;> rcases ho' with rfl | rfl
    · rw [if_neg pos] at l
      rw [List.append_cancel_right_eq, List.append_cancel_right_eq] at l
      exact ⟨String.toList_inj.1 l.symm, rfl⟩
    · rw [if_neg pos, if_pos neg] at l
      exact absurd l (lastne _ _)
    · rw [if_neg pos, if_pos neg] at l
      exact absurd l.symm (lastne _ _)
    · rw [if_pos neg] at l
      rw [List.append_cancel_right_eq, List.append_cancel_right_eq] at l
      exact ⟨String.toList_inj.1 l.symm, rfl⟩

/-- C30: without the restriction on names there are clashes, in both ways. -/
theorem C30_collisions (repr : ℚ → String) :
    parallelSliceFieldName repr "R_2" (.int 1) = parallelSliceFieldName repr "R" (.int 2) ∧
    parallelSliceFieldName repr "forward" (.float (-1 / 2)) =
      parallelSliceFieldName repr "cell_ylow" (.int 1) := by
  constructor
  · unfold parallelSliceFieldName
    have h1 : ¬ |(PyNum.int 1 : PyNum ℚ).val| < 1 := by norm_num [PyNum.val]
    have h2 : ¬ |(PyNum.int 2 : PyNum ℚ).val| < 1 := by norm_num [PyNum.val]
    have h3 : (PyNum.int 1 : PyNum ℚ).val > 0 := by norm_num [PyNum.val]
    have h4 : (PyNum.int 2 : PyNum ℚ).val > 0 := by norm_num [PyNum.val]
    have h5 : ¬ |(PyNum.int 1 : PyNum ℚ).val| > 1 := by norm_num [PyNum.val]
    have h6 : |(PyNum.int 2 : PyNum ℚ).val| > 1 := by norm_num [PyNum.val]
    rw [if_neg h1, if_neg h2, if_pos h3, if_pos h4, if_neg h5, if_pos h6]
    rfl
  · unfold parallelSliceFieldName
    have h1 : |(PyNum.float (-1 / 2) : PyNum ℚ).val| < 1 := by norm_num [PyNum.val, abs_lt]
    have h0 : |(|(PyNum.float (-1 / 2) : PyNum ℚ).val| - 1 / 2)| < 1 / 10 ^ 6 := by
      norm_num [PyNum.val, abs_of_neg]
    have h2 : (PyNum.float (-1 / 2) : PyNum ℚ).val < 0 := by norm_num [PyNum.val]
    have h3 : ¬ |(PyNum.int 1 : PyNum ℚ).val| < 1 := by norm_num [PyNum.val]
    have h4 : (PyNum.int 1 : PyNum ℚ).val > 0 := by norm_num [PyNum.val]
    have h5 : ¬ |(PyNum.int 1 : PyNum ℚ).val| > 1 := by norm_num [PyNum.val]
    rw [if_pos h1, if_pos h0, if_pos h2, if_neg h3, if_pos h4, if_neg h5]
    rfl

/-- Words without a digit at the end are plain if they start differently. -/
theorem plain_of_last (f : String) (c : Char) (hc : f.toList.getLast? = some c) (hd : c.isDigit = false)
    (h1 : ¬ "forward_".toList <+: f.toList ++ ['_']) (h2 : ¬ "backward_".toList <+: f.toList ++ ['_']) :
    Plain f := by
  refine ⟨h1, h2, ?_⟩
  intro p n _ he
  rw [he] at hc
  have e : (toString n).toList = Nat.toDigits 10 n := by
    change (Nat.repr n).toList = _
    exact Nat.toList_repr
  rw [e] at hc
  have hne : Nat.toDigits 10 n ≠ [] := Nat.toDigits_ne_nil
  rw [List.getLast?_append, List.getLast?_cons] at hc
  cases hl : (Nat.toDigits 10 n).getLast? with
  | none => exact hne (List.getLast?_eq_none_iff.1 hl)
  | some d =>
    rw [hl] at hc
    simp at hc
    subst hc
    have := Nat.isDigit_of_mem_toDigits (by norm_num) (le_refl 10) (List.mem_of_getLast? hl)
    rw [this] at hd
    simp at hd

/-- The field names used by `make_maps` are plain. -/
theorem plain_fields : ∀ f ∈ ["R", "Z", "xt_prime", "zt_prime", "xt_primes", "zt_primes"], Plain f := by
  intro f hf
  simp only [List.mem_cons, List.not_mem_nil, or_false] at hf
  rcases hf with rfl | rfl | rfl | rfl | rfl | rfl
  · exact plain_of_last _ 'R' (by decide) (by decide) (by decide) (by decide)
  · exact plain_of_last _ 'Z' (by decide) (by decide) (by decide) (by decide)
  · exact plain_of_last _ 'e' (by decide) (by decide) (by decide) (by decide)
  · exact plain_of_last _ 'e' (by decide) (by decide) (by decide) (by decide)
  · exact plain_of_last _ 's' (by decide) (by decide) (by decide) (by decide)
  · exact plain_of_last _ 's' (by decide) (by decide) (by decide) (by decide)

/-- Names of metric components are plain, too. -/
example : Plain "g_xx" ∧ Plain "g_yy_cell_ylow" :=
  ⟨plain_of_last _ 'x' (by decide) (by decide) (by decide) (by decide),
    plain_of_last _ 'w' (by decide) (by decide) (by decide) (by decide)⟩

example (repr : ℚ → String) : ∃ m, parallelSliceFieldName repr "R" (.float (1 / 4)) =
    .error (.assertion m) :=
  C30_rejects repr "R" _ (by norm_num [PyNum.val, abs_of_pos])
    (by norm_num [PyNum.val, abs_of_pos, abs_of_neg])

end Zoidberg
