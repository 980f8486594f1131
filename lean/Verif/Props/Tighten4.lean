import Verif.Props.Progress
import Verif.Props.CachingTracer

/-! # Further theorems for mutations that survived (C73, C92) -/

set_option linter.unusedSectionVars false

namespace Zoidberg

variable {K : Type} [Field K] [LinearOrder K] [IsStrictOrderedRing K] [FloorRing K]

/-- The integer in a text, with its sign. -/
def readInt : List Char → ℤ
  | '-' :: l => -((l.foldl readChar (0, 0)).2 : ℤ)
  | l => ((l.foldl readChar (0, 0)).2 : ℤ)

theorem readInt_digits (l : List Char) (h : ∀ c ∈ l, c.isDigit) : readInt l = ((l.foldl readChar (0, 0)).2 : ℤ) := by
  cases l with
  | nil => rfl
  | cons c l =>
    have hc : c ≠ '-' := by
      rintro rfl
      have := h '-' (by simp)
      revert this
      decide
    unfold readInt
    split
    · next e => exact absurd (List.cons.inj e).1 hc
    · rfl

theorem pad02d_digits (n : ℤ) (hn : 0 ≤ n) : ∀ c ∈ pad02d n, c.isDigit := by
  unfold pad02d
  rw [if_neg (not_lt.mpr hn)]
  intro c hc
  rw [List.mem_append] at hc
  rcases hc with hc | hc
  · rw [List.mem_replicate] at hc
    rw [hc.2]
    decide
  · exact Nat.isDigit_of_mem_toDigits (by norm_num) (by norm_num) hc

theorem digits_read (n : ℕ) : ((Nat.toDigits 10 n).foldl readChar (0, 0)).2 = n := by
  rw [readChar_digits _ _ _ fun c hc => Nat.isDigit_of_mem_toDigits (by norm_num) (by norm_num) hc]
  exact Nat.ofDigitChars_ten_toDigits

/-- **C92.** Every integer, of either sign, can be read back from its text. -/
theorem C92_pad (n : ℤ) : readInt (pad02d n) = n := by
  by_cases hn : n < 0
  · unfold pad02d
    rw [if_pos hn, readInt, digits_read]
    omega
  · push Not at hn
    rw [readInt_digits _ (pad02d_digits n hn), pad02d_read n hn]
    exact Int.toNat_of_nonneg hn

/-- **C92.** A time below zero is printed in seconds only, with its sign, and its size is rounded. -/
theorem C92_negative (s : K) (hs : s < 0) : ∃ l, formatTime s = l ++ ['s'] ∧ l.head? = some '-' ∧ readInt l = pyRound s := by
  have h1 : ∀ n : ℕ, ¬ ((n : K) ≤ s) := fun n h => absurd (Nat.cast_nonneg (α := K) n) (not_le.mpr (lt_of_le_of_lt h hs))
  have hp : timeParts s = ⟨[], false, s⟩ := by
    unfold timeParts
    have h2 : ∀ u, timeStep (⟨[], false, s⟩ : TimeState K) u = ⟨[], false, s⟩ := by
      intro u
      unfold timeStep
      simp [h1]
    simp only [List.foldl_cons, List.foldl_nil, h2]
  have hr : pyRound s ≤ 0 := by
    have := pyRound_mono hs.le
    have e := pyRound_int (K := K) 0
    rw [Int.cast_zero] at e
    rwa [e] at this
  refine ⟨'-' :: Nat.toDigits 10 (pyRound s).natAbs, ?_, rfl, ?_⟩
  · unfold formatTime
    rw [hp]
    simp [pad020f, hs]
  · rw [readInt, digits_read]
    omega

/-- Non-vacuity: minus 90 seconds is printed as `-90s`. -/
example : formatTime (-90 : ℚ) = "-90s".toList := by decide +kernel

/-- **C73 (partial).** With the names of the code: if the first ten characters of the digests differ for different arguments, every call gives what the wrapped tracer gives.  Missing: what is
missing in `C73_transparent_partial`. -/
theorem C73_digest_partial {K W : Type} [DecidableEq K] (str : K → String) (md5 : List Char → String) (tracer : TraceArgs K → W → Except Err (FArr K)) (kw : W) (S : TraceArgs K → Prop)
    (hkey : ∀ a b, S a → S b → a ≠ b → (md5 (hashInput str a)).toList.take 10 ≠ (md5 (hashInput str b)).toList.take 10)
    (hshape : ∀ a, S a → ∀ r, tracer a kw = .ok r → r.shape = guessShape a ∧ r.Ok)
    (calls : List (TraceArgs K)) (hc : ∀ a ∈ calls, S a) :
    cachedCalls (cacheKey str md5) tracer (fun _ => none) (calls.map fun a => (a, kw)) = calls.map fun a => tracer a kw := by
  refine C73_transparent_partial _ _ _ S ?_ hshape _ (fun a _ dat h => by cases h) _ hc
  intro a b ha hb h
  by_contra hne
  refine hkey a b ha hb hne ?_
  unfold cacheKey at h
  have h2 := congrArg String.toList h
  simpa using h2

/-- Non-vacuity: two different arguments, with the text itself as the digest. -/
example : let A : TraceArgs ℕ := ⟨⟨[1], [1]⟩, ⟨[1], [2]⟩, ⟨[1], [3]⟩⟩
    let B : TraceArgs ℕ := ⟨⟨[1], [4]⟩, ⟨[1], [2]⟩, ⟨[1], [3]⟩⟩
    A ≠ B ∧ ∀ a b, (a = A ∨ a = B) → (b = A ∨ b = B) → a ≠ b →
      (String.ofList (hashInput (fun n : ℕ => toString n) a)).toList.take 10 ≠ (String.ofList (hashInput (fun n : ℕ => toString n) b)).toList.take 10 := by
  refine ⟨by decide, ?_⟩
  rintro a b (rfl | rfl) (rfl | rfl) h
  · exact absurd rfl h
  · decide
  · decide
  · exact absurd rfl h

end Zoidberg
