import Verif.Model.Progress
import Mathlib.Tactic.FieldSimp
import Mathlib.Tactic.Linarith
import Mathlib.Tactic.LinearCombination
import Mathlib.Tactic.NormNum

/-!
# C92, C93, C157: progress.py
-/

set_option linter.unusedSectionVars false

namespace Zoidberg

variable {K : Type} [Field K] [LinearOrder K] [IsStrictOrderedRing K] [FloorRing K]

/-! ### Rounding -/

theorem pyRound_near (x : K) : (pyRound x : K) - 1 / 2 ≤ x ∧ x ≤ (pyRound x : K) + 1 / 2 := by
  have h1 := Int.floor_le x
  have h2 := Int.lt_floor_add_one x
  unfold pyRound
  split_ifs with a b c
  · constructor <;> linarith
  · push_cast; constructor <;> linarith
  · push Not at a b; constructor <;> linarith
  · push Not at a b; push_cast; constructor <;> linarith

theorem pyRound_int (n : ℤ) : pyRound (n : K) = n := by
  unfold pyRound
  rw [Int.floor_intCast, sub_self, if_pos (by norm_num)]

theorem pyRound_mono {x y : K} (h : x ≤ y) : pyRound x ≤ pyRound y := by
  have hx1 := Int.floor_le x
  have hx2 := Int.lt_floor_add_one x
  have hy1 := Int.floor_le y
  have hy2 := Int.lt_floor_add_one y
  rcases eq_or_lt_of_le (Int.floor_le_floor h) with he | hl
  · unfold pyRound
    rw [he] at *
    split_ifs <;> first | exact le_rfl | omega | (exfalso; linarith)
  · have hl2 : ⌊x⌋ + 1 ≤ ⌊y⌋ := hl
    have a : pyRound x ≤ ⌊x⌋ + 1 := by unfold pyRound; split_ifs <;> omega
    have b : ⌊y⌋ ≤ pyRound y := by unfold pyRound; split_ifs <;> omega
    omega

theorem pyRound_bounds (n : ℤ) (x : K) (hn : 0 ≤ n) (h0 : 0 ≤ x) (h1 : x ≤ 1) : 0 ≤ pyRound ((n : K) * x) ∧ pyRound ((n : K) * x) ≤ n := by
  have hn2 : (0 : K) ≤ n := by exact_mod_cast hn
  constructor
  · have := pyRound_mono (mul_nonneg hn2 h0)
    have e := pyRound_int (K := K) 0
    rw [Int.cast_zero] at e
    rwa [e] at this
  · have := pyRound_mono (mul_le_of_le_one_right hn2 h1)
    rwa [pyRound_int] at this

/-! ### C93 -/

theorem progClip_range (p : ProgArg K) (x : K) (s : String) (h : progClip p = (some x, s)) : 0 ≤ x ∧ x ≤ 1 := by
  have key : ∀ (y : K) (t : String), (if y < 0 then ((some 0 : Option K), "Halt...\r\n") else if 1 ≤ y then (some 1, "Done...\r\n") else (some y, t)) = (some x, s) → 0 ≤ x ∧ x ≤ 1 := by
    intro y t h
    split_ifs at h with a b
    · cases h; exact ⟨le_rfl, zero_le_one⟩
    · cases h; exact ⟨zero_le_one, le_rfl⟩
    · cases h; push Not at a b; exact ⟨a, b.le⟩
  unfold progClip at h
  cases p with
  | int n => exact key n "" h
  | float y =>
    cases y with
    | none => cases h
    | some y => exact key y "" h
  | other => exact key 0 _ h

/-- **C93.** The bar has exactly `barLength` characters: first blocks, then dashes; nan and negative lengths are errors. -/
theorem C93_bar (fmt : K → List Char) (p : ProgArg K) (n : ℤ) (ascii : Bool) (out : List Char) (h : progText fmt p n ascii = .ok out) :
    0 ≤ n ∧ ∃ (k : ℕ) (x : K) (s : String), progClip p = (some x, s) ∧ (k : ℤ) = pyRound ((n : K) * x) ∧ (k : ℤ) ≤ n ∧
      out = "\rPercent: [".toList ++ (List.replicate k (progCursor ascii) ++ List.replicate (n.toNat - k) '-') ++ "] ".toList ++ fmt (x * 100) ++ "% ".toList ++ s.toList := by
  unfold progText at h
  rcases hp : progClip p with ⟨_ | x, s⟩
  · rw [hp] at h; cases h
  · rw [hp] at h
    dsimp only at h
    unfold padRight at h
    by_cases hn : n < 0
    · rw [if_pos hn] at h; cases h
    · rw [if_neg hn] at h
      cases h
      push Not at hn
      obtain ⟨h0, h1⟩ := progClip_range p x s hp
      obtain ⟨h2, h3⟩ := pyRound_bounds n x hn h0 h1
      refine ⟨hn, (pyRound ((n : K) * x)).toNat, x, s, rfl, by omega, by omega, ?_⟩
      unfold pyRepeat
      rw [List.length_replicate]

/-- **C93.** The simple bar is written for all numbers and every length. -/
theorem C93_returns (fmt : K → List Char) (p : ProgArg K) (n : ℤ) (ascii : Bool) (zb : Option Bool) (hn : 0 ≤ n) (hp : p ≠ .float none) : ∃ out, updateProgress fmt p n ascii zb = .ok out := by
  have hx : ∃ x s, progClip p = (some x, s) := by
    have key : ∀ (y : K) (t : String), ∃ x s, (if y < 0 then ((some 0 : Option K), "Halt...\r\n") else if 1 ≤ y then (some 1, "Done...\r\n") else (some y, t)) = (some x, s) := by
      intro y t
      split_ifs
      · exact ⟨_, _, rfl⟩
      · exact ⟨_, _, rfl⟩
      · exact ⟨_, _, rfl⟩
    cases p with
    | int m => exact key m ""
    | float y =>
      cases y with
      | none => exact absurd rfl hp
      | some y => exact key y ""
    | other => exact key 0 _
  obtain ⟨x, s, hx⟩ := hx
  unfold updateProgress progText
  rw [hx]
  dsimp only
  unfold padRight
  rw [if_neg (not_lt.mpr hn)]
  exact ⟨_, rfl⟩

theorem progFace_length (ascii odd : Bool) : (progFace ascii odd).length = 16 := by
  cases ascii <;> cases odd <;> decide

/-- **C93.** The other bar always has the same width. -/
theorem C93_zoidberg (x : K) (h0 : 0 ≤ x) (h1 : x ≤ 1) (n : ℤ) (hn : 40 ≤ n) (ascii : Bool) : ((progZoidberg x n ascii).length : ℤ) = n + 8 := by
  unfold progZoidberg
  dsimp only
  rw [progFace_length]
  have hm : pyInt (((16 : ℕ) : ℚ) / 2) = 8 := by
    have : ((16 : ℕ) : ℚ) / 2 = ((8 : ℤ) : ℚ) := by norm_num
    unfold pyInt
    rw [this, if_pos (by norm_num), Int.floor_intCast]
  rw [hm]
  obtain ⟨h2, h3⟩ := pyRound_bounds (n - 8) x (by omega) h0 h1
  unfold pyRepeat
  simp only [List.length_append, List.length_replicate, progFace_length]
  omega

/-- **C93.** And this is what is written. -/
theorem C93_zoidberg_text (fmt : K → List Char) (p : ProgArg K) (n : ℤ) (ascii : Bool) (out : List Char) (h : updateProgress fmt p n ascii (some true) = .ok out) :
    ∃ (bar : List Char) (x : K) (s : String), progClip p = (some x, s) ∧ (bar.length : ℤ) = max n 40 + 8 ∧
      out = "\rProgress: [".toList ++ bar ++ "] ".toList ++ fmt (x * 100) ++ "% ".toList ++ s.toList := by
  unfold updateProgress at h
  cases ht : progText fmt p n ascii with
  | error e => rw [ht] at h; cases h
  | ok t =>
    obtain ⟨-, k, x, s, hx, -⟩ := C93_bar fmt p n ascii t ht
    obtain ⟨h0, h1⟩ := progClip_range p x s hx
    rw [ht, hx] at h
    cases h
    refine ⟨_, x, s, hx, ?_, rfl⟩
    rw [C93_zoidberg x h0 h1 _ (by split_ifs <;> omega)]
    split_ifs <;> omega

/-- **C93.** More progress never means fewer blocks. -/
theorem C93_monotone (n : ℤ) (hn : 0 ≤ n) (x y : K) (h : x ≤ y) : pyRound ((n : K) * x) ≤ pyRound ((n : K) * y) :=
  pyRound_mono (mul_le_mul_of_nonneg_left h (by exact_mod_cast hn))

/-! ### C92 -/

/-- The seconds in a unit. -/
def unitSecs (c : Char) : ℕ := if c = 'd' then 86400 else if c = 'h' then 3600 else if c = 'm' then 60 else 0

/-- The value of the printed entries. -/
def partsValue (l : List (ℤ × Char)) : ℤ := (l.map fun e => e.1 * (unitSecs e.2 : ℤ)).sum

theorem floor_part (s : K) (v : ℕ) (hv : 0 < v) (hs : 0 ≤ s) : 0 ≤ ⌊s / (v : K)⌋ ∧ 0 ≤ s - (⌊s / (v : K)⌋ : K) * v ∧ s - (⌊s / (v : K)⌋ : K) * v < v := by
  have hv2 : (0 : K) < v := by exact_mod_cast hv
  refine ⟨Int.floor_nonneg.mpr (div_nonneg hs hv2.le), ?_, ?_⟩
  · have := Int.floor_le (s / (v : K))
    rw [le_div_iff₀ hv2] at this
    linarith
  · have := Int.lt_floor_add_one (s / (v : K))
    rw [div_lt_iff₀ hv2] at this
    linarith

theorem floor_less (s : K) (v m : ℕ) (hv : 0 < v) (h : s < (v : K) * m) : ⌊s / (v : K)⌋ < m := by
  have hv2 : (0 : K) < v := by exact_mod_cast hv
  rw [Int.floor_lt, div_lt_iff₀ hv2]
  push_cast
  linarith

/-- **C92.** What is printed: the units from the first one that fits on, whose values and the remaining seconds add up to the time; hours are below 24, minutes and seconds below 60. -/
theorem C92_parts (s : K) (hs : 0 ≤ s) :
    (partsValue (timeParts s).ret : K) + (timeParts s).secs = s ∧ 0 ≤ (timeParts s).secs ∧ (timeParts s).secs < 60 ∧
      ((s < 60 ∧ (timeParts s).ret = []) ∨ (60 ≤ s ∧ s < 3600 ∧ ∃ m, (timeParts s).ret = [(m, 'm')] ∧ 1 ≤ m ∧ m < 60) ∨
        (3600 ≤ s ∧ s < 86400 ∧ ∃ h m, (timeParts s).ret = [(h, 'h'), (m, 'm')] ∧ 1 ≤ h ∧ h < 24 ∧ 0 ≤ m ∧ m < 60) ∨
        (86400 ≤ s ∧ ∃ d h m, (timeParts s).ret = [(d, 'd'), (h, 'h'), (m, 'm')] ∧ 1 ≤ d ∧ 0 ≤ h ∧ h < 24 ∧ 0 ≤ m ∧ m < 60)) := by
  have hd : ((60 * 60 * 24 : ℕ) : K) = 86400 := by norm_num
  have hh : ((3600 : ℕ) : K) = 3600 := by norm_num
  have hm : ((60 : ℕ) : K) = 60 := by norm_num
  have mstep : ∀ (t : K), 0 ≤ t → t < 3600 → 0 ≤ ⌊t / 60⌋ ∧ ⌊t / 60⌋ < 60 ∧ 0 ≤ t - (⌊t / 60⌋ : K) * 60 ∧ t - (⌊t / 60⌋ : K) * 60 < 60 := by
    intro t h0 h1
    have a := floor_part t 60 (by norm_num) h0
    have b := floor_less t 60 60 (by norm_num) (by push_cast; linarith)
    push_cast at a b
    exact ⟨a.1, by exact_mod_cast b, a.2⟩
  have hstep : ∀ (t : K), 0 ≤ t → t < 86400 → 0 ≤ ⌊t / 3600⌋ ∧ ⌊t / 3600⌋ < 24 ∧ 0 ≤ t - (⌊t / 3600⌋ : K) * 3600 ∧ t - (⌊t / 3600⌋ : K) * 3600 < 3600 := by
    intro t h0 h1
    have a := floor_part t 3600 (by norm_num) h0
    have b := floor_less t 3600 24 (by norm_num) (by push_cast; linarith)
    push_cast at a b
    exact ⟨a.1, by exact_mod_cast b, a.2⟩
  have one : ∀ (v : K), 0 < v → v ≤ s → 1 ≤ ⌊s / v⌋ := by
    intro v hv h
    rw [Int.le_floor, le_div_iff₀ hv]
    push_cast
    linarith
  have step_on : ∀ (r : List (ℤ × Char)) (t : K) (c : Char) (v : ℕ), timeStep ⟨r, true, t⟩ (c, v) = ⟨r ++ [(⌊t / (v : K)⌋, c)], true, t - (⌊t / (v : K)⌋ : K) * v⟩ := fun _ _ _ _ => rfl
  have step_fits : ∀ (t : K) (c : Char) (v : ℕ), (v : K) ≤ t → timeStep ⟨[], false, t⟩ (c, v) = ⟨[(⌊t / (v : K)⌋, c)], true, t - (⌊t / (v : K)⌋ : K) * v⟩ := by
    intro t c v h
    unfold timeStep
    simp [h]
  have step_not : ∀ (t : K) (c : Char) (v : ℕ), ¬ (v : K) ≤ t → timeStep ⟨[], false, t⟩ (c, v) = ⟨[], false, t⟩ := by
    intro t c v h
    unfold timeStep
    simp [h]
  unfold timeParts
  simp only [List.foldl_cons, List.foldl_nil]
  by_cases h1 : (86400 : K) ≤ s
  · rw [step_fits s 'd' _ (by rw [hd]; exact h1), step_on, step_on, hd, hh, hm]
    have a := floor_part s 86400 (by norm_num) hs
    push_cast at a
    have b := hstep _ a.2.1 a.2.2
    have c := mstep _ b.2.2.1 b.2.2.2
    refine ⟨?_, c.2.2.1, c.2.2.2, Or.inr (Or.inr (Or.inr ⟨h1, _, _, _, rfl, one _ (by norm_num) h1, b.1, b.2.1, c.1, c.2.1⟩))⟩
    simp [partsValue, unitSecs]
    ring
  · rw [step_not s 'd' _ (by rw [hd]; exact h1)]
    push Not at h1
    by_cases h2 : (3600 : K) ≤ s
    · rw [step_fits s 'h' _ (by rw [hh]; exact h2), step_on, hh, hm]
      have b := hstep _ hs h1
      have c := mstep _ b.2.2.1 b.2.2.2
      refine ⟨?_, c.2.2.1, c.2.2.2, Or.inr (Or.inr (Or.inl ⟨h2, h1, _, _, rfl, one _ (by norm_num) h2, b.2.1, c.1, c.2.1⟩))⟩
      simp [partsValue, unitSecs]
    · rw [step_not s 'h' _ (by rw [hh]; exact h2)]
      push Not at h2
      by_cases h3 : (60 : K) ≤ s
      · rw [step_fits s 'm' _ (by rw [hm]; exact h3), hm]
        have c := mstep _ hs h2
        refine ⟨?_, c.2.2.1, c.2.2.2, Or.inr (Or.inl ⟨h3, h2, _, rfl, one _ (by norm_num) h3, c.2.1⟩)⟩
        simp [partsValue, unitSecs]
      · rw [step_not s 'm' _ (by rw [hm]; exact h3)]
        push Not at h3
        refine ⟨?_, hs, h3, Or.inl ⟨h3, rfl⟩⟩
        simp [partsValue]

/-- A reader for such texts: digits make a number, a letter adds it to the total.  The pair is the total and the number being read. -/
def readChar (s : ℕ × ℕ) (c : Char) : ℕ × ℕ :=
  if c = 'd' then (s.1 + s.2 * 86400, 0) else if c = 'h' then (s.1 + s.2 * 3600, 0) else if c = 'm' then (s.1 + s.2 * 60, 0)
  else if c = 's' then (s.1 + s.2, 0) else (s.1, 10 * s.2 + (c.toNat - '0'.toNat))

/-- The seconds in a text. -/
def readTime (l : List Char) : ℕ := (l.foldl readChar (0, 0)).1

theorem digit_ne (c : Char) (h : c.isDigit) : c ≠ 'd' ∧ c ≠ 'h' ∧ c ≠ 'm' ∧ c ≠ 's' := by
  refine ⟨?_, ?_, ?_, ?_⟩ <;> (rintro rfl; revert h; decide)

theorem readChar_digits : ∀ (l : List Char) (t a : ℕ), (∀ c ∈ l, c.isDigit) → l.foldl readChar (t, a) = (t, Nat.ofDigitChars 10 l a)
  | [], t, a, _ => by simp [Nat.ofDigitChars_nil]
  | c :: l, t, a, h => by
    have hc := digit_ne c (h c (by simp))
    rw [List.foldl_cons, Nat.ofDigitChars_cons]
    have e : readChar (t, a) c = (t, 10 * a + (c.toNat - '0'.toNat)) := by
      unfold readChar
      rw [if_neg hc.1, if_neg hc.2.1, if_neg hc.2.2.1, if_neg hc.2.2.2]
    rw [e]
    exact readChar_digits l _ _ fun d hd => h d (by simp [hd])

theorem pad02d_read (n : ℤ) (hn : 0 ≤ n) (t : ℕ) : (pad02d n).foldl readChar (t, 0) = (t, n.toNat) := by
  have hd : ∀ c ∈ pad02d n, c.isDigit := by
    unfold pad02d
    rw [if_neg (not_lt.mpr hn)]
    intro c hc
    rw [List.mem_append] at hc
    rcases hc with hc | hc
    · rw [List.mem_replicate] at hc
      rw [hc.2]
      decide
    · exact Nat.isDigit_of_mem_toDigits (by norm_num) (by norm_num) hc
  rw [readChar_digits _ _ _ hd]
  unfold pad02d
  rw [if_neg (not_lt.mpr hn), Nat.ofDigitChars_append, Nat.ofDigitChars_replicate_zero, Nat.mul_zero, Nat.ofDigitChars_ten_toDigits]
  congr 1
  omega

/-- **C92.** The text can be read back: it is the time rounded in its last part. -/
theorem C92_read_round (s : K) (hs : 0 ≤ s) : (readTime (formatTime s) : ℤ) = partsValue (timeParts s).ret + pyRound (timeParts s).secs := by
  obtain ⟨-, h0, h1, hcase⟩ := C92_parts s hs
  have hr : 0 ≤ pyRound (timeParts s).secs := by
    have := pyRound_mono h0
    have e := pyRound_int (K := K) 0
    rw [Int.cast_zero] at e
    rwa [e] at this
  have hlast : ∀ t, (pad020f (timeParts s).secs ++ ['s']).foldl readChar (t, 0) = (t + (pyRound (timeParts s).secs).toNat, 0) := by
    intro t
    unfold pad020f
    rw [if_neg (not_lt.mpr h0), List.foldl_append, pad02d_read _ hr]
    rfl
  have hentry : ∀ (n : ℤ) (c : Char) (t : ℕ), 0 ≤ n → (c = 'd' ∨ c = 'h' ∨ c = 'm') → (pad02d n ++ [c]).foldl readChar (t, 0) = (t + n.toNat * unitSecs c, 0) := by
    intro n c t hn hc
    rw [List.foldl_append, pad02d_read _ hn]
    rcases hc with rfl | rfl | rfl <;> rfl
  have hentry2 : ∀ (n : ℤ) (c : Char) (t : ℕ) (l : List Char), 0 ≤ n → (c = 'd' ∨ c = 'h' ∨ c = 'm') →
      ((pad02d n ++ [c]) ++ l).foldl readChar (t, 0) = l.foldl readChar (t + n.toNat * unitSecs c, 0) := by
    intro n c t l hn hc
    rw [List.foldl_append, hentry n c t hn hc]
  unfold readTime formatTime
  rw [List.append_assoc, List.foldl_append]
  rcases hcase with ⟨-, e⟩ | ⟨-, -, m, e, h2, -⟩ | ⟨-, -, h, m, e, h2, -, h3, -⟩ | ⟨-, d, h, m, e, h2, h3, -, h4, -⟩
  · rw [e]
    simp only [List.flatMap_nil, List.foldl_nil]
    rw [hlast]
    simp only [partsValue, List.map_nil, List.sum_nil]
    omega
  · rw [e]
    simp only [List.flatMap_cons, List.flatMap_nil, List.append_nil]
    rw [hentry _ _ _ (by omega) (by simp), hlast]
    simp only [partsValue, List.map_cons, List.map_nil, List.sum_cons, List.sum_nil, unitSecs]
    simp
    omega
  · rw [e]
    simp only [List.flatMap_cons, List.flatMap_nil, List.append_nil]
    rw [hentry2 _ _ _ _ (by omega) (by simp), hentry _ _ _ (by omega) (by simp), hlast]
    simp only [partsValue, List.map_cons, List.map_nil, List.sum_cons, List.sum_nil, unitSecs]
    simp
    omega
  · rw [e]
    simp only [List.flatMap_cons, List.flatMap_nil, List.append_nil]
    rw [hentry2 _ _ _ _ (by omega) (by simp), hentry2 _ _ _ _ (by omega) (by simp), hentry _ _ _ (by omega) (by simp), hlast]
    simp only [partsValue, List.map_cons, List.map_nil, List.sum_cons, List.sum_nil, unitSecs]
    simp
    omega

/-- **C92.** Whole seconds are read back exactly. -/
theorem C92_read (n : ℕ) : readTime (formatTime (n : K)) = n := by
  have h := C92_read_round (n : K) (Nat.cast_nonneg n)
  obtain ⟨hsum, -⟩ := C92_parts (n : K) (Nat.cast_nonneg n)
  have e : (timeParts (n : K)).secs = (((n : ℤ) - partsValue (timeParts (n : K)).ret : ℤ) : K) := by
    push_cast
    linear_combination hsum
  rw [e, pyRound_int] at h
  omega

/-- **C92.** So two whole numbers of seconds never give the same text. -/
theorem C92_injective (m n : ℕ) (h : formatTime (m : K) = formatTime (n : K)) : m = n := by
  rw [← C92_read (K := K) m, h, C92_read]

/-- **C157 (partial).** The printed time is never more than half a second wrong.  Missing: seconds below 60 (`C157_fails`). -/
theorem C157_near_partial (s : K) (hs : 0 ≤ s) : |(readTime (formatTime s) : K) - s| ≤ 1 / 2 := by
  have h := C92_read_round s hs
  obtain ⟨hsum, -⟩ := C92_parts s hs
  have hn := pyRound_near (timeParts s).secs
  have h2 : (readTime (formatTime s) : K) = (partsValue (timeParts s).ret : K) + (pyRound (timeParts s).secs : K) := by exact_mod_cast h
  rw [h2, abs_le]
  constructor <;> linarith

/-- What the statement says: the seconds are printed as two digits below 60. -/
def SecondsBelow (K : Type) [Field K] [LinearOrder K] [FloorRing K] : Prop := ∀ s : K, 0 ≤ s → pyRound (timeParts s).secs < 60

/-- **C157 (refutation).** 59.5 seconds are printed as `60s`. -/
theorem C157_fails : ¬ SecondsBelow ℚ ∧ formatTime (119 / 2 : ℚ) = "60s".toList := by
  constructor
  · intro h
    have := h (119 / 2) (by norm_num)
    revert this
    decide +kernel
  · decide +kernel

/-! ### C158 -/

/-- **C158.** The remaining time is that of a constant rate: elapsed and remaining time are in the ratio of done and missing work, it is not negative up to the end and zero at the end. -/
theorem C158_remaining (t p r : K) (h : remaining t p = some r) : r * p = t * (1 - p) ∧ (0 ≤ t → 0 < p → p ≤ 1 → 0 ≤ r) ∧ (p = 1 → r = 0) := by
  unfold remaining at h
  split_ifs at h with hp
  cases h
  refine ⟨by field_simp, fun ht h0 h1 => ?_, fun h1 => by rw [h1]; ring⟩
  have : t / p - t = t * (1 - p) / p := by field_simp
  rw [this]
  exact div_nonneg (mul_nonneg ht (by linarith)) h0.le

/-- **C158.** Zero progress gives no estimate, and only zero. -/
theorem C158_none (t p : K) : remaining t p = none ↔ p = 0 := by
  unfold remaining
  split_ifs with h <;> simp [h]

/-! ### Examples -/

example : remaining (30 : ℚ) (1 / 4) = some 90 := by decide +kernel

example : formatTime (93784 : ℚ) = "01d02h03m04s".toList := by decide +kernel
example : formatTime (3600 : ℚ) = "01h00m00s".toList := by decide +kernel
example : formatTime (7 : ℚ) = "07s".toList := by decide +kernel
example : (updateProgress (fun _ : ℚ => ['x']) (.float (some (1 / 4))) 10 true none).toOption = some "\rPercent: [##--------] x% ".toList := by decide +kernel
example : (updateProgress (fun _ : ℚ => ['x']) (.int 7) 4 true none).toOption = some "\rPercent: [####] x% Done...\r\n".toList := by decide +kernel
example : (progZoidberg (1 / 2 : ℚ) 40 true).length = 48 := by decide +kernel

end Zoidberg
