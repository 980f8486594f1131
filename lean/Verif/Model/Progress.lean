import Verif.Prelude.Numpy

/-!
# progress.py

Text is a list of characters.  Numbers are exact, and `round` rounds halves to even as in Python.
-/

namespace Zoidberg

section
variable {K : Type} [Field K] [LinearOrder K] [FloorRing K]

/-- Python's `round(x)` and the rounding of `format(x, ".0f")`: halves go to the even neighbour (progress.py:45, 74, 97). -/
def pyRound (x : K) : ℤ :=
  if x - (⌊x⌋ : K) < 1 / 2 then ⌊x⌋
  else if 1 / 2 < x - (⌊x⌋ : K) then ⌊x⌋ + 1
  else if ⌊x⌋ % 2 = 0 then ⌊x⌋ else ⌊x⌋ + 1

/-- `c * n` for a string of one character (progress.py:47, 76, 79). -/
def pyRepeat (c : Char) (n : ℤ) : List Char := List.replicate n.toNat c

/-- `format(s, "-<{n}")`.  A negative width is no valid format specifier.  Widths beyond the limit of Python are not modelled (progress.py:46). -/
def padRight (s : List Char) (n : ℤ) : Except Err (List Char) :=
  if n < 0 then .error (.value "Invalid format specifier") else .ok (s ++ List.replicate (n.toNat - s.length) '-')

/-- The argument `progress`: an integer, a float (`none` is nan; infinite ones behave as large numbers), or anything else (progress.py:34-38). -/
inductive ProgArg (K : Type) where
  | int (n : ℤ)
  | float (x : Option K)
  | other

/-- Progress and status after the checks (progress.py:33-44); `none` is nan. -/
def progClip (p : ProgArg K) : Option K × String :=
  let a : Option K × String := match p with
    | .int n => (some (n : K), "")
    | .float x => (x, "")
    | .other => (some 0, "error: progress var must be float\r\n")
  match a.1 with
  | none => a
  | some x => if x < 0 then (some 0, "Halt...\r\n") else if 1 ≤ x then (some 1, "Done...\r\n") else a

/-- The cursor, and the ink of the other bar (progress.py:28-31, 57, 60). -/
def progCursor (ascii : Bool) : Char := if ascii then '#' else '█'

/-- `text` of the simple bar (progress.py:45-48).  `fmt` stands for `format(x, "6.2f")`; `int(round(nan))` raises a `ValueError`. -/
def progText (fmt : K → List Char) (p : ProgArg K) (barLength : ℤ) (ascii : Bool) : Except Err (List Char) :=
  match progClip p with
  | (none, _) => .error (.value "cannot convert float NaN to integer")
  | (some x, stat) =>
    (padRight (pyRepeat (progCursor ascii) (pyRound ((barLength : K) * x))) barLength).map fun b =>
      "\rPercent: [".toList ++ b ++ "] ".toList ++ fmt (x * 100) ++ "% ".toList ++ stat.toList

/-- The face with its claws (progress.py:55-72). -/
def progFace (ascii odd : Bool) : List Char :=
  let face := (if ascii then " (;,,,;) " else " (°,,,°) ").toList
  let opened := "(\\/)".toList
  let closed := "(|)".toList
  if odd then opened ++ face ++ closed else closed ++ face ++ opened

/-- What is between the brackets of the other bar (progress.py:53-81); `barLength` is at least 40 here. -/
def progZoidberg (x : K) (barLength : ℤ) (ascii : Bool) : List Char :=
  let zb := progFace ascii (decide (pyInt (x * (barLength : K)) % 2 ≠ 0))
  let middle := pyInt ((zb.length : ℚ) / 2)
  let start := pyRound (((barLength - middle : ℤ) : K) * x)
  pyRepeat (progCursor ascii) start ++ zb ++ pyRepeat '-' (barLength - start - middle)

/-- `update_progress` (progress.py:9-84): the text that is written.  `zb` is the keyword `zoidberg` if it is given. -/
def updateProgress (fmt : K → List Char) (p : ProgArg K) (barLength : ℤ) (ascii : Bool) (zb : Option Bool) : Except Err (List Char) :=
  (progText fmt p barLength ascii).map fun text =>
    if zb = some true then
      match progClip p with
      | (none, _) => text
      | (some x, stat) =>
        "\rProgress: [".toList ++ progZoidberg x (if barLength < 40 then 40 else barLength) ascii ++ "] ".toList ++ fmt (x * 100) ++ "% ".toList ++ stat.toList
    else text

/-- `format(n, "02d")`: at least two characters, padded with zeros after the sign (progress.py:95). -/
def pad02d (n : ℤ) : List Char :=
  if n < 0 then '-' :: Nat.toDigits 10 n.natAbs
  else List.replicate (2 - (Nat.toDigits 10 n.natAbs).length) '0' ++ Nat.toDigits 10 n.natAbs

/-- `format(x, "02.0f")`.  The negative zero is not modelled (progress.py:97). -/
def pad020f (x : K) : List Char :=
  if x < 0 then '-' :: Nat.toDigits 10 (pyRound x).natAbs else pad02d (pyRound x)

/-- State of the loop of `format_time`: the entries so far, `out` and `secs` (progress.py:88-96). -/
structure TimeState (K : Type) where
  ret : List (ℤ × Char)
  out : Bool
  secs : K

/-- One unit (progress.py:91-96). -/
def timeStep (s : TimeState K) (u : Char × ℕ) : TimeState K :=
  let out := s.out || decide ((u.2 : K) ≤ s.secs)
  if out then
    let cur := ⌊s.secs / (u.2 : K)⌋
    ⟨s.ret ++ [(cur, u.1)], out, s.secs - (cur : K) * (u.2 : K)⟩
  else ⟨s.ret, out, s.secs⟩

/-- The loop (progress.py:90-96). -/
def timeParts (secs : K) : TimeState K := [('d', 60 * 60 * 24), ('h', 3600), ('m', 60)].foldl timeStep ⟨[], false, secs⟩

/-- `format_time` (progress.py:87-98). -/
def formatTime (secs : K) : List Char :=
  ((timeParts secs).ret.flatMap fun e => pad02d e.1 ++ [e.2]) ++ pad020f (timeParts secs).secs ++ ['s']

/-- The remaining time of `Progress.update` (progress.py:105-110), as the number that is printed; `none` if `prog` is zero. -/
def remaining (needed prog : K) : Option K := if prog = 0 then none else some (needed / prog - needed)

end

end Zoidberg
