import Verif.Model.Examples
import Verif.Props.TracePoincare
import Verif.Props.RzDistance
import Verif.Props.FieldMore
import Mathlib.Tactic.FieldSimp
import Mathlib.Tactic.LinearCombination
import Mathlib.Tactic.IntervalCases
import Mathlib.Algebra.BigOperators.Ring.Finset
import Mathlib.Algebra.BigOperators.Field

/-! # C197-C202: `smooth_metric`, `get_lines`, `rotating_ellipse` -/

set_option linter.unusedSectionVars false

namespace Zoidberg

open Finset

/-! ### C197: smoothed curvature in the file -/

section
variable {K : Type} [Field K] [LinearOrder K] [IsStrictOrderedRing K] [FloorRing K]

/-- The Jacobian and the components of the metric in the poloidal plane. -/
def planeMetric : List String := ["J", "g11", "g33", "g13", "g_11", "g_33", "g_13"]

/-- A file that has all that is read. -/
def HasMetric (file : Dict (Cell → K)) : Prop := ∀ n ∈ ["bxcvx", "bxcvy", "bxcvz"] ++ planeMetric, (file n).isSome

theorem HasMetric.all {file : Dict (Cell → K)} (h : HasMetric file) : ∀ n ∈ smoothAlways ++ smoothTensor, (file n).isSome := by
  intro n hn
  apply h
  revert hn
  simp only [smoothAlways, smoothTensor, planeMetric, List.cons_append, List.nil_append, List.mem_cons, List.not_mem_nil, or_false]
  tauto

/-- The claim: with `write_to_file`, the rows of the curvature in the file are replaced by smoothed ones. -/
def SmoothWritten (npInt : Bool) (savgol : ℕ → ℕ → ℕ → (ℕ → K) → ℕ → K) : Prop :=
  ∀ (nx ny nz : ℕ) (file : Dict (Cell → K)), 15 ≤ nz → 0 < nx → 0 < ny → HasMetric file → ∀ (ret sm : Bool),
    ∃ file' vals, smoothMetric npInt savgol nx ny nz file true ret sm 7 = .ok (file', vals) ∧
      ∀ n ∈ ["bxcvx", "bxcvy", "bxcvz"], ∃ a a', file n = some a ∧ file' n = some a' ∧
        ∀ c : Cell, c.1 < nx → c.2.1 < ny → c.2.2 < nz → a' c = savgol (sgWindow nz) 7 nz (fun z => a (c.1, c.2.1, z)) c.2.2

theorem readAll {file : Dict (Cell → K)} {names : List String} (h : ∀ n ∈ names, (file n).isSome) :
    (names.mapM fun n => (fileRead file n).map fun a => (n, a)) = .ok (names.map fun n => (n, (file n).getD fun _ => 0)) := by
  induction names with
  | nil => rfl
  | cons n t ih =>
    have hn := h n (by simp)
    rw [Option.isSome_iff_exists] at hn
    obtain ⟨a, ha⟩ := hn
    rw [List.mapM_cons]
    have : fileRead file n = .ok a := by unfold fileRead; rw [ha]
    rw [this, ih fun k hk => h k (by simp [hk])]
    simp [Except.map, ha, bind, Except.bind, pure, Except.pure]

/-- **C197 (refutation).** With the numpy that is asked for, `np.int` is an `AttributeError`, whatever is in the file. -/
theorem C197_fails_numpy (savgol : ℕ → ℕ → ℕ → (ℕ → K) → ℕ → K) (nx ny nz : ℕ) (hx : 0 < nx) (hy : 0 < ny) (file : Dict (Cell → K))
    (wr ret sm : Bool) (order : ℕ) : ∃ msg, smoothMetric false savgol nx ny nz file wr ret sm order = .error (.attribute msg) := by
  have one : ∀ a : Cell → K, smoothArr false savgol order nx ny nz a = .error (.attribute "module 'numpy' has no attribute 'int'") := by
    intro a
    unfold smoothArr savgolCall
    rw [if_neg (by omega), if_pos rfl]
    rfl
  have rd : ∀ n, (∃ a, fileRead file n = .ok a) ∨ fileRead file n = .error (.attribute "'NoneType' object has no attribute 'shape'") := by
    intro n
    unfold fileRead
    cases file n with
    | none => exact Or.inr rfl
    | some a => exact Or.inl ⟨a, rfl⟩
  have all : ∀ names : List String, (∃ l, (names.mapM fun n => (fileRead file n).map fun a => (n, a)) = .ok l ∧ l.length = names.length) ∨
      (names.mapM fun n => (fileRead file n).map fun a => (n, a)) = .error (.attribute "'NoneType' object has no attribute 'shape'") := by
    intro names
    induction names with
    | nil => exact Or.inl ⟨[], rfl, rfl⟩
    | cons n t ih =>
      rw [List.mapM_cons]
      rcases rd n with ⟨a, ha⟩ | ha
      · rw [ha]
        rcases ih with ⟨l, hl, hlen⟩ | hl
        · rw [hl]
          exact Or.inl ⟨(n, a) :: l, rfl, by simp [hlen]⟩
        · rw [hl]
          exact Or.inr rfl
      · rw [ha]
        exact Or.inr rfl
  unfold smoothMetric
  dsimp only
  rcases all (if sm then smoothAlways ++ smoothTensor else smoothAlways) with ⟨l, hl, hlen⟩ | hl
  · rw [hl]
    have hne : l ≠ [] := by
      rintro rfl
      cases sm <;> simp [smoothAlways] at hlen
    cases l with
    | nil => exact absurd rfl hne
    | cons p t =>
      refine ⟨"module 'numpy' has no attribute 'int'", ?_⟩
      simp only [Except.bind]
      rw [List.mapM_cons, one]
      rfl
  · rw [hl]
    exact ⟨_, rfl⟩

theorem C197_fails (savgol : ℕ → ℕ → ℕ → (ℕ → K) → ℕ → K) : ¬ SmoothWritten false savgol := by
  intro h
  obtain ⟨f, v, e, -⟩ := h 1 1 15 (fun _ => some fun _ => 0) le_rfl (by norm_num) (by norm_num) (fun _ _ => rfl) false false
  obtain ⟨msg, hm⟩ := C197_fails_numpy savgol 1 1 15 (by norm_num) (by norm_num) (fun _ => some fun _ => 0) true false false 7
  rw [hm] at e
  cases e

/-- The window is odd, not longer than the row, and longer than the order from fifteen points on. -/
theorem C197_window (n : ℕ) (hn : 0 < n) : sgWindow n % 2 = 1 ∧ sgWindow n ≤ n ∧ (7 < sgWindow n ↔ 15 ≤ n) := by
  unfold sgWindow
  omega

theorem smoothArr_ok (savgol : ℕ → ℕ → ℕ → (ℕ → K) → ℕ → K) (nx ny nz : ℕ) (hx : 0 < nx) (hy : 0 < ny) (hz : 15 ≤ nz) (a : Cell → K) :
    smoothArr true savgol 7 nx ny nz a = .ok fun c => savgol (sgWindow nz) 7 nz (fun z => a (c.1, c.2.1, z)) c.2.2 := by
  obtain ⟨-, h2, h3⟩ := C197_window nz (by omega)
  unfold smoothArr savgolCall
  rw [if_neg (by omega), if_neg (by simp), if_neg (by have := h3.2 hz; omega), if_neg (by omega)]
  rfl

/-- **C197 (partial).** With an old numpy and rows of at least fifteen points, the Jacobian and the metric in the file are smoothed.  Missing: the curvature,
which stays as it was (`C197_kept`), and any newer numpy (`C197_fails_numpy`). -/
theorem C197_partial (savgol : ℕ → ℕ → ℕ → (ℕ → K) → ℕ → K) (nx ny nz : ℕ) (hx : 0 < nx) (hy : 0 < ny) (hz : 15 ≤ nz) (file : Dict (Cell → K))
    (hf : HasMetric file) (ret : Bool) : ∃ file' vals, smoothMetric true savgol nx ny nz file true ret true 7 = .ok (file', vals) ∧
      (∀ n ∈ planeMetric, ∃ a, file n = some a ∧
        file' n = some fun c => savgol (sgWindow nz) 7 nz (fun z => a (c.1, c.2.1, z)) c.2.2) ∧
      ∀ n ∉ planeMetric, file' n = file n := by
  have sm : ∀ l : List (String × (Cell → K)), (l.mapM fun p => (smoothArr true savgol 7 nx ny nz p.2).map fun s => (p.1, s)) =
      .ok (l.map fun p => (p.1, fun c => savgol (sgWindow nz) 7 nz (fun z => p.2 (c.1, c.2.1, z)) c.2.2)) := by
    intro l
    induction l with
    | nil => rfl
    | cons p t ih =>
      rw [List.mapM_cons, smoothArr_ok savgol nx ny nz hx hy hz, ih]
      rfl
  unfold smoothMetric
  simp only [if_true]
  rw [readAll hf.all]
  simp only [Except.bind]
  rw [sm]
  simp only
  refine ⟨_, _, rfl, ?_, ?_⟩
  · intro n hn
    have hs := hf n (by simp [hn])
    rw [Option.isSome_iff_exists] at hs
    obtain ⟨a, ha⟩ := hs
    refine ⟨a, ha, ?_⟩
    simp only [planeMetric, List.mem_cons, List.not_mem_nil, or_false] at hn
    rcases hn with rfl | rfl | rfl | rfl | rfl | rfl | rfl <;>
      simp [smoothAlways, smoothTensor, Dict.set, Function.update, ha]
  · intro n hn
    simp only [planeMetric, List.mem_cons, List.not_mem_nil, or_false, not_or] at hn
    obtain ⟨h1, h2, h3, h4, h5, h6, h7⟩ := hn
    simp [smoothAlways, smoothTensor, Dict.set, Function.update, h1, h2, h3, h4, h5, h6, h7]

/-- **C197.** What is returned: the smoothed components x, y, z of the curvature, then the ones of the file. -/
theorem C197_returned (savgol : ℕ → ℕ → ℕ → (ℕ → K) → ℕ → K) (nx ny nz : ℕ) (hx : 0 < nx) (hy : 0 < ny) (hz : 15 ≤ nz) (file : Dict (Cell → K))
    (hf : HasMetric file) (wr sm : Bool) : ∃ (x y z : Cell → K), file "bxcvx" = some x ∧ file "bxcvy" = some y ∧ file "bxcvz" = some z ∧
      ∃ file' : Dict (Cell → K), smoothMetric true savgol nx ny nz file wr true sm 7 = .ok (file', some
        ([x, y, z].map (fun a c => savgol (sgWindow nz) 7 nz (fun k => a (c.1, c.2.1, k)) c.2.2) ++ [x, y, z])) := by
  have smo : ∀ l : List (String × (Cell → K)), (l.mapM fun p => (smoothArr true savgol 7 nx ny nz p.2).map fun s => (p.1, s)) =
      .ok (l.map fun p => (p.1, fun c => savgol (sgWindow nz) 7 nz (fun z => p.2 (c.1, c.2.1, z)) c.2.2)) := by
    intro l
    induction l with
    | nil => rfl
    | cons p t ih =>
      rw [List.mapM_cons, smoothArr_ok savgol nx ny nz hx hy hz, ih]
      rfl
  have hr : ((if sm then smoothAlways ++ smoothTensor else smoothAlways).mapM fun n => (fileRead file n).map fun a => (n, a)) =
      .ok ((if sm then smoothAlways ++ smoothTensor else smoothAlways).map fun n => (n, (file n).getD fun _ => 0)) := by
    apply readAll
    intro n hn
    apply hf.all n
    cases sm
    · exact List.mem_append_left _ hn
    · exact hn
  obtain ⟨x, hxx⟩ := Option.isSome_iff_exists.1 (hf "bxcvx" (by simp))
  obtain ⟨y, hyy⟩ := Option.isSome_iff_exists.1 (hf "bxcvy" (by simp))
  obtain ⟨z, hzz⟩ := Option.isSome_iff_exists.1 (hf "bxcvz" (by simp))
  refine ⟨x, y, z, hxx, hyy, hzz, ?_⟩
  unfold smoothMetric
  dsimp only
  rw [hr]
  simp only [Except.bind]
  rw [smo]
  cases sm <;> simp [smoothAlways, smoothTensor, ODict.get?, hxx, hyy, hzz]

/-- **C197.** With an old numpy, any order and any file with the variables, there is a result exactly if the order is below the window. -/
theorem C197_runs_iff (savgol : ℕ → ℕ → ℕ → (ℕ → K) → ℕ → K) (nx ny nz : ℕ) (hx : 0 < nx) (hy : 0 < ny) (hz : 0 < nz) (file : Dict (Cell → K))
    (hf : HasMetric file) (wr ret sm : Bool) (order : ℕ) :
    (∃ r, smoothMetric true savgol nx ny nz file wr ret sm order = .ok r) ↔ order < sgWindow nz := by
  have hw := (C197_window nz hz).2.1
  have hr : ((if sm then smoothAlways ++ smoothTensor else smoothAlways).mapM fun n => (fileRead file n).map fun a => (n, a)) =
      .ok ((if sm then smoothAlways ++ smoothTensor else smoothAlways).map fun n => (n, (file n).getD fun _ => 0)) := by
    apply readAll
    intro n hn
    apply hf.all n
    cases sm
    · exact List.mem_append_left _ hn
    · exact hn
  unfold smoothMetric
  dsimp only
  rw [hr]
  simp only [Except.bind]
  constructor
  · rintro ⟨r, h⟩
    by_contra ho
    have he : ∀ a : Cell → K, smoothArr true savgol order nx ny nz a = .error (.value "polyorder must be less than window_length.") := by
      intro a
      unfold smoothArr savgolCall
      rw [if_neg (by omega), if_neg (by simp), if_pos (by omega)]
      rfl
    have hne : ∃ n t, (if sm then smoothAlways ++ smoothTensor else smoothAlways) = n :: t := by cases sm <;> exact ⟨_, _, rfl⟩
    obtain ⟨n, t, hnt⟩ := hne
    rw [hnt, List.map_cons, List.mapM_cons, he] at h
    cases h
  · intro ho
    have hs : ∀ a : Cell → K, ∃ b, smoothArr true savgol order nx ny nz a = .ok b := by
      intro a
      unfold smoothArr savgolCall
      rw [if_neg (by omega), if_neg (by simp), if_neg (by omega), if_neg (by omega)]
      exact ⟨_, rfl⟩
    have all : ∀ l : List (String × (Cell → K)), ∃ r, (l.mapM fun p => (smoothArr true savgol order nx ny nz p.2).map fun s => (p.1, s)) = .ok r := by
      intro l
      induction l with
      | nil => exact ⟨_, rfl⟩
      | cons p t ih =>
        obtain ⟨b, hb⟩ := hs p.2
        obtain ⟨r, hr⟩ := ih
        rw [List.mapM_cons, hb, hr]
        exact ⟨_, rfl⟩
    obtain ⟨r, hr⟩ := all ((if sm then smoothAlways ++ smoothTensor else smoothAlways).map fun n => (n, (file n).getD fun _ => 0))
    rw [hr]
    exact ⟨_, rfl⟩

/-- **C197 (refutation).** Whatever numpy is there, the curvature in the file is the one from before. -/
theorem C197_kept (npInt : Bool) (savgol : ℕ → ℕ → ℕ → (ℕ → K) → ℕ → K) (nx ny nz : ℕ) (file file' : Dict (Cell → K)) (vals : Option (List (Cell → K)))
    (wr ret sm : Bool) (order : ℕ) (h : smoothMetric npInt savgol nx ny nz file wr ret sm order = .ok (file', vals)) (n : String)
    (hn : n ∈ ["bxcvx", "bxcvy", "bxcvz"]) : file' n = file n := by
  have fold : ∀ (l : List (String × (Cell → K))) (f : Dict (Cell → K)), (∀ p ∈ l, p.1 ≠ n) → (l.foldl (fun f p => f.set p.1 p.2) f) n = f n := by
    intro l
    induction l with
    | nil => intro f _; rfl
    | cons p t ih =>
      intro f hp
      rw [List.foldl_cons, ih _ fun q hq => hp q (by simp [hq])]
      unfold Dict.set
      rw [Function.update_of_ne (Ne.symm (hp p (by simp)))]
  unfold smoothMetric at h
  dsimp only at h
  cases h1 : ((if sm then smoothAlways ++ smoothTensor else smoothAlways).mapM fun n => (fileRead file n).map fun a => (n, a)) with
  | error e => rw [h1] at h; cases h
  | ok arrs =>
    rw [h1] at h
    simp only [Except.bind] at h
    cases h2 : (arrs.mapM fun p => (smoothArr npInt savgol order nx ny nz p.2).map fun s => (p.1, s)) with
    | error e => rw [h2] at h; cases h
    | ok smd =>
      rw [h2] at h
      simp only at h
      injection h with h
      have hfst := congrArg Prod.fst h
      simp only at hfst
      rw [← hfst]
      split_ifs with hw
      · apply fold
        intro p hp e
        rw [List.mem_filter, e, decide_eq_true_eq] at hp
        exact hp.2 hn
      · rfl

/-- A file with all variables. -/
example : HasMetric (K := ℚ) (fun _ => some fun c => (c.2.2 : ℚ)) := fun _ _ => rfl

/-! ### C198: the smoothed metric -/

/-- The claim, for orthogonal grids: `g11` and `g_11` are inverse to each other after the smoothing if they were before. -/
def SmoothKeepsInverse (savgol : ℕ → ℕ → ℕ → (ℕ → K) → ℕ → K) : Prop :=
  ∀ (nx ny nz : ℕ) (file file' : Dict (Cell → K)) (vals : Option (List (Cell → K))) (a b a' b' : Cell → K), HasMetric file → 0 < nx → 0 < ny → 15 ≤ nz →
    file "g11" = some a → file "g_11" = some b → (∀ c, a c > 0 ∧ a c * b c = 1) →
    smoothMetric true savgol nx ny nz file true false true 7 = .ok (file', vals) → file' "g11" = some a' → file' "g_11" = some b' →
    ∀ c : Cell, c.1 < nx → c.2.1 < ny → c.2.2 < nz → a' c * b' c = 1

/-- **C198 (refutation).** It is not so for any linear filter that keeps constants and has a coefficient other than zero and one: with a single value changed,
the product of the smoothed values is not one. -/
theorem C198_fails (savgol : ℕ → ℕ → ℕ → (ℕ → K) → ℕ → K) (w : ℕ → ℕ → K) (nz : ℕ) (hz : 15 ≤ nz)
    (hw : ∀ f i, i < nz → savgol (sgWindow nz) 7 nz f i = ∑ j ∈ range nz, w i j * f j) (h1 : ∀ i < nz, ∑ j ∈ range nz, w i j = 1)
    (i j : ℕ) (hi : i < nz) (hj : j < nz) (h0 : w i j ≠ 0) (h1' : w i j ≠ 1) : ¬ SmoothKeepsInverse savgol := by
  intro h
  let a : Cell → K := fun c => if c.2.2 = j then 2 else 1
  let b : Cell → K := fun c => if c.2.2 = j then 1 / 2 else 1
  let file : Dict (Cell → K) := fun n => if n = "g11" then some a else if n = "g_11" then some b else some fun _ => 0
  have hf : HasMetric file := by
    intro n _
    simp only [file]
    split_ifs <;> rfl
  obtain ⟨file', vals, e, hs, -⟩ := C197_partial savgol 1 1 nz (by norm_num) (by norm_num) hz file hf false
  obtain ⟨a0, ha0, ha⟩ := hs "g11" (by simp [planeMetric])
  obtain ⟨b0, hb0, hb⟩ := hs "g_11" (by simp [planeMetric])
  have ea : a0 = a := by
    simp only [file, if_true] at ha0
    injection ha0 with ha0
    exact ha0.symm
  have eb : b0 = b := by
    simp [file] at hb0
    exact hb0.symm
  subst ea eb
  have key := h 1 1 nz file file' vals a b _ _ hf (by norm_num) (by norm_num) hz (by simp [file]) (by simp [file]) (by
    intro c
    simp only [a, b]
    split_ifs <;> norm_num) e ha hb (0, 0, i) (by norm_num) (by norm_num) hi
  simp only at key
  have sum1 : ∀ t : K, ∑ k ∈ range nz, w i k * (if k = j then t else 1) = 1 + w i j * (t - 1) := by
    intro t
    have : ∀ k, w i k * (if k = j then t else 1) = w i k + (if k = j then w i j * (t - 1) else 0) := by
      intro k
      split_ifs with hk
      · rw [hk]; ring
      · ring
    rw [Finset.sum_congr rfl fun k _ => this k, Finset.sum_add_distrib, h1 i hi, Finset.sum_ite_eq' _ _ _, if_pos (Finset.mem_range.2 hj)]
  rw [hw _ _ hi, hw _ _ hi] at key
  simp only [a, b] at key
  rw [sum1 2, sum1 (1 / 2)] at key
  have : w i j * (1 - w i j) = 0 := by linear_combination 2 * key
  rcases mul_eq_zero.1 this with h' | h'
  · exact h0 h'
  · exact h1' (by linear_combination -h')

/-- **C198 (partial).** Rows that are constant stay inverse to each other.  Missing: all others (`C198_fails`). -/
theorem C198_partial (savgol : ℕ → ℕ → ℕ → (ℕ → K) → ℕ → K) (nx ny nz : ℕ) (hx : 0 < nx) (hy : 0 < ny) (hz : 15 ≤ nz)
    (hc : ∀ (v : K) (i : ℕ), i < nz → savgol (sgWindow nz) 7 nz (fun _ => v) i = v) (file : Dict (Cell → K)) (hf : HasMetric file)
    (a b : Cell → K) (ha : file "g11" = some a) (hb : file "g_11" = some b) (hinv : ∀ c, a c * b c = 1) (va vb : ℕ → ℕ → K)
    (hva : ∀ c, a c = va c.1 c.2.1) (hvb : ∀ c, b c = vb c.1 c.2.1) :
    ∃ file' vals a' b', smoothMetric true savgol nx ny nz file true false true 7 = .ok (file', vals) ∧ file' "g11" = some a' ∧ file' "g_11" = some b' ∧
      ∀ c : Cell, c.2.2 < nz → a' c * b' c = 1 := by
  obtain ⟨file', vals, e, hs, -⟩ := C197_partial savgol nx ny nz hx hy hz file hf false
  obtain ⟨a0, ha0, ha'⟩ := hs "g11" (by simp [planeMetric])
  obtain ⟨b0, hb0, hb'⟩ := hs "g_11" (by simp [planeMetric])
  rw [ha] at ha0
  rw [hb] at hb0
  injection ha0 with ha0
  injection hb0 with hb0
  subst ha0 hb0
  refine ⟨file', vals, _, _, e, ha', hb', ?_⟩
  intro c hcz
  simp only [hva, hvb]
  rw [hc _ _ hcz, hc _ _ hcz, ← hva c, ← hvb c, hinv]

/-- The mean of the row is such a filter. -/
example : ¬ SmoothKeepsInverse (K := ℚ) (fun _ _ n f _ => ∑ j ∈ range n, 1 / (n : ℚ) * f j) :=
  C198_fails _ (fun _ _ => 1 / 15) 15 le_rfl (fun _ _ _ => by push_cast; rfl) (fun _ _ => by rw [Finset.sum_const]; norm_num) 0 0 (by norm_num) (by norm_num)
    (by norm_num) (by norm_num)

/-! ### C199: the lines of `get_lines` -/

/-- The line of one slice: through the `npoints` points in which the field line from `start` meets the slice `y`, with the points then equally spaced. -/
def lineAt (e : RzEnv K) (pos : K → K × K) (T : K) (npoints : ℕ) (y : K) : Except Err (RZLine K) :=
  (lineFromPoints e ((List.range npoints).map fun r : ℕ => pos (y + (r : K) * T)) none none false).bind fun l => match l with
    | none => .error (.attribute "'NoneType' object has no attribute 'equallySpaced'")
    | some l => l.equallySpaced e none none

/-- The claim: line `i` is that of slice `i`. -/
def LinesInOrder (K : Type) [Field K] [LinearOrder K] [FloorRing K] : Prop :=
  ∀ (e : RzEnv K) (follow : List K → Except Err (List (List K))) (pos : K → K → K × K),
    (∀ ys, 2 ≤ ys.length → follow ys = .ok (ys.map fun y => [(pos (ys.getD 0 0) y).1, (pos (ys.getD 0 0) y).2])) →
    ∀ (T : K) (npoints : ℕ) (s : List K), 2 ≤ npoints → s ≠ [] → (∀ y ∈ s, 0 ≤ y ∧ y ≤ T) →
      ∃ y0, getLines e follow s T npoints = s.mapM (lineAt e (pos y0) T npoints)

/-- **C199.** What the lines are, for slices in any order: the lines of the slices in increasing order, from the position at the smallest. -/
theorem C199_lines (e : RzEnv K) (follow : List K → Except Err (List (List K))) (pos : K → K → K × K)
    (hf : ∀ ys, 2 ≤ ys.length → follow ys = .ok (ys.map fun y => [(pos (ys.getD 0 0) y).1, (pos (ys.getD 0 0) y).2]))
    (T : K) (npoints : ℕ) (hn : 2 ≤ npoints) (s : List K) (hs : s ≠ []) (hr : ∀ y ∈ s, 0 ≤ y ∧ y ≤ T) :
    getLines e follow s T npoints =
      (s.insertionSort (· ≤ ·)).mapM (lineAt e (pos ((s.insertionSort (· ≤ ·)).getD 0 0)) T npoints) := by
  have hsl : poincareSlices T (some 3) (some s) = .ok (s.insertionSort (· ≤ ·)) := by
    unfold poincareSlices
    dsimp only
    rw [if_neg hs, if_neg]
    simp only [Bool.or_eq_true, List.any_eq_true, decide_eq_true_eq, not_or, not_exists, not_and, not_lt]
    exact ⟨fun y hy => (hr y hy).1, fun y hy => (hr y hy).2⟩
  set t := s.insertionSort (· ≤ ·) with ht
  have htl : t.length = s.length := by rw [ht, List.length_insertionSort]
  have hsp : 0 < s.length := List.length_pos_iff.2 hs
  obtain ⟨res, h1, -, h2, h3, h4⟩ := C72_positions_partial follow (fun a y => [(pos a y).1, (pos a y).2]) hf T (some 3) (some s) npoints 20 (by omega)
    (by norm_num) t hsl (by rw [htl]; calc 2 ≤ npoints * 1 := by omega
                                        _ ≤ npoints * s.length := Nat.mul_le_mul_left _ hsp)
  unfold getLines
  rw [h1]
  simp only [Except.bind]
  have hpts : ∀ i < t.length, slicePoints res i = (List.range npoints).map fun r : ℕ => pos (t.getD 0 0) (t.getD i 0 + (r : K) * T) := by
    intro i hi
    unfold slicePoints
    apply List.ext_getElem
    · simp [h2]
    · intro r hr1 hr2
      rw [List.length_map, h2] at hr1
      have := h4 r hr1 i hi
      rw [List.getElem?_eq_getElem (by rw [h2]; exact hr1)] at this
      simp only [Option.bind_some] at this
      rw [List.getElem_map, List.getElem_map, List.getElem_range, List.getD_eq_getElem?_getD (l := res[r]), this]
      simp
  have : t = (List.range t.length).map fun i => t.getD i 0 := by
    apply List.ext_getElem
    · simp
    · intro i h1 h2
      rw [List.getElem_map, List.getElem_range, List.getD_eq_getElem _ _ h1]
  generalize t.getD 0 0 = y0 at hpts ⊢
  conv_rhs => rw [this]
  rw [List.mapM_map]
  apply mapM_congr_mem
  intro i hi
  rw [hpts i (List.mem_range.1 hi)]
  simp only [Function.comp]
  rfl

/-- **C199 (partial).** With slices in increasing order, line `i` is that of slice `i`.  Missing: slices in another order (`C199_fails`). -/
theorem C199_partial (e : RzEnv K) (follow : List K → Except Err (List (List K))) (pos : K → K → K × K)
    (hf : ∀ ys, 2 ≤ ys.length → follow ys = .ok (ys.map fun y => [(pos (ys.getD 0 0) y).1, (pos (ys.getD 0 0) y).2]))
    (T : K) (npoints : ℕ) (hn : 2 ≤ npoints) (s : List K) (hs : s ≠ []) (hr : ∀ y ∈ s, 0 ≤ y ∧ y ≤ T) (hi : s.Pairwise (· ≤ ·)) :
    getLines e follow s T npoints = s.mapM (lineAt e (pos (s.getD 0 0)) T npoints) := by
  rw [C199_lines e follow pos hf T npoints hn s hs hr, List.Pairwise.insertionSort_eq hi]

/-- A line that meets the planes `y = n` in the corners of a square, and those between in those of a larger one. -/
def exTurnPos (y : ℚ) : ℚ × ℚ :=
  let a := 1 + (y - ⌊y⌋)
  let k := (⌊y⌋ % 4).toNat
  if k = 0 then (5 + a, 0) else if k = 1 then (5, a) else if k = 2 then (5 - a, 0) else (5, -a)

/-- **C199 (refutation).** The slices `1 / 2` and `0`: the first line is that of the slice `0`. -/
theorem C199_fails : ¬ LinesInOrder ℚ := by
  intro h
  obtain ⟨y0, hy⟩ := h exLinEnv (fun ys => .ok (ys.map fun y => [(exTurnPos y).1, (exTurnPos y).2])) (fun _ => exTurnPos) (fun _ _ => rfl) 1 4 [1 / 2, 0]
    (by norm_num) (by simp) (by intro y hy; simp only [List.mem_cons, List.not_mem_nil, or_false] at hy; rcases hy with rfl | rfl <;> norm_num)
  have h2 := congrArg (fun r => r.toOption.map fun l => l.map fun q => q.pts) hy
  revert h2
  decide +kernel

/-- The calls work. -/
example : ((getLines exLinEnv (fun ys => .ok (ys.map fun y => [(exTurnPos y).1, (exTurnPos y).2])) [1 / 2, 0] 1 4).toOption.map fun l => l.length) = some 2 := by
  decide +kernel

/-! ### C200-C202: `rotating_ellipse` -/

/-- The claim: every choice of the options gives a grid if all the parts work. -/
def EllipseAlways : Prop := ∀ (o : EllipseOpts) (L G : Type) (l : L) (g : G) (ls : List L), ls ≠ [] →
  (ellipseGrid o (.ok g) (fun _ : ℕ => .ok l) (fun _ => .ok ls) (fun _ _ => .ok g) 0 1 0 1).toBool = true

/-- **C200 (partial).** A grid is made exactly if one of `rectangular` and `curvilinear` is chosen.  Missing: neither (`C200_fails`). -/
theorem C200_partial {G L : Type} (o : EllipseOpts) (rect : Except Err G) (shaped : K → Except Err L) (aligned : K → Except Err (List L))
    (elliptic : L → L → Except Err G) (rIn rOut aIn aOut : K) (hr : rect.toBool = true) (hs : ∀ a, (shaped a).toBool = true)
    (ha : ∀ r, (aligned r).toBool = true) (he : ∀ a b, (elliptic a b).toBool = true) :
    (ellipseGrid o rect shaped aligned elliptic rIn rOut aIn aOut).toBool = true ↔ (o.rectangular = true ∨ o.curvilinear = true) := by
  have okOf : ∀ {A : Type} {x : Except Err A}, x.toBool = true → ∃ a, x = .ok a := by
    intro A x hx
    cases x with
    | error e => cases hx
    | ok a => exact ⟨a, rfl⟩
  obtain ⟨g, rfl⟩ := okOf hr
  obtain ⟨l1, h1⟩ := okOf (hs aIn)
  obtain ⟨l2, h2⟩ := okOf (hs aOut)
  obtain ⟨i1, h3⟩ := okOf (ha rIn)
  obtain ⟨i2, h4⟩ := okOf (ha rOut)
  have mok : ∀ {A B : Type} (f : A → Except Err B) (l : List A), (∀ a ∈ l, (f a).toBool = true) → (l.mapM f).toBool = true := by
    intro A B f l
    induction l with
    | nil => intro _; rfl
    | cons a t ih =>
      intro h
      obtain ⟨b, hb⟩ := okOf (h a (by simp))
      obtain ⟨r, hr⟩ := okOf (ih fun c hc => h c (by simp [hc]))
      rw [List.mapM_cons, hb, hr]
      rfl
  have mapok : ∀ {A B : Type} (f : A → B) (x : Except Err A), x.toBool = true → (x.map f).toBool = true := by
    intro A B f x hx
    obtain ⟨a, rfl⟩ := okOf hx
    rfl
  unfold ellipseGrid
  by_cases hR : o.rectangular = true
  · rw [if_pos hR]
    simp [hR, Except.map, Except.toBool]
  · rw [if_neg hR]
    by_cases hC : o.curvilinear = true
    · rw [if_pos hC, h1, h2]
      simp only [hC, or_true, iff_true, Except.bind]
      by_cases hI : o.innerAligned = true <;> by_cases hO : o.outerAligned = true
      · simp only [if_pos hI, if_pos hO, h3, h4]
        exact mapok _ _ (mok _ _ fun p _ => he _ _)
      · simp only [if_pos hI, if_neg hO, h3]
        exact mapok _ _ (mok _ _ fun p _ => he _ _)
      · simp only [if_neg hI, if_pos hO, h4]
        exact mapok _ _ (he _ _)
      · simp only [if_neg hI, if_neg hO]
        exact mapok _ _ (he _ _)
    · rw [if_neg hC]
      simp [hR, hC, Except.toBool]

/-- **C200 (refutation).** With neither, the name is not bound, whatever the parts do; this is what the option `--curvilinear` of the command line gives. -/
theorem C200_fails {G L : Type} (flags : List String) (h1 : "--curvilinear" ∈ flags) (h2 : "--rectangular" ∉ flags) (rect : Except Err G)
    (shaped : K → Except Err L) (aligned : K → Except Err (List L)) (elliptic : L → L → Except Err G) (rIn rOut aIn aOut : K) :
    ellipseGrid (ellipseMain flags) rect shaped aligned elliptic rIn rOut aIn aOut = .error (.runtime "UnboundLocalError: poloidal_grid") := by
  unfold ellipseGrid ellipseMain
  simp [h1, h2]

theorem C200_fails_claim : ¬ EllipseAlways := by
  intro h
  have := h { curvilinear := false } Unit Unit () () [()] (by simp)
  cases this

/-- The claim: with `curvilinear_outer_aligned` the outer lines of the slices are those traced from the outer radius, otherwise the shaped line;
likewise for the inner lines. -/
def AlignedAsAsked : Prop := ∀ (o : EllipseOpts) (L : Type) (shaped : ℕ → L) (aligned : ℕ → List L), o.rectangular = false → o.curvilinear = true →
  (aligned 0).length = (aligned 1).length → ∀ g : GridArg (L × L),
  ellipseGrid o (.ok (shaped 0, shaped 0)) (fun a => .ok (shaped a)) (fun r => .ok (aligned r)) (fun a b => .ok (a, b)) 0 1 0 1 = .ok g →
    ∀ y < (aligned 0).length, ∃ p : L × L, (match g with
      | .one q => some q
      | .many l => l[y]?) = some p ∧
      some p.1 = (if o.innerAligned then (aligned 0)[y]? else some (shaped 0)) ∧ some p.2 = (if o.outerAligned then (aligned 1)[y]? else some (shaped 1))

/-- **C201 (partial).** It is so unless only the outer lines are to be aligned.  Missing: that case (`C201_fails`). -/
theorem C201_partial (o : EllipseOpts) (L : Type) (shaped : ℕ → L) (aligned : ℕ → List L) (h1 : o.rectangular = false) (h2 : o.curvilinear = true)
    (hl : (aligned 0).length = (aligned 1).length) (hc : o.innerAligned = true ∨ o.outerAligned = false) (g : GridArg (L × L))
    (h : ellipseGrid o (.ok (shaped 0, shaped 0)) (fun a => .ok (shaped a)) (fun r => .ok (aligned r)) (fun a b => .ok (a, b)) 0 1 0 1 = .ok g)
    (y : ℕ) (hy : y < (aligned 0).length) : ∃ p : L × L, (match g with
      | .one q => some q
      | .many l => l[y]?) = some p ∧
      some p.1 = (if o.innerAligned then (aligned 0)[y]? else some (shaped 0)) ∧
      some p.2 = (if o.outerAligned then (aligned 1)[y]? else some (shaped 1)) := by
  have mm : ∀ {A B : Type} (f : A → B) (l : List A), (l.mapM fun a => (Except.ok (f a) : Except Err B)) = .ok (l.map f) := by
    intro A B f l
    induction l with
    | nil => rfl
    | cons a t ih =>
      rw [List.mapM_cons, ih]
      rfl
  unfold ellipseGrid at h
  rw [h1, h2] at h
  simp only [if_true, Except.bind, Bool.false_eq_true, if_false] at h
  by_cases hI : o.innerAligned = true
  · by_cases hO : o.outerAligned = true
    · simp only [hI, hO, if_true] at h
      rw [mm (fun p : L × L => (p.1, p.2))] at h
      injection h with h
      subst h
      simp only [hI, hO, if_true]
      refine ⟨((aligned 0)[y], (aligned 1)[y]'(by omega)), ?_, ?_, ?_⟩
      · rw [List.getElem?_map, List.getElem?_eq_getElem (by rw [List.length_zip]; omega)]
        simp
      · rw [List.getElem?_eq_getElem hy]
      · rw [List.getElem?_eq_getElem (by omega)]
    · have hO' : o.outerAligned = false := by simpa using hO
      simp only [hI, hO', if_true] at h
      simp only [Bool.false_eq_true, if_false] at h
      rw [mm (fun l : L => (l, shaped 1))] at h
      injection h with h
      subst h
      simp only [hI, hO', if_true, Bool.false_eq_true, if_false]
      refine ⟨((aligned 0)[y], shaped 1), ?_, ?_, rfl⟩
      · rw [List.getElem?_map, List.getElem?_eq_getElem hy]
        rfl
      · rw [List.getElem?_eq_getElem hy]
  · have hI' : o.innerAligned = false := by simpa using hI
    have hO' : o.outerAligned = false := by
      rcases hc with hc | hc
      · exact absurd hc hI
      · exact hc
    simp only [hI', hO', Bool.false_eq_true, if_false] at h
    injection h with h
    subst h
    simp only [hI', hO', Bool.false_eq_true, if_false]
    exact ⟨(shaped 0, shaped 1), rfl, rfl, rfl⟩

/-- **C201 (refutation).** If only the outer lines are to be aligned, they are traced and then not used. -/
theorem C201_fails : ¬ AlignedAsAsked := by
  intro h
  obtain ⟨p, hp, -, h2⟩ := h { innerAligned := false } ℕ (fun a => a) (fun r => [r + 10]) rfl rfl rfl (.one (0, 1)) rfl 0 (by norm_num)
  injection hp with hp
  subst hp
  revert h2
  decide

/-- The claim: with `return_iota` the call returns what `calc_iota` found. -/
def IotaReturned (F K : Type) : Prop := ∀ (o : EllipseOpts) (G : Type) (pol : Except Err (GridArg G)) (build : GridArg G → Except Err F) (curv smooth : F → Except Err F)
  (v : K) (setIota : F → K → F) (r : EllipseOut F K), o.returnIota = true →
  ellipseExample o pol build curv smooth (.ok v) setIota = .ok r → r.value = some v

/-- **C202.** What the call leaves behind: no value; the number is printed unless it is written to the file. -/
theorem C202_partial {G F : Type} (o : EllipseOpts) (pol : Except Err (GridArg G)) (build : GridArg G → Except Err F)
    (curv smooth : F → Except Err F) (v : K) (setIota : F → K → F) (r : EllipseOut F K)
    (h : ellipseExample o pol build curv smooth (.ok v) setIota = .ok r) :
    r.value = none ∧ (o.returnIota = true → o.writeIota = false → r.printed = some v) ∧ (o.writeIota = true → ∃ f, r.file = setIota f v) := by
  unfold ellipseExample at h
  cases h1 : pol.bind build with
  | error e => rw [h1] at h; cases h
  | ok f =>
    rw [h1] at h
    simp only [Except.bind] at h
    cases h2 : (if (o.curvilinear && o.calcCurvature) = true then curv f else .ok f) with
    | error e => rw [h2] at h; cases h
    | ok f2 =>
      rw [h2] at h
      simp only at h
      cases h3 : (if (o.calcCurvature && o.smoothCurvature) = true then smooth f2 else .ok f2) with
      | error e => rw [h3] at h; cases h
      | ok f3 =>
        rw [h3] at h
        simp only [Except.map] at h
        cases hw : o.writeIota <;> cases hi : o.returnIota <;> rw [hw, hi] at h <;> simp at h <;> subst h <;> simp <;> exact ⟨f3, rfl⟩

/-- **C202 (refutation).** -/
theorem C202_fails {F K : Type} [Inhabited F] [Inhabited K] : ¬ IotaReturned F K := by
  intro h
  have := h {} Unit (.ok (.one ())) (fun _ => .ok default) .ok .ok default (fun f _ => f) ⟨default, some default, none⟩ rfl rfl
  cases this

/-- The option of a name, as keyword of `rotating_ellipse` (rotating_ellipse.py:12-30). -/
def ellipseOption (name : String) (o : EllipseOpts) : Option Bool :=
  match name with
  | "curvilinear" => some o.curvilinear
  | "rectangular" => some o.rectangular
  | "curvilinear_inner_aligned" => some o.innerAligned
  | "curvilinear_outer_aligned" => some o.outerAligned
  | "calc_curvature" => some o.calcCurvature
  | "smooth_curvature" => some o.smoothCurvature
  | "write_iota" => some o.writeIota
  | _ => none

/-- The names of the flags. -/
def ellipseFlags : List String :=
  ["curvilinear", "rectangular", "curvilinear_inner_aligned", "curvilinear_outer_aligned", "calc_curvature", "smooth_curvature", "write_iota"]

/-- The claim: a flag sets the option of its name, and an option without flag has the default of the function. -/
def FlagsSet : Prop := ∀ (flags : List String), ∀ name ∈ ellipseFlags,
  ellipseOption name (ellipseMain flags) = if "--" ++ name ∈ flags then some true else ellipseOption name {}

/-- **C224.** Options whose flag is not given have their default, and each flag influences only its own option. -/
theorem C224_default (flags flags' : List String) : ∀ name ∈ ellipseFlags,
    ("--" ++ name ∉ flags → ellipseOption name (ellipseMain flags) = ellipseOption name {}) ∧
    (("--" ++ name ∈ flags ↔ "--" ++ name ∈ flags') → ellipseOption name (ellipseMain flags) = ellipseOption name (ellipseMain flags')) := by
  intro name hn
  simp only [ellipseFlags, List.mem_cons, List.not_mem_nil, or_false] at hn
  rcases hn with rfl | rfl | rfl | rfl | rfl | rfl | rfl <;> refine ⟨fun h => ?_, fun h => ?_⟩ <;>
    simp only [String.reduceAppend] at h <;> simp [ellipseOption, ellipseMain, h]

/-- **C224.** The flags `rectangular`, `smooth_curvature`, `write_iota` set their option. -/
theorem C224_flags_partial (flags : List String) : ∀ name ∈ ["rectangular", "smooth_curvature", "write_iota"], "--" ++ name ∈ flags →
    ellipseOption name (ellipseMain flags) = some true := by
  intro name hn h
  simp only [List.mem_cons, List.not_mem_nil, or_false] at hn
  rcases hn with rfl | rfl | rfl <;> simp only [String.reduceAppend] at h <;> simp [ellipseOption, ellipseMain, h]

/-- **C224 (refutation).** The other four switch off what they name. -/
theorem C224_fails (flags : List String) : (∀ name ∈ ["curvilinear", "curvilinear_inner_aligned", "curvilinear_outer_aligned", "calc_curvature"],
    "--" ++ name ∈ flags → ellipseOption name (ellipseMain flags) = some false) ∧ ¬ FlagsSet := by
  constructor
  · intro name hn h
    simp only [List.mem_cons, List.not_mem_nil, or_false] at hn
    rcases hn with rfl | rfl | rfl | rfl <;> simp only [String.reduceAppend] at h <;> simp [ellipseOption, ellipseMain, h]
  · intro h
    have := h ["--curvilinear"] "curvilinear" (by simp [ellipseFlags])
    simp [ellipseOption, ellipseMain] at this

/-- `--write_iota` alone: the number is written, the rest as by default. -/
example : ellipseMain ["--write_iota"] = { writeIota := true, returnIota := false } := by
  simp [ellipseMain]

end
end Zoidberg
