import Verif.Model.DagpIO
import Verif.Props.Dagp

/-!
# Properties C218 and C219: `load`, `write` and the command line of `stencil_dagp_fv.py`
-/

set_option linter.unusedSectionVars false

namespace Zoidberg

/-- **C218.** What `write` makes has five arrays, each with as many rows as `R`. -/
theorem C218_write {α : Type} (zero : α) (nx : ℕ) (hnx : 2 ≤ nx) (volume : List α) (cX cZ : DagpCoef α)
    (hX : cX.1.length = nx - 1 ∧ cX.2.length = nx - 1) (hZ : cZ.1.length = nx - 2 ∧ cZ.2.length = nx - 2) :
    dagpWrite zero nx volume cX cZ = .ok [("dagp_fv_XX", cX.1 ++ [zero]), ("dagp_fv_XZ", cX.2 ++ [zero]), ("dagp_fv_volume", volume),
      ("dagp_fv_ZX", zero :: (cZ.1 ++ [zero])), ("dagp_fv_ZZ", zero :: (cZ.2 ++ [zero]))] := by
  have h1 : ∀ d : List α, d.length = nx - 1 → fixup zero nx d = .ok (d ++ [zero]) := by
    intro d hd
    have := (C86_X zero d).1
    rwa [show d.length + 1 = nx by omega] at this
  have h2 : ∀ d : List α, d.length = nx - 2 → fixup zero nx d = .ok (zero :: (d ++ [zero])) := by
    intro d hd
    have := (C86_Z zero d).1
    rwa [show d.length + 2 = nx by omega] at this
  unfold dagpWrite
  rw [h1 _ hX.1, h1 _ hX.2, h2 _ hZ.1, h2 _ hZ.2]
  simp [Except.bind, Except.map, ODict.set]

/-- **C218.** `load` gives back the volume and all coefficients, for every size. -/
theorem C218_roundtrip {α : Type} (zero : α) (nx : ℕ) (hnx : 2 ≤ nx) (volume : List α) (cX cZ : DagpCoef α)
    (hX : cX.1.length = nx - 1 ∧ cX.2.length = nx - 1) (hZ : cZ.1.length = nx - 2 ∧ cZ.2.length = nx - 2) :
    (dagpWrite zero nx volume cX cZ).bind (dagpLoad nx) = .ok (volume, cX, cZ) := by
  rw [C218_write zero nx hnx volume cX cZ hX hZ]
  have h1 : ∀ d : List α, d.length = nx - 1 → fixup2 (nx - 1) (d ++ [zero]) = .ok d := by
    intro d hd
    have := (C86_X zero d).2
    rwa [hd] at this
  have h2 : ∀ d : List α, d.length = nx - 2 → fixup2 (nx - 2) (zero :: (d ++ [zero])) = .ok d := by
    intro d hd
    have := (C86_Z zero d).2
    rwa [hd] at this
  simp only [Except.bind]
  unfold dagpLoad dagpRead
  simp only [ODict.getE, ODict.get?_cons]
  simp [Except.bind, Except.map, h1 _ hX.1, h1 _ hX.2, h2 _ hZ.1, h2 _ hZ.2]

/-- Three rows. -/
example : (dagpWrite (0 : ℤ) 3 [7, 8, 9] ([1, 2], [3, 4]) ([5], [6])).bind (dagpLoad 3) = .ok ([7, 8, 9], ([1, 2], [3, 4]), ([5], [6])) :=
  C218_roundtrip _ _ (by decide) _ _ _ ⟨rfl, rfl⟩ ⟨rfl, rfl⟩

/-! ## C219 -/

theorem flagLoop_eq (flag : String) (step : ℤ) (n : ℕ) (v : ℤ) (l : List String) (hn : l.count flag ≤ n) :
    flagLoop flag step n (v, l) = (v + step * (l.count flag : ℤ), l.filter (· ≠ flag)) := by
  induction n generalizing v l with
  | zero =>
    have h0 : l.count flag = 0 := by omega
    have h1 : flag ∉ l := List.count_eq_zero.1 h0
    rw [flagLoop, h0, List.filter_eq_self.2]
    · simp
    · intro a ha
      simp only [ne_eq, decide_not, Bool.not_eq_eq_eq_not, Bool.not_true, decide_eq_false_iff_not]
      rintro rfl
      exact h1 ha
  | succ n ih =>
    rw [flagLoop]
    dsimp only
    split_ifs with h
    · have hc := List.count_pos_iff.2 h
      have he : (l.erase flag).count flag = l.count flag - 1 := List.count_erase_self
      rw [ih _ _ (by omega), he]
      have hf : (l.erase flag).filter (· ≠ flag) = l.filter (· ≠ flag) := by
        rw [← List.erase_filter]
        rw [List.erase_of_not_mem]
        simp
      rw [hf]
      congr 1
      have : ((l.count flag - 1 : ℕ) : ℤ) = (l.count flag : ℤ) - 1 := by omega
      rw [this]; ring
    · rw [List.count_eq_zero.2 h, List.filter_eq_self.2]
      · simp
      · intro a ha
        simp only [ne_eq, decide_not, Bool.not_eq_eq_eq_not, Bool.not_true, decide_eq_false_iff_not]
        rintro rfl
        exact h ha

/-- The arguments that are not for the verbosity. -/
def notVerbosity (l : List String) : List String := l.filter fun a => a ≠ "-v" ∧ a ≠ "-q"

/-- **C219.** For every command line: each `-v` adds one to the verbosity and each `-q` takes one away, wherever they are; what is left are the files, in order, after one `-p` is
removed.  The first argument is the name of the program. -/
theorem C219_args (prog : String) (hp : prog ≠ "-v" ∧ prog ≠ "-q" ∧ prog ≠ "-p") (args : List String) :
    dagpArgs (prog :: args) = (1 + (args.count "-v" : ℤ) - (args.count "-q" : ℤ), decide ("-p" ∈ args), (notVerbosity args).erase "-p") := by
  obtain ⟨h1, h2, h3⟩ := hp
  unfold dagpArgs
  rw [flagLoop_eq _ _ _ _ _ List.count_le_length]
  dsimp only
  rw [flagLoop_eq _ _ _ _ _ List.count_le_length]
  dsimp only
  have hc : (List.filter (fun x => decide (x ≠ "-v")) (prog :: args)).count "-q" = args.count "-q" := by
    rw [List.count_filter (by decide), List.count_cons_of_ne h2]
  have hf : List.filter (fun x => decide (x ≠ "-q")) (List.filter (fun x => decide (x ≠ "-v")) (prog :: args)) = prog :: notVerbosity args := by
    rw [List.filter_filter, List.filter_cons_of_pos (by simp [h1, h2])]
    unfold notVerbosity
    congr 1
    apply List.filter_congr
    intro a _
    simp [and_comm]
  have hm : ("-p" ∈ prog :: notVerbosity args) ↔ "-p" ∈ args := by
    rw [List.mem_cons]
    unfold notVerbosity
    rw [List.mem_filter]
    constructor
    · rintro (h | h)
      · exact absurd h.symm h3
      · exact h.1
    · intro h
      exact Or.inr ⟨h, by decide⟩
  rw [hf, hc, List.count_cons_of_ne h1]
  refine Prod.ext (by dsimp only; ring) (Prod.ext (by simp only [hm]) ?_)
  dsimp only
  by_cases h : "-p" ∈ args
  · rw [if_pos (by simpa [hm] using h), List.erase_cons_tail (by simpa using h3)]
    rfl
  · rw [if_neg (by simpa [hm] using h), List.erase_of_not_mem]
    · rfl
    · intro h'
      exact h (hm.1 (List.mem_cons_of_mem _ h'))

/-- **C219 (partial).** With at most one `-p` the files are exactly the arguments that are no flags.  Missing: a second `-p` is taken as a file (`C219_fails`). -/
theorem C219_files_partial (prog : String) (hp : prog ≠ "-v" ∧ prog ≠ "-q" ∧ prog ≠ "-p") (args : List String) (h : args.count "-p" ≤ 1) :
    (dagpArgs (prog :: args)).2.2 = args.filter fun a => a ∉ ["-v", "-q", "-p"] := by
  rw [C219_args prog hp]
  dsimp only
  have hc : (notVerbosity args).count "-p" ≤ 1 := by
    refine le_trans ?_ h
    unfold notVerbosity
    exact List.Sublist.count_le _ List.filter_sublist
  have key : ∀ l : List String, l.count "-p" ≤ 1 → l.erase "-p" = l.filter (· ≠ "-p") := by
    intro l
    induction l with
    | nil => intro _; rfl
    | cons a l ih =>
      intro hl
      by_cases ha : a = "-p"
      · subst ha
        rw [List.count_cons_self] at hl
        rw [List.erase_cons_head, List.filter_cons_of_neg (by simp), List.filter_eq_self.2]
        intro b hb
        simp only [ne_eq, decide_not, Bool.not_eq_eq_eq_not, Bool.not_true, decide_eq_false_iff_not]
        rintro rfl
        exact absurd (List.count_pos_iff.2 hb) (by omega)
      · rw [List.count_cons_of_ne ha] at hl
        rw [List.erase_cons_tail (by simpa using ha), List.filter_cons_of_pos (by simpa using ha), ih hl]
  rw [key _ hc]
  unfold notVerbosity
  rw [List.filter_filter]
  apply List.filter_congr
  intro a _
  simp [and_comm, and_assoc]

/-- All flags, and two files. -/
example : dagpArgs ["dagp", "-v", "a.nc", "-p", "-q", "-v", "b.nc"] = (2, true, ["a.nc", "b.nc"]) := by decide +kernel

/-- The files are the arguments that are no flags. -/
def FilesAreArguments : Prop :=
  ∀ (prog : String), (prog ≠ "-v" ∧ prog ≠ "-q" ∧ prog ≠ "-p") → ∀ args : List String, (dagpArgs (prog :: args)).2.2 = args.filter fun a => a ∉ ["-v", "-q", "-p"]

/-- **C219 (refutation).** -/
theorem C219_fails : ¬ FilesAreArguments := by
  intro h
  have h1 := h "dagp" (by decide) ["-p", "-p", "a.nc"]
  rw [C219_args _ (by decide)] at h1
  revert h1
  decide +kernel

end Zoidberg
