import Verif.Model.MmsGrid
import Mathlib.Tactic.IntervalCases

/-!
# The files of the convergence tests (C288, C289)
-/

set_option linter.unusedSectionVars false

namespace Zoidberg

variable {K : Type}

theorem split_unique (c : Char) : ∀ (a a' b b' : List Char), c ∉ a → c ∉ a' → a ++ c :: b = a' ++ c :: b' → a = a' ∧ b = b'
  | [], [], _, _, _, _, h => ⟨rfl, (List.cons.inj h).2⟩
  | [], x :: a', _, _, _, h2, h => by
    simp only [List.nil_append, List.cons_append, List.cons.injEq] at h
    exact (h2 (by rw [h.1]; exact List.mem_cons_self)).elim
  | x :: a, [], _, _, h1, _, h => by
    simp only [List.nil_append, List.cons_append, List.cons.injEq] at h
    exact (h1 (by rw [h.1]; exact List.mem_cons_self)).elim
  | x :: a, y :: a', b, b', h1, h2, h => by
    simp only [List.cons_append, List.cons.injEq] at h
    obtain ⟨e1, e2⟩ := split_unique c a a' b b' (fun h' => h1 (List.mem_cons_of_mem _ h')) (fun h' => h2 (List.mem_cons_of_mem _ h')) h.2
    exact ⟨by rw [h.1, e1], e2⟩

theorem toString_toList (n : ℕ) : (toString n).toList = Nat.toDigits 10 n := by
  change (Nat.repr n).toList = _
  simp [Nat.repr]

theorem underscore_not_digit (n : ℕ) : '_' ∉ (toString n).toList := by
  rw [toString_toList]
  intro h
  have := Nat.isDigit_of_mem_toDigits (by norm_num) (le_refl 10) h
  exact absurd this (by decide)

theorem toString_nat_inj {m n : ℕ} (h : (toString m).toList = (toString n).toList) : m = n := by
  rw [toString_toList, toString_toList] at h
  have := congrArg (fun l => Nat.ofDigitChars 10 l 0) h
  simpa using this

theorem modes_plain (f : MmsFile) (k : ℕ) (m : String) (h : (mmsModes f)[k]? = some m) : '_' ∉ m.toList := by
  have hm := List.mem_of_getElem? h
  cases f <;> simp only [mmsModes, List.mem_cons, List.not_mem_nil, or_false] at hm <;> rcases hm with rfl | rfl | rfl | rfl | rfl <;> decide

theorem modes_inj (f : MmsFile) (k k' : ℕ) (m : String) (h : (mmsModes f)[k]? = some m) (h' : (mmsModes f)[k']? = some m) : k = k' := by
  have hn : (mmsModes f).Nodup := by cases f <;> decide
  exact (List.getElem?_inj (by
    rcases Nat.lt_or_ge k (mmsModes f).length with hl | hl
    · exact hl
    · rw [List.getElem?_eq_none hl] at h; cases h) hn).1 (h.trans h'.symm)

theorem prefix_plain (f : MmsFile) : '_' ∉ (mmsPrefix f).toList := by cases f <;> decide

theorem prefix_inj {f f' : MmsFile} (h : (mmsPrefix f).toList = (mmsPrefix f').toList) : f = f' := by
  cases f <;> cases f' <;> first | rfl | exact absurd h (by decide)

/-- The name as a list of characters. -/
theorem genName_toList (txt : K → String) (f : MmsFile) (a : MmsArgs K) (s m : String) (hm : (mmsModes f)[a.mode]? = some m) (h : mmsGenName txt f a = .ok s) :
    s.toList = (mmsPrefix f).toList ++ '_' :: (m.toList ++ '_' :: ((toString a.nx).toList ++ '_' :: ((toString a.ny).toList ++ '_' :: ((toString a.nz).toList ++ '_' ::
      ((txt a.R0).toList ++ ".fci.nc".toList))))) := by
  unfold mmsGenName at h
  rw [hm] at h
  cases h
  simp only [String.toList_append, show "_".toList = ['_'] from rfl, List.append_assoc, List.nil_append, List.cons_append]

/-- **C288.**  Two sets of arguments have the same file exactly if the module, the mode, the sizes and the text of `R0` are the same. -/
theorem C288_names (txt : K → String) (f f' : MmsFile) (a a' : MmsArgs K) (s s' : String) (h : mmsGenName txt f a = .ok s) (h' : mmsGenName txt f' a' = .ok s') :
    s = s' ↔ f = f' ∧ a.mode = a'.mode ∧ a.nx = a'.nx ∧ a.ny = a'.ny ∧ a.nz = a'.nz ∧ txt a.R0 = txt a'.R0 := by
  obtain ⟨m, hm⟩ : ∃ m, (mmsModes f)[a.mode]? = some m := by
    cases hm : (mmsModes f)[a.mode]? with
    | some m => exact ⟨m, rfl⟩
    | none => unfold mmsGenName at h; rw [hm] at h; cases h
  obtain ⟨m', hm'⟩ : ∃ m, (mmsModes f')[a'.mode]? = some m := by
    cases hm : (mmsModes f')[a'.mode]? with
    | some m => exact ⟨m, rfl⟩
    | none => unfold mmsGenName at h'; rw [hm] at h'; cases h'
  have e := genName_toList txt f a s m hm h
  have e' := genName_toList txt f' a' s' m' hm' h'
  constructor
  · rintro rfl
    rw [e] at e'
    obtain ⟨e0, t0⟩ := split_unique '_' _ _ _ _ (prefix_plain f) (prefix_plain f') e'
    obtain rfl := prefix_inj e0
    obtain ⟨e1, t1⟩ := split_unique '_' _ _ _ _ (modes_plain f _ _ hm) (modes_plain f _ _ hm') t0
    obtain ⟨e2, t2⟩ := split_unique '_' _ _ _ _ (underscore_not_digit _) (underscore_not_digit _) t1
    obtain ⟨e3, t3⟩ := split_unique '_' _ _ _ _ (underscore_not_digit _) (underscore_not_digit _) t2
    obtain ⟨e4, t4⟩ := split_unique '_' _ _ _ _ (underscore_not_digit _) (underscore_not_digit _) t3
    have e5 := List.append_cancel_right t4
    obtain rfl := String.toList_injective e1
    exact ⟨rfl, modes_inj f _ _ _ hm hm', toString_nat_inj e2, toString_nat_inj e3, toString_nat_inj e4, String.toList_injective e5⟩
  · rintro ⟨rfl, e1, e2, e3, e4, e5⟩
    unfold mmsGenName at h h'
    rw [hm] at h
    rw [← e1, hm, ← e2, ← e3, ← e4, ← e5] at h'
    exact Except.ok.inj (h.symm.trans h')

/-- **C288, refuted.**  Grids with different radii have the same name. -/
theorem C288_fails_radii (txt : ℝ → String) : ∃ (f : MmsFile) (a a' : MmsArgs ℝ) (s : String), mmsGenName txt f a = .ok s ∧ mmsGenName txt f a' = .ok s ∧ a.r1 ≠ a'.r1 :=
  ⟨.parallel, ⟨8, 4, 4, 1, 0.1, 0.5, 0⟩, ⟨8, 4, 4, 1, 0.1, 0.9, 0⟩, _, rfl, rfl, by norm_num⟩

/-- **C288, refuted.**  Called from another module, `gen_grid` fails in all modules but `poloidal_grid`, whatever the arguments are. -/
theorem C288_fails_import (txt : ℝ → String) (f : MmsFile) (hf : f ≠ .poloidal) (a : MmsArgs ℝ) : ∃ e, mmsGenGrid txt f none a = .error e := by
  unfold mmsGenGrid
  cases (mmsModes f)[a.mode]? with
  | none => exact ⟨_, rfl⟩
  | some m => cases f <;> first | exact ⟨_, rfl⟩ | exact absurd rfl hf

/-- **C288.**  `gen_grid` of `poloidal_grid` writes to the name for its arguments, wherever it is called. -/
theorem C288_poloidal (txt : ℝ → String) (glob : Option (MmsArgs ℝ)) (a : MmsArgs ℝ) (s : String) (h : mmsGenName txt .poloidal a = .ok s) :
    mmsGenGrid txt .poloidal glob a = .ok (s, mmsPoint .poloidal a) := by
  unfold mmsGenGrid
  cases hm : (mmsModes .poloidal)[a.mode]? with
  | none => unfold mmsGenName at h; rw [hm] at h; cases h
  | some m => simp only [h]; rfl

/-- **C288.**  In the other modules the name is that for the last value of the variable `args` of the module: it is the right one exactly if this differs from the
arguments at most in the radii and in numbers with the same text. -/
theorem C288_iff (txt : ℝ → String) (f : MmsFile) (hf : f ≠ .poloidal) (glob : Option (MmsArgs ℝ)) (a : MmsArgs ℝ) (s : String) (h : mmsGenName txt f a = .ok s) :
    mmsGenGrid txt f glob a = .ok (s, mmsPoint f a) ↔
      ∃ g, glob = some g ∧ a.mode = g.mode ∧ a.nx = g.nx ∧ a.ny = g.ny ∧ a.nz = g.nz ∧ txt a.R0 = txt g.R0 := by
  cases glob with
  | none =>
    obtain ⟨e, he⟩ := C288_fails_import txt f hf a
    rw [he]
    constructor
    · intro h; cases h
    · rintro ⟨g, hg, -⟩; cases hg
  | some g =>
    have hm : ∃ m, (mmsModes f)[a.mode]? = some m := by
      cases hm : (mmsModes f)[a.mode]? with
      | some m => exact ⟨m, rfl⟩
      | none => unfold mmsGenName at h; rw [hm] at h; cases h
    obtain ⟨m, hm⟩ := hm
    have e : mmsGenGrid txt f (some g) a = (mmsGenName txt f g).map fun fn => (fn, mmsPoint f a) := by
      unfold mmsGenGrid
      rw [hm]
      cases f <;> first | rfl | exact absurd rfl hf
    rw [e]
    cases hg : mmsGenName txt f g with
    | error er =>
      constructor
      · intro h; cases h
      · rintro ⟨g', hg', e1, -⟩
        cases hg'
        unfold mmsGenName at hg
        rw [← e1, hm] at hg
        cases hg
    | ok t =>
      have hn := C288_names txt f f a g s t h hg
      constructor
      · intro h'
        have : t = s := congrArg Prod.fst (Except.ok.inj h')
        exact ⟨g, rfl, (hn.1 this.symm).2⟩
      · rintro ⟨g', hg', e1⟩
        cases hg'
        rw [hn.2 ⟨rfl, e1⟩]
        rfl

/-- In the main program the variable has the right value. -/
theorem genGrid_main (txt : ℝ → String) (f : MmsFile) (a : MmsArgs ℝ) (s : String) (h : mmsGenName txt f a = .ok s) : mmsGenGrid txt f (some a) a = .ok (s, mmsPoint f a) := by
  by_cases hf : f = .poloidal
  · subst hf; exact C288_poloidal txt _ a s h
  · exact (C288_iff txt f hf (some a) a s h).2 ⟨a, rfl, rfl, rfl, rfl, rfl, rfl⟩

/-- Arguments with the same file. -/
def MmsArgs.SameFile (txt : K → String) (a b : MmsArgs K) : Prop := a.mode = b.mode ∧ a.nx = b.nx ∧ a.ny = b.ny ∧ a.nz = b.nz ∧ txt a.R0 = txt b.R0

/-- **C288.**  The main program: if the modes exist and no two sets of arguments have the same file, every grid is in the file with the name for its arguments, and no other file is
changed. -/
theorem C288_main (txt : ℝ → String) (f : MmsFile) : ∀ (as : List (MmsArgs ℝ)) (d : Dict (ℕ → ℕ → ℝ × ℝ)), (∀ a ∈ as, a.mode < (mmsModes f).length) →
    as.Pairwise (fun a b => ¬ a.SameFile txt b) → ∃ r, mmsMain txt f as d = .ok r ∧ (∀ a ∈ as, ∃ s, mmsGenName txt f a = .ok s ∧ r s = some (mmsPoint f a)) ∧
      ∀ s, (∀ a ∈ as, mmsGenName txt f a ≠ .ok s) → r s = d s
  | [], d, _, _ => ⟨d, rfl, by simp, fun _ _ => rfl⟩
  | a :: as, d, hm, hp => by
    obtain ⟨hp1, hp2⟩ := List.pairwise_cons.1 hp
    obtain ⟨s, hs⟩ : ∃ s, mmsGenName txt f a = .ok s := by
      unfold mmsGenName
      rw [List.getElem?_eq_getElem (hm a List.mem_cons_self)]
      exact ⟨_, rfl⟩
    obtain ⟨r, hr, h1, h2⟩ := C288_main txt f as (d.set s (mmsPoint f a)) (fun b hb => hm b (List.mem_cons_of_mem _ hb)) hp2
    refine ⟨r, ?_, ?_, ?_⟩
    · unfold mmsMain
      rw [genGrid_main txt f a s hs]
      exact hr
    · intro b hb
      rcases List.mem_cons.1 hb with rfl | hb
      · refine ⟨s, hs, ?_⟩
        rw [h2 s fun c hc hcs => hp1 c hc ((C288_names txt f f b c s s hs hcs).1 rfl).2]
        simp [Dict.set]
      · exact h1 b hb
    · intro t ht
      rw [h2 t fun c hc => ht c (List.mem_cons_of_mem _ hc)]
      have : t ≠ s := fun e => ht a List.mem_cons_self (by rw [e]; exact hs)
      simp [Dict.set, this]

/-- The arguments with real numbers. -/
def MmsArgs.real (a : MmsArgs ℚ) : MmsArgs ℝ := ⟨a.nx, a.ny, a.nz, a.R0, a.r0, a.r1, a.mode⟩

theorem grids_pairwise (f : MmsFile) : ((mmsGrids f).flatMap Prod.snd).Pairwise fun a b => ¬ (a.mode = b.mode ∧ a.nx = b.nx ∧ a.ny = b.ny ∧ a.nz = b.nz ∧ a.R0 = b.R0) := by
  cases f <;> decide +kernel

theorem grids_R0 (f : MmsFile) : ∀ a ∈ (mmsGrids f).flatMap Prod.snd, a.mode < (mmsModes f).length ∧ (a.R0 = 1 ∨ a.R0 = 2) := by
  cases f <;> decide +kernel

/-- **C288.**  The main program of every module writes every grid of its list to the name in the list. -/
theorem C288_grids (txt : ℝ → String) (ht : txt 1 ≠ txt 2) (f : MmsFile) (d : Dict (ℕ → ℕ → ℝ × ℝ)) :
    ∃ r, mmsMain txt f (((mmsGrids f).flatMap Prod.snd).map MmsArgs.real) d = .ok r ∧
      ∀ a ∈ (mmsGrids f).flatMap Prod.snd, ∃ s, mmsGenName txt f a.real = .ok s ∧ r s = some (mmsPoint f a.real) := by
  obtain ⟨r, h1, h2, -⟩ := C288_main txt f (((mmsGrids f).flatMap Prod.snd).map MmsArgs.real) d (by
    intro a ha
    obtain ⟨b, hb, rfl⟩ := List.mem_map.1 ha
    exact (grids_R0 f b hb).1) (by
    rw [List.pairwise_map]
    refine (grids_pairwise f).imp_of_mem fun {a b} ha hb h hs => h ⟨hs.1, hs.2.1, hs.2.2.1, hs.2.2.2.1, ?_⟩
    have e : txt ((a.R0 : ℚ) : ℝ) = txt ((b.R0 : ℚ) : ℝ) := hs.2.2.2.2
    rcases (grids_R0 f a ha).2 with h1 | h1 <;> rcases (grids_R0 f b hb).2 with h2 | h2 <;> rw [h1, h2] at e ⊢ <;> push_cast at e
    · exact (ht e).elim
    · exact (ht e.symm).elim)
  exact ⟨r, h1, fun a ha => h2 a.real (List.mem_map_of_mem ha)⟩

/-- Meets the hypotheses of C288_grids. -/
example : ∃ txt : ℝ → String, txt 1 ≠ txt 2 := ⟨fun x => if x = 1 then "1" else "2", by
  show (if (1 : ℝ) = 1 then "1" else "2") ≠ if (2 : ℝ) = 1 then "1" else "2"
  rw [if_pos rfl, if_neg (by norm_num)]; decide⟩

/-! ## The files of results -/

theorem takeWhile_plain : ∀ (a b : List Char), '_' ∉ a → (a ++ '_' :: b).takeWhile (fun c => decide (c ≠ '_')) = a
  | [], b, _ => by simp
  | x :: a, b, h => by
    have hx : x ≠ '_' := fun e => h (by rw [e]; exact List.mem_cons_self)
    have := takeWhile_plain a b fun h' => h (List.mem_cons_of_mem _ h')
    simp only [List.cons_append]
    rw [List.takeWhile_cons_of_pos (by simpa using hx), this]

theorem dropWhile_plain : ∀ (a b : List Char), '_' ∉ a → (a ++ '_' :: b).dropWhile (fun c => decide (c ≠ '_')) = '_' :: b
  | [], b, _ => by simp
  | x :: a, b, h => by
    have hx : x ≠ '_' := fun e => h (by rw [e]; exact List.mem_cons_self)
    have := dropWhile_plain a b fun h' => h (List.mem_cons_of_mem _ h')
    simp only [List.cons_append]
    rw [List.dropWhile_cons_of_pos (by simpa using hx), this]

/-- **C289.**  The results of a mode of a list of grids are in a file with the name of the module and the mode of the grids. -/
theorem C289_info (txt : K → String) (f : MmsFile) (a : MmsArgs K) (s m : String) (hm : (mmsModes f)[a.mode]? = some m) (h : mmsGenName txt f a = .ok s) (iname : String) :
    mmsResultName iname s = "result_" ++ mmsPrefix f ++ "_" ++ m ++ "_" ++ iname ++ ".txt" := by
  have e := genName_toList txt f a s m hm h
  have : mmsInfo s = mmsPrefix f ++ "_" ++ m := by
    apply String.toList_injective
    unfold mmsInfo
    rw [e, dropWhile_plain _ _ (prefix_plain f), takeWhile_plain _ _ (prefix_plain f)]
    simp only
    rw [takeWhile_plain _ _ (modes_plain f _ _ hm)]
    simp only [String.toList_append, show "_".toList = ['_'] from rfl, List.append_assoc, List.singleton_append, String.toList_ofList]
  unfold mmsResultName
  rw [this]
  simp only [String.append_assoc]

theorem resultName_inj (iname s s' : String) : mmsResultName iname s = mmsResultName iname s' ↔ mmsInfo s = mmsInfo s' := by
  constructor
  · intro h
    have := congrArg String.toList h
    simp only [mmsResultName, String.toList_append] at this
    exact String.toList_injective (List.append_cancel_left (List.append_cancel_right (List.append_cancel_right (List.append_cancel_right this))))
  · intro h
    unfold mmsResultName
    rw [h]

theorem results_fold {V : Type} (iname : String) (s : String) : ∀ (modes : List (String × V)) (d : Dict V), (∀ m ∈ modes, mmsInfo m.1 ≠ mmsInfo s) →
    (modes.foldl (fun d m => d.set (mmsResultName iname m.1) m.2) d) (mmsResultName iname s) = d (mmsResultName iname s)
  | [], d, _ => rfl
  | m :: modes, d, h => by
    rw [List.foldl_cons, results_fold iname s modes _ fun x hx => h x (List.mem_cons_of_mem _ hx)]
    have : mmsResultName iname s ≠ mmsResultName iname m.1 := fun e => h m List.mem_cons_self ((resultName_inj _ _ _).1 e).symm
    simp [Dict.set, this]

/-- **C289.**  The results of each mode are kept exactly if no two modes with different results have the same module and mode in the name of the first file. -/
theorem C289_iff {V : Type} (iname : String) (modes : List (String × V)) :
    (∀ m ∈ modes, mmsResults iname modes (mmsResultName iname m.1) = some m.2) ↔ ∀ m ∈ modes, ∀ m' ∈ modes, mmsInfo m.1 = mmsInfo m'.1 → m.2 = m'.2 := by
  constructor
  · intro h m hm m' hm' e
    have h1 := h m hm
    have h2 := h m' hm'
    rw [(resultName_inj iname _ _).2 e] at h1
    exact Option.some.inj (h1.symm.trans h2)
  · intro h m hm
    have key : ∀ (l : List (String × V)) (d : Dict V), m ∈ l → (∀ x ∈ l, mmsInfo x.1 = mmsInfo m.1 → x.2 = m.2) →
        (l.foldl (fun d m => d.set (mmsResultName iname m.1) m.2) d) (mmsResultName iname m.1) = some m.2 := by
      intro l
      induction l with
      | nil => intro d h; cases h
      | cons x l ih =>
        intro d hml hx
        rw [List.foldl_cons]
        by_cases hl : ∃ y ∈ l, mmsInfo y.1 = mmsInfo m.1
        · obtain ⟨y, hy, hye⟩ := hl
          have hym := hx y (List.mem_cons_of_mem _ hy) hye
          have key2 : ∀ (l : List (String × V)) (d : Dict V), (∃ y ∈ l, mmsInfo y.1 = mmsInfo m.1) → (∀ x ∈ l, mmsInfo x.1 = mmsInfo m.1 → x.2 = m.2) →
              (l.foldl (fun d m => d.set (mmsResultName iname m.1) m.2) d) (mmsResultName iname m.1) = some m.2 := by
            intro l
            induction l with
            | nil => rintro d ⟨y, hy, -⟩; cases hy
            | cons z l ih2 =>
              intro d he hz
              rw [List.foldl_cons]
              by_cases hl2 : ∃ y ∈ l, mmsInfo y.1 = mmsInfo m.1
              · exact ih2 _ hl2 fun x hx => hz x (List.mem_cons_of_mem _ hx)
              · rw [results_fold iname m.1 l _ fun x hx e => hl2 ⟨x, hx, e⟩]
                obtain ⟨y, hy, hye⟩ := he
                rcases List.mem_cons.1 hy with rfl | hy
                · rw [← hz y List.mem_cons_self hye, (resultName_inj iname _ _).2 hye.symm]
                  simp [Dict.set]
                · exact (hl2 ⟨y, hy, hye⟩).elim
          exact key2 l _ ⟨y, hy, hye⟩ fun x hx' => hx x (List.mem_cons_of_mem _ hx')
        · rw [results_fold iname m.1 l _ fun x hx e => hl ⟨x, hx, e⟩]
          rcases List.mem_cons.1 hml with rfl | hml
          · simp [Dict.set]
          · exact (hl ⟨m, hml, rfl⟩).elim
    exact key modes _ hm fun x hx e => h x hx m hm e

/-- The results of every entry of `grids`, with the name of its first file, are in their file after `do_tests`. -/
def ResultsKept (txt : ℝ → String) (f : MmsFile) : Prop :=
  ∀ (iname : String) (modes : List (String × ℕ)), modes.length = (mmsGrids f).length →
    (∀ i (h : i < (mmsGrids f).length) (h' : i < modes.length), ∃ a as, ((mmsGrids f)[i]).2 = a :: as ∧ mmsGenName txt f a.real = .ok (modes[i]).1) →
    ∀ m ∈ modes, mmsResults iname modes (mmsResultName iname m.1) = some m.2

/-- **C289, refuted for `radial_grid`.**  The entries `const1` and `const2` have the same file of results. -/
theorem C289_fails (txt : ℝ → String) : ¬ ResultsKept txt .radial := by
  intro h
  have nm : ∀ a : MmsArgs ℝ, ∀ m, (mmsModes .radial)[a.mode]? = some m → ∃ s, mmsGenName txt .radial a = .ok s := by
    intro a m hm
    unfold mmsGenName; rw [hm]; exact ⟨_, rfl⟩
  obtain ⟨s1, h1⟩ := nm (MmsArgs.real ⟨8, 4, 4, 1, 0.1, 0.5, 0⟩) "const" rfl
  obtain ⟨s2, h2⟩ := nm (MmsArgs.real ⟨8, 4, 4, 2, 0.1, 1.1, 0⟩) "const" rfl
  obtain ⟨s3, h3⟩ := nm (MmsArgs.real ⟨8, 4, 4, 1, 0.1, 0.5, 1⟩) "exp" rfl
  obtain ⟨s4, h4⟩ := nm (MmsArgs.real ⟨8, 4, 4, 2, 0.1, 1.1, 1⟩) "exp" rfl
  have hk := h "" [(s1, 1), (s2, 2), (s3, 3), (s4, 4)] rfl (by
    intro i hi hi'
    have : i < 4 := hi'
    interval_cases i
    · exact ⟨_, _, rfl, h1⟩
    · exact ⟨_, _, rfl, h2⟩
    · exact ⟨_, _, rfl, h3⟩
    · exact ⟨_, _, rfl, h4⟩)
  have := (C289_iff "" [(s1, 1), (s2, 2), (s3, 3), (s4, 4)]).1 hk (s1, 1) (by simp) (s2, 2) (by simp) (by
    rw [← resultName_inj "", C289_info txt .radial _ s1 "const" rfl h1, C289_info txt .radial _ s2 "const" rfl h2])
  exact absurd this (by norm_num)

/-- **C289.**  For the other modules the results of every entry are kept.  (Missing for the whole statement: `radial_grid`, for which it is false.) -/
theorem C289_partial (txt : ℝ → String) (f : MmsFile) (hf : f ≠ .radial) : ResultsKept txt f := by
  intro iname modes hl hn
  rw [C289_iff]
  intro m hm m' hm' he
  obtain ⟨i, hi, rfl⟩ := List.getElem_of_mem hm
  obtain ⟨j, hj, rfl⟩ := List.getElem_of_mem hm'
  have hi' : i < (mmsGrids f).length := by omega
  have hj' : j < (mmsGrids f).length := by omega
  obtain ⟨a, as, ha, hna⟩ := hn i hi' hi
  obtain ⟨b, bs, hb, hnb⟩ := hn j hj' hj
  have modeAt : ∀ k (h : k < (mmsGrids f).length), ∀ a as, ((mmsGrids f)[k]).2 = a :: as → a.mode = k := by
    cases f with
    | radial => exact absurd rfl hf
    | parallel | poloidal | delp | laplace =>
      intro k h a as
      have h5 : k < 5 := lt_of_lt_of_le h (by decide +kernel)
      interval_cases k <;> first | (intro e; have := (List.cons.inj e).1; rw [← this]) | exact absurd h (by decide +kernel)
  have ia := modeAt i hi' a as ha
  have jb := modeAt j hj' b bs hb
  obtain ⟨ma, hma⟩ : ∃ m, (mmsModes f)[a.real.mode]? = some m := by
    cases hc : (mmsModes f)[a.real.mode]? with
    | some m => exact ⟨m, rfl⟩
    | none => unfold mmsGenName at hna; rw [hc] at hna; cases hna
  obtain ⟨mb, hmb⟩ : ∃ m, (mmsModes f)[b.real.mode]? = some m := by
    cases hc : (mmsModes f)[b.real.mode]? with
    | some m => exact ⟨m, rfl⟩
    | none => unfold mmsGenName at hnb; rw [hc] at hnb; cases hnb
  have e := (resultName_inj "" _ _).2 he
  rw [C289_info txt f _ _ ma hma hna, C289_info txt f _ _ mb hmb hnb] at e
  have e2 := congrArg String.toList e
  simp only [String.toList_append] at e2
  have e3 := String.toList_injective (List.append_cancel_left (List.append_cancel_right (List.append_cancel_right (List.append_cancel_right e2))))
  rw [e3] at hma
  have := modes_inj f _ _ _ hma hmb
  have hij : i = j := by rw [← ia, ← jb]; exact this
  subst hij
  rfl

end Zoidberg
