import Verif.Model.Plot
import Verif.Model.PolRect
import Verif.Model.PolStructured
import Verif.Props.TracePoincare
import Verif.Props.FindIndex
import Verif.Props.Grid
import Verif.Props.PolRect
import Mathlib.Tactic.IntervalCases

/-!
# C170 to C177: `plot.py` and `make_surfaces`
-/

set_option linter.unusedSectionVars false

namespace Zoidberg

variable {K : Type} [Field K] [LinearOrder K] [IsStrictOrderedRing K] [FloorRing K]

/-! ## C170 -/

/-- **C170 (refutation).** Without matplotlib every plot function raises an `AttributeError`, for all arguments: none of
them returns. -/
theorem C170_fails {α : Type} (follow : List K → Except Err (List α)) (ode : List K → List K → Except Err (List (List K)))
    (T : K) (nplot : Option ℕ) (slices : Option (List K)) (revs nover cycles yres : ℕ) (x z : FArr K) (pre : String) (step : ℤ)
    (g : Grid (PolGrid K) K) (maps : Dict (Cell → K)) (y : ℤ) (ga fa : List String) (width : Bool) :
    ∃ m, plotPoincare false follow T nplot slices revs nover = .error (.attribute m) ∧
      plot3d false ode x z T cycles yres = .error (.attribute m) ∧
      plotMap false pre step g maps y = .error (.attribute m) ∧
      plotStreamlines false ga fa width = .error (.attribute m) := ⟨_, rfl, rfl, rfl, rfl⟩

/-- **C170 (partial).** With matplotlib the missing function is not called. -/
theorem C170_available_partial (pre : String) (step : ℤ) (g : Grid (PolGrid K) K) (maps : Dict (Cell → K)) (y : ℤ)
    (hg : ∀ i, g.getPoloidalGrid i ≠ .error noWarning) : plotMap true pre step g maps y ≠ .error noWarning := by
  intro h
  unfold plotMap at h
  rw [if_neg (by simp)] at h
  cases h1 : g.getPoloidalGrid (y : K) with
  | error e => rw [h1] at h; injection h with h; subst h; exact hg _ h1
  | ok a =>
    rw [h1] at h
    simp only [Except.bind] at h
    cases h2 : g.getPoloidalGrid ((y + step : ℤ) : K) with
    | error e => rw [h2] at h; injection h with h; subst h; exact hg _ h2
    | ok b =>
      rw [h2] at h
      obtain ⟨b1, b2⟩ := b
      have key : ∀ (k : String), maps.get k = .error noWarning → False := by
        intro k hk
        unfold Dict.get at hk
        split at hk
        · cases hk
        · injection hk with hk; cases hk
      cases b1 with
      | none => injection h with h; exact absurd (show Err.attribute _ = Err.attribute _ from h) (by decide)
      | some pol =>
        simp only at h
        cases h3 : maps.get (pre ++ "_R") with
        | error e => rw [h3] at h; injection h with h; subst h; exact key _ h3
        | ok mR =>
          rw [h3] at h
          simp only at h
          split at h
          · injection h with h; cases h
          · cases h4 : maps.get (pre ++ "_Z") with
            | error e => rw [h4] at h; injection h with h; subst h; exact key _ h4
            | ok mZ =>
              rw [h4] at h
              simp only at h
              cases h5 : maps.get (pre ++ "_xt_prime") with
              | error e => rw [h5] at h; injection h with h; subst h; exact key _ h5
              | ok xt => rw [h5] at h; cases h

/-! ## C171 -/

/-- **C171 (partial).** With at most six slices there is one set of points for every slice: it has its own colour, the label is
the value of `y`, and the points are the positions at `y + r * yperiod` for every revolution.  Missing: more
slices (`C171_fails`), and a single value of `y` (`C72_fails`). -/
theorem C171_series_partial {α : Type} (follow : List K → Except Err (List α)) (pos : K → K → α)
    (hf : ∀ ys, 2 ≤ ys.length → follow ys = .ok (ys.map (pos (ys.getD 0 0))))
    (T : K) (nplot : Option ℕ) (slices : Option (List K)) (revs nover : ℕ) (hrev : 1 ≤ revs) (hnov : 1 ≤ nover) (s : List K)
    (hs : poincareSlices T nplot slices = .ok s) (hne : 2 ≤ revs * s.length) (h6 : s.length ≤ 6) :
    ∃ l, plotPoincare true follow T nplot slices revs nover = .ok (some l) ∧ l.length = s.length ∧ IsSlices T nplot slices s ∧
      (l.map Series.colour).Nodup ∧ l.map Series.label = s ∧
      ∀ p (hp : p < l.length), l[p].points = (List.range revs).map fun r : ℕ => pos (s.getD 0 0) (s.getD p 0 + (r : K) * T) := by
  obtain ⟨res, hres, hsl, hlen, hrow, hpt⟩ := C72_positions_partial follow pos hf T nplot slices revs nover hrev hnov s hs hne
  unfold plotPoincare
  rw [if_neg (by simp), hres]
  simp only [Except.bind]
  rw [if_neg (by simp [plotColours]; omega)]
  refine ⟨_, rfl, by simp, hsl, ?_, ?_, ?_⟩
  · rw [List.map_map]
    have e : (List.map (Series.colour ∘ fun index =>
        (⟨plotColours.getD index "", s.getD index 0, res.filterMap fun row => row[index]?⟩ : Series K α)) (List.range s.length)) =
        (List.range s.length).map fun i => plotColours.getD i "" := by
      apply List.map_congr_left; intro i _; rfl
    rw [e]
    generalize s.length = n at h6
    interval_cases n <;> decide
  · rw [List.map_map]
    apply List.ext_getElem
    · simp
    · intro i h1 h2
      simp only [List.getElem_map, List.getElem_range, Function.comp]
      rw [List.getD_eq_getElem _ _ h2]
  · intro p hp
    simp only [List.length_map, List.length_range] at hp
    simp only [List.getElem_map, List.getElem_range]
    have hall : ∀ q ∈ res, ∃ a, q[p]? = some a := by
      intro q hq
      have := hrow q hq
      exact ⟨q[p]'(by omega), List.getElem?_eq_getElem _⟩
    have gen : ∀ (l : List (List α)), (∀ q ∈ l, ∃ a, q[p]? = some a) → (l.filterMap fun row => row[p]?).map some = l.map fun q => q[p]? := by
      intro l hl
      induction l with
      | nil => rfl
      | cons q l ih =>
        obtain ⟨a, ha⟩ := hl q (by simp)
        have h0 := ih fun q hq => hl q (by simp [hq])
        simp only [List.filterMap_cons, ha, List.map_cons, h0]
    have h2 : (res.filterMap fun row => row[p]?).map some = ((List.range revs).map fun r : ℕ => pos (s.getD 0 0) (s.getD p 0 + (r : K) * T)).map some := by
      rw [gen res hall]
      apply List.ext_getElem
      · simp [hlen]
      · intro i h1 h2
        simp only [List.length_map] at h1
        have := hpt i (by omega) p hp
        rw [List.getElem?_eq_getElem h1, Option.bind_some] at this
        simp only [List.getElem_map, List.getElem_range]
        exact this
    exact List.map_injective_iff.2 (Option.some_injective _) h2

/-- **C171 (refutation).** With more than six slices there is a `TypeError`, whatever the tracer does. -/
theorem C171_fails {α : Type} (follow : List K → Except Err (List α)) (T : K) (nplot : Option ℕ) (slices : Option (List K))
    (revs nover : ℕ) (res : List (List α)) (s : List K) (h : tracePoincare follow T nplot slices revs nover = .ok (res, s))
    (h7 : 7 ≤ s.length) : ∃ m, plotPoincare true follow T nplot slices revs nover = .error (.type m) := by
  unfold plotPoincare
  rw [if_neg (by simp), h]
  simp only [Except.bind]
  rw [if_pos (by simp [plotColours]; omega)]
  exact ⟨_, rfl⟩

/-- Seven slices, two revolutions. -/
example : ((tracePoincare (fun ys => .ok ys) (7 : ℚ) (some 7) none 2 1).map fun a => a.2.length).toOption = some 7 := by decide +kernel

/-- Three slices, two revolutions, oversampled twice: the points of the second slice. -/
example : ((plotPoincare true (fun ys => .ok ys) (3 : ℚ) (some 3) none 2 2).toOption.bind fun l => l.bind fun l =>
    (l[1]?).map fun s => (s.colour, s.label, s.points)) = some ("b", 1, [1, 4]) := by decide +kernel

/-! ## C172 -/

/-- **C172.** A click outside changes nothing; the middle button removes all points. -/
theorem C172_middle_partial (ode : List K → List K → Except Err (List (List K))) (ys : List K) (shown : List K × List K) (b : ℕ) (p : K × K) :
    onclick ode ys none b shown = .ok shown ∧ onclick ode ys (some p) 2 shown = .ok ([], []) := ⟨rfl, rfl⟩

/-- **C172 (refutation).** Every other click inside the plot raises an exception, for all integrators that work: an
`IndexError` for at least two values of `y`. -/
theorem C172_fails (ode : List K → List K → Except Err (List (List K))) (line : K × K → List K → ℕ → K × K)
    (ho : LineWise ode line) (ys : List K) (hy : 2 ≤ ys.length) (p : K × K) (b : ℕ) (hb : b ≠ 2) (shown : List K × List K) :
    ∃ m, onclick ode ys (some p) b shown = .error (.index m) := by
  obtain ⟨r, hr, hok, hsh, -⟩ := C68_lines ode line ho (⟨[], [p.1]⟩ : FArr K) ⟨[], [p.2]⟩ ⟨[ys.length], ys⟩ rfl rfl (by simp [FArr.Ok])
    ⟨⟨_, hy, rfl⟩, Or.inl rfl⟩ (by rintro ⟨-, b, -⟩; exact b rfl)
  have hsh' : r.shape = [ys.length, 1, 2] := hsh
  unfold onclick
  simp only
  rw [if_neg hb, hr]
  simp only [Except.bind, FArr.column, hsh']
  exact ⟨_, rfl⟩

/-- A left click with an integrator that works. -/
example : LineWise (stillOde (K := ℚ)) (fun q _ _ => q) ∧ (onclick stillOde [0, 1] (some ((3 : ℚ), 4)) 1 ([], [])).toBool = false ∧
    onclick stillOde [0, 1] (some ((3 : ℚ), 4)) 2 ([1], [2]) = .ok ([], []) :=
  ⟨stillOde_lineWise, by decide +kernel, rfl⟩

/-! ## C173 -/

/-- **C173 (partial).** For one starting point there is one curve of `y_res` points for every cycle: point `j` of cycle `n` is the position on the
field line at `n * yperiod + j * yperiod / y_res`, at the angle `j * yperiod / y_res`.  Missing: more starting points
(`C173_fails`). -/
theorem C173_cycles_partial (ode : List K → List K → Except Err (List (List K))) (line : K × K → List K → ℕ → K × K)
    (ho : LineWise ode line) (x z : FArr K) (hx : x.Ok) (hz : z.Ok) (hs : ¬ OddScalar x z)
    (h1 : commonShape x z = [1]) (hv : shape1 x = shape1 z ∨ x.data.length = 1 ∨ z.data.length = 1) (T : K) (hT : 0 < T)
    (cycles yres : ℕ) (h2 : 2 ≤ cycles * yres) :
    ∃ l phi, plot3d true ode x z T cycles yres = .ok (some l) ∧ l.length = cycles ∧ phi.length = cycles * yres ∧
      (∀ n < cycles, ∀ j < yres, phi.getD (n * yres + j) 0 = (n : K) * T + (j : K) * T / (yres : K)) ∧
      ∀ n (hn : n < l.length), l[n].length = yres ∧ ∀ j (hj : j < l[n].length),
        l[n][j] = ((line (startPoint x z 0) phi (n * yres + j)).1, (line (startPoint x z 0) phi (n * yres + j)).2,
          (j : K) * T / (yres : K)) := by
  have hc : 0 < cycles := Nat.pos_of_ne_zero (by rintro rfl; simp at h2)
  have hyr : 0 < yres := Nat.pos_of_ne_zero (by rintro rfl; simp at h2)
  have hyK : (0 : K) < yres := by exact_mod_cast hyr
  have hcK : (0 : K) < cycles := by exact_mod_cast hc
  have hidx : ∀ n < cycles, ∀ j < yres, n * yres + j < cycles * yres := by
    intro n hn j hj
    have : (n + 1) * yres ≤ cycles * yres := Nat.mul_le_mul_right _ hn
    rw [Nat.add_mul, Nat.one_mul] at this
    omega
  set phi := linspaceOpen (0 : K) ((cycles : K) * T) (yres * cycles) with hphi
  have hlen : phi.length = cycles * yres := by rw [hphi]; simp [linspaceOpen, Nat.mul_comm]
  have hval : ∀ n < cycles, ∀ j < yres, phi.getD (n * yres + j) 0 = (n : K) * T + (j : K) * T / (yres : K) := by
    intro n hn j hj
    have hlt := hidx n hn j hj
    rw [List.getD_eq_getElem _ _ (by omega)]
    simp only [hphi, linspaceOpen, List.getElem_map, List.getElem_range]
    push_cast
    field_simp
    ring
  obtain ⟨r, hr, hok, hsh, hdat⟩ := C68_lines ode line ho x z ⟨[phi.length], phi⟩ hx hz (by simp [FArr.Ok])
    ⟨⟨_, by omega, rfl⟩, hv⟩ hs
  have hdl : r.data.length = cycles * yres * 2 := by
    have h0 : r.data.length = r.shape.prod := hok
    rw [h0, hsh, h1, hlen]
    simp
  rw [h1] at hdat
  unfold plot3d
  rw [if_neg (by simp)]
  simp only
  rw [← hphi, hr]
  simp only [Except.bind]
  rw [if_neg (by simp [hdl])]
  refine ⟨_, phi, rfl, by simp, hlen, hval, ?_⟩
  intro n hn
  simp only [List.length_map, List.length_range] at hn
  simp only [List.getElem_map, List.getElem_range, List.length_map, List.length_range, true_and]
  intro j hj
  have hlt := hidx n hn j hj
  obtain ⟨a, b⟩ := hdat (n * yres + j) (by rw [show (⟨[phi.length], phi⟩ : FArr K).data = phi from rfl]; omega) 0 (by simp)
  simp only [List.prod_cons, List.prod_nil, Nat.mul_one, Nat.add_zero] at a b
  rw [a, b, hval n hn j hj]
  congr 2
  have hjK : (j : K) < yres := by exact_mod_cast hj
  have hfl : ⌊((n : K) * T + (j : K) * T / (yres : K)) / T⌋ = (n : ℤ) := by
    rw [Int.floor_eq_iff]
    have e : ((n : K) * T + (j : K) * T / (yres : K)) / T = n + (j : K) / yres := by field_simp
    rw [e]
    have h3 : 0 ≤ (j : K) / yres := by positivity
    have h4 : (j : K) / yres < 1 := (div_lt_one hyK).2 hjK
    push_cast
    constructor <;> linarith
  unfold npRem
  rw [hfl]
  push_cast
  ring

/-- **C173 (refutation).** With two or more starting points there is a `ValueError` (unless there is nothing to plot). -/
theorem C173_fails (ode : List K → List K → Except Err (List (List K))) (line : K × K → List K → ℕ → K × K)
    (ho : LineWise ode line) (x z : FArr K) (hx : x.Ok) (hz : z.Ok) (hs : ¬ OddScalar x z)
    (hv : shape1 x = shape1 z ∨ x.data.length = 1 ∨ z.data.length = 1) (h2 : 2 ≤ (commonShape x z).prod) (T : K)
    (cycles yres : ℕ) (hc : 2 ≤ cycles * yres) : ∃ m, plot3d true ode x z T cycles yres = .error (.value m) := by
  set phi := linspaceOpen (0 : K) ((cycles : K) * T) (yres * cycles) with hphi
  have hlen : phi.length = cycles * yres := by rw [hphi]; simp [linspaceOpen, Nat.mul_comm]
  obtain ⟨r, hr, hok, hsh, hdat⟩ := C68_lines ode line ho x z ⟨[phi.length], phi⟩ hx hz (by simp [FArr.Ok])
    ⟨⟨_, by omega, rfl⟩, hv⟩ hs
  have hdl : r.data.length = cycles * yres * (commonShape x z).prod * 2 := by
    have h0 : r.data.length = r.shape.prod := hok
    rw [h0, hsh, hlen]
    simp
    ring
  unfold plot3d
  rw [if_neg (by simp)]
  simp only
  rw [← hphi, hr]
  simp only [Except.bind]
  rw [if_pos]
  · exact ⟨_, rfl⟩
  · rw [hdl]
    intro h
    have : cycles * yres * 2 ≤ cycles * yres * (commonShape x z).prod := Nat.mul_le_mul_left _ h2
    omega

/-- A curve of two cycles with two points each. -/
example : ((plot3d true stillOde ⟨[], [(3 : ℚ)]⟩ ⟨[], [5]⟩ 4 2 2).toOption) =
    some (some [[(3, 5, 0), (3, 5, 2)], [(3, 5, 0), (3, 5, 2)]]) := by decide +kernel

/-- Two starting points. -/
example : ValidInput (⟨[2], [1, 2]⟩ : FArr ℚ) ⟨[], [7]⟩ ⟨[2], [0, 1]⟩ ∧ ¬ OddScalar (⟨[2], [1, 2]⟩ : FArr ℚ) ⟨[], [7]⟩ ∧
    2 ≤ (commonShape (⟨[2], [1, 2]⟩ : FArr ℚ) ⟨[], [7]⟩).prod :=
  ⟨⟨⟨2, le_rfl, rfl⟩, Or.inr (Or.inr rfl)⟩, by rintro ⟨-, -, -, h⟩; exact absurd h (by decide), by decide⟩

/-! ## C174 -/

theorem accessAll_ok (has : List String) : ∀ l : List String, accessAll has l = .ok () ↔ ∀ a ∈ l, a ∈ has
  | [] => by simp [accessAll]
  | a :: l => by
    unfold accessAll
    split_ifs with h
    · rw [accessAll_ok has l]; simp [h]
    · constructor
      · intro h'; cases h'
      · intro h'; exact absurd (h' a (by simp)) h

/-- **C174 (refutation).** `plot_streamlines` and `make_surfaces` raise an `AttributeError` for every `Grid`, whatever the field. -/
theorem C174_fails {α : Type} (field : List String) (rest : Except Err α) :
    (∃ m, plotStreamlines true gridAttributes field false = .error (.attribute m)) ∧
    (∃ m, plotStreamlines true gridAttributes field true = .error (.attribute m)) ∧
    ∃ m, makeSurfacesOf gridAttributes rest = .error (.attribute m) := by
  have err : ∀ l : List String, accessAll field l = .ok () ∨ ∃ m, accessAll field l = .error (.attribute m) := by
    intro l
    induction l with
    | nil => exact Or.inl rfl
    | cons a l ih =>
      unfold accessAll
      split_ifs
      · exact ih
      · exact Or.inr ⟨_, rfl⟩
  refine ⟨⟨"xarray", rfl⟩, ?_, ⟨"xcentre", rfl⟩⟩
  unfold plotStreamlines
  rcases err ["b_mag", "by"] with h | ⟨m, h⟩
  · exact ⟨"xarray", by rw [if_neg (by simp), if_pos rfl, h]; rfl⟩
  · exact ⟨m, by rw [if_neg (by simp), if_pos rfl, h]; rfl⟩

/-- **C174 (partial).** Both get past the attributes for exactly the objects that have them. -/
theorem C174_attributes_partial (grid field : List String) (width : Bool) :
    plotStreamlines true grid field width = .ok () ↔
      ("xarray" ∈ grid ∧ "zarray" ∈ grid) ∧ ("bx" ∈ field ∧ "bz" ∈ field) ∧ (width = true → "b_mag" ∈ field ∧ "by" ∈ field) := by
  have hb : ∀ (a b : Except Err Unit), (a.bind fun _ => b) = .ok () ↔ a = .ok () ∧ b = .ok () := by
    intro a b
    rcases a with e | u
    · simp [Except.bind]
    · simp [Except.bind]
  unfold plotStreamlines
  rw [if_neg (by simp), hb, hb, accessAll_ok, accessAll_ok]
  cases width
  · simp
  · rw [if_pos rfl, accessAll_ok]
    simp
    tauto

/-! ## C175 -/

/-- The two marks of a plot of a map (plot.py:353, 362). -/
theorem plotMap_marks {pre : String} {step : ℤ} {g : Grid (PolGrid K) K} {maps : Dict (Cell → K)} {yslice : ℤ} {p : MapPlot K}
    (h : plotMap true pre step g maps yslice = .ok (some p)) :
    ∃ y mR mZ xt pol w, pyIndex g.ycoords.length yslice = some y ∧ maps (pre ++ "_R") = some mR ∧ maps (pre ++ "_Z") = some mZ ∧
      maps (pre ++ "_xt_prime") = some xt ∧ g.getPoloidalGrid ((yslice + step : ℤ) : K) = .ok (some pol, w) ∧
      p.grid = (ravelCells pol.nx pol.nz).map (fun c => (pol.R c.1 c.2, pol.Z c.1 c.2)) ∧
      p.mapped = (ravelCells g.nx g.nz).map (fun c => (mR (c.1, y, c.2), mZ (c.1, y, c.2))) ∧
      p.inner = ((ravelCells g.nx g.nz).filter fun c => decide (xt (c.1, y, c.2) < 0)).map (fun c => (mR (c.1, y, c.2), mZ (c.1, y, c.2))) ∧
      p.outer = ((ravelCells g.nx g.nz).filter fun c => decide (xt (c.1, y, c.2) > (g.nx : K) - 1 / 2)).map
        (fun c => (mR (c.1, y, c.2), mZ (c.1, y, c.2))) := by
  have key : ∀ (k : String) (v : Cell → K), maps.get k = .ok v → maps k = some v := by
    intro k v hk
    unfold Dict.get at hk
    split at hk
    · rename_i w hw; injection hk with hk; rw [hw, hk]
    · cases hk
  unfold plotMap at h
  rw [if_neg (by simp)] at h
  cases h1 : g.getPoloidalGrid (yslice : K) with
  | error e => rw [h1] at h; cases h
  | ok a =>
    rw [h1] at h
    simp only [Except.bind] at h
    cases h2 : g.getPoloidalGrid ((yslice + step : ℤ) : K) with
    | error e => rw [h2] at h; cases h
    | ok b =>
      rw [h2] at h
      obtain ⟨b1, b2⟩ := b
      cases b1 with
      | none => cases h
      | some pol =>
        simp only at h
        cases h3 : maps.get (pre ++ "_R") with
        | error e => rw [h3] at h; cases h
        | ok mR =>
          rw [h3] at h
          simp only at h
          cases hy : pyIndex g.ycoords.length yslice with
          | none => rw [hy] at h; cases h
          | some y =>
            rw [hy] at h
            simp only at h
            cases h4 : maps.get (pre ++ "_Z") with
            | error e => rw [h4] at h; cases h
            | ok mZ =>
              rw [h4] at h
              simp only at h
              cases h5 : maps.get (pre ++ "_xt_prime") with
              | error e => rw [h5] at h; cases h
              | ok xt =>
                rw [h5] at h
                injection h with h
                injection h with h
                subst h
                exact ⟨y, mR, mZ, xt, pol, b2, rfl, key _ _ h3, key _ _ h4, key _ _ h5, rfl, rfl, rfl, rfl, rfl⟩

theorem ravelCells_nodup (nx nz : ℕ) : (ravelCells nx nz).Nodup := by
  unfold ravelCells
  rw [List.nodup_flatMap]
  refine ⟨fun x _ => ?_, ?_⟩
  · exact List.Nodup.map (fun a b h => (Prod.ext_iff.1 h).2) List.nodup_range
  · refine List.Pairwise.imp_of_mem ?_ (List.nodup_range (n := nx))
    intro a b _ _ hab c hc hc'
    simp only [List.mem_map] at hc hc'
    obtain ⟨_, _, rfl⟩ := hc
    obtain ⟨_, _, h⟩ := hc'
    exact hab (Prod.ext_iff.1 h).1.symm

theorem mem_ravelCells (nx nz : ℕ) (c : ℕ × ℕ) : c ∈ ravelCells nx nz ↔ c.1 < nx ∧ c.2 < nz := by
  unfold ravelCells
  simp only [List.mem_flatMap, List.mem_range, List.mem_map]
  constructor
  · rintro ⟨x, hx, z, hz, rfl⟩; exact ⟨hx, hz⟩
  · rintro ⟨hx, hz⟩; exact ⟨c.1, hx, c.2, hz, rfl⟩

/-- **C175.** No cell gets both marks, for any map. -/
theorem C175_disjoint (nx : ℕ) (xt : K) (h : 1 ≤ nx) : ¬ (xt < 0 ∧ xt > (nx : K) - 1 / 2) := by
  rintro ⟨h1, h2⟩
  have : (1 : K) ≤ nx := by exact_mod_cast h
  linarith

/-- **C175 (partial).** For the indices of a `StructuredPoloidalGrid` the marks are exactly the points that `findIndex`
reports as outside: -1 for the inner boundary and `nx` for the outer one.  Missing: rectangular grids (`C175_fails`). -/
theorem C175_structured_partial (g : StrPol K) (nearest : K → K → ℕ) (hn : ∀ R Z, nearest R Z < g.nx * g.nz) (tol : K)
    (fuel : ℕ) (ps r : List (K × K)) (h : g.findIndex nearest tol fuel ps = .ok r) (i : ℕ) (hi : i < r.length) :
    (r[i].1 < 0 ↔ r[i].1 = -1) ∧ (r[i].1 > (g.nx : K) - 1 / 2 ↔ r[i].1 = g.nx) := by
  obtain ⟨hl, hc⟩ := C47_converged g nearest hn tol fuel ps r h
  have hx : (1 : K) ≤ g.nx := by
    have : 1 ≤ g.nx := by
      rcases Nat.eq_zero_or_pos g.nx with e | e
      · have := hn 0 0; rw [e] at this; simp at this
      · exact e
    exact_mod_cast this
  obtain ⟨h1, -⟩ := hc i hi (by omega)
  rcases h1 with h1 | h1 | ⟨h1, h2⟩
  · rw [h1]
    refine ⟨⟨fun _ => rfl, fun _ => by norm_num⟩, ⟨fun h => ?_, fun h => ?_⟩⟩ <;> linarith
  · rw [h1]
    refine ⟨⟨fun h => ?_, fun h => ?_⟩, ⟨fun _ => rfl, fun _ => ?_⟩⟩ <;> linarith
  · refine ⟨⟨fun h => ?_, fun h => ?_⟩, ⟨fun h => ?_, fun h => ?_⟩⟩ <;> linarith

/-- What the statement says for a rectangular grid: a position gets a mark exactly if it is outside of the domain
`Lx` wide around `Rcentre`. -/
def RectMarked (nx nz mxg : ℕ) (Lx Lz Rc Zc : ℚ) : Prop :=
  ∀ g : RectPol ℚ, RectPol.init nx nz Lx Lz Rc Zc mxg = .ok g → ∀ R Z : ℚ,
    ((g.findIndex R Z).1 < 0 ↔ R < Rc - Lx / 2) ∧ ((g.findIndex R Z).1 > (nx : ℚ) - 1 / 2 ↔ R > Rc + Lx / 2)

/-- **C175 (refutation).** This is false for every rectangular grid: for a grid without guard cells at the inner boundary only, with
guard cells at both. -/
theorem C175_fails (nx nz mxg : ℕ) (h1 : 2 * mxg < nx) (h2 : 1 ≤ nz) (Lx Lz Rc Zc : ℚ) (hL : 0 < Lx) :
    ¬ RectMarked nx nz mxg Lx Lz Rc Zc := by
  intro h
  have hn : ¬ (nx = 2 * mxg ∨ nz = 0) := by omega
  have hK : (0 : ℚ) < (nx : ℚ) - 2 * mxg := by
    have : ((2 * mxg : ℕ) : ℚ) < nx := by exact_mod_cast h1
    push_cast at this; linarith
  set d : ℚ := Lx / ((nx : ℚ) - 2 * mxg) with hd
  have hdp : 0 < d := div_pos hL hK
  have hL' : Lx = d * ((nx : ℚ) - 2 * mxg) := by rw [hd]; field_simp
  have hi : RectPol.init nx nz Lx Lz Rc Zc mxg =
      .ok ⟨nx, nz, d, Lz / (nz : ℚ), Rc - d * ((nx : ℚ) - 1) / 2, Zc - Lz / (nz : ℚ) * ((nz : ℚ) - 1) / 2⟩ := by
    unfold RectPol.init; rw [if_neg hn]
  rcases Nat.eq_zero_or_pos mxg with h0 | h0
  · -- index -1/4 is inside
    have := (h _ hi (Rc - d * ((nx : ℚ) - 1) / 2 - d / 4) 0).1.1
    simp only [RectPol.findIndex] at this
    have e : (Rc - d * ((nx : ℚ) - 1) / 2 - d / 4 - (Rc - d * ((nx : ℚ) - 1) / 2)) / d = -1 / 4 := by field_simp; ring
    rw [e] at this
    have := this (by norm_num)
    rw [hL', h0] at this
    push_cast at this
    nlinarith
  · -- index 1/4 is outside
    have := (h _ hi (Rc - d * ((nx : ℚ) - 1) / 2 + d / 4) 0).1.2
    simp only [RectPol.findIndex] at this
    have e : (Rc - d * ((nx : ℚ) - 1) / 2 + d / 4 - (Rc - d * ((nx : ℚ) - 1) / 2)) / d = 1 / 4 := by field_simp; ring
    rw [e] at this
    have hm : (1 : ℚ) ≤ mxg := by exact_mod_cast h0
    have := this (by rw [hL']; nlinarith)
    norm_num at this

/-- **C175.** At the same distance behind the last surface as a marked point is before the first one, points need not be marked: distances up to
half a cell differ. -/
theorem C175_asymmetric (nx : ℕ) (d : K) (hd : 0 < d) (hd2 : d ≤ 1 / 2) : (-d : K) < 0 ∧ ¬ ((nx : K) - 1 + d > (nx : K) - 1 / 2) := by
  constructor <;> linarith

/-! ## C176 -/

/-- **C176 (partial).** On a periodic grid both plots work for every slice, and elsewhere for the slices that have a neighbour;
they show all points of the neighbouring grid, all mapped points and the marked ones among them.  Missing: the ends of other grids
(`C176_fails`). -/
theorem C176_plots_partial (size : PolGrid K → ℕ × ℕ) (l : List (PolGrid K)) (ys : List K) (Ly : K) (per : Bool)
    (g : Grid (PolGrid K) K) (hg : Grid.init size (.many l) ys Ly per = .ok g) (pre : String) (step : ℤ)
    (maps : Dict (Cell → K)) (mR mZ xt : Cell → K) (hR : maps (pre ++ "_R") = some mR) (hZ : maps (pre ++ "_Z") = some mZ)
    (hxt : maps (pre ++ "_xt_prime") = some xt) (y : ℕ) (hy : y < ys.length)
    (hn : per = true ∨ (0 ≤ (y : ℤ) + step ∧ (y : ℤ) + step < ys.length)) :
    ∃ p pol, plotMap true pre step g maps y = .ok (some p) ∧ l[((y + step) % (ys.length : ℤ)).toNat]? = some pol ∧
      p.grid = (ravelCells pol.nx pol.nz).map (fun c => (pol.R c.1 c.2, pol.Z c.1 c.2)) ∧
      p.mapped = (ravelCells g.nx g.nz).map (fun c => (mR (c.1, y, c.2), mZ (c.1, y, c.2))) ∧
      p.inner.Sublist p.mapped ∧ p.outer.Sublist p.mapped ∧
      (∀ a, a ∈ p.inner ↔ ∃ x z, x < g.nx ∧ z < g.nz ∧ xt (x, y, z) < 0 ∧ a = (mR (x, y, z), mZ (x, y, z))) ∧
      ∀ a, a ∈ p.outer ↔ ∃ x z, x < g.nx ∧ z < g.nz ∧ xt (x, y, z) > (g.nx : K) - 1 / 2 ∧ a = (mR (x, y, z), mZ (x, y, z)) := by
  have hyl : g.ycoords.length = ys.length := by
    obtain ⟨_, e, _⟩ := Grid.init_many hg
    rw [e]
  have hn0 : (0 : ℤ) < (ys.length : ℤ) := by omega
  -- the two lookups
  have h1 : ∃ p w, g.getPoloidalGrid ((y : ℤ) : K) = .ok (p, w) := by
    cases per with
    | true =>
      obtain ⟨p, w, h, -⟩ := C19_periodic_shift size l ys Ly g hg (y : ℤ) 0
      exact ⟨_, _, h⟩
    | false =>
      obtain ⟨p, -, h⟩ := (C21_ends size l ys Ly g hg).1 y hy
      exact ⟨_, _, by push_cast; exact h⟩
  have h2 : ∃ p w, l[((y + step) % (ys.length : ℤ)).toNat]? = some p ∧ g.getPoloidalGrid (((y : ℤ) + step : ℤ) : K) = .ok (some p, w) := by
    cases per with
    | true =>
      obtain ⟨r, hr⟩ := Int.eq_ofNat_of_zero_le (Int.emod_nonneg ((y : ℤ) + step) hn0.ne')
      have hm1 := Int.emod_lt_of_pos ((y : ℤ) + step) hn0
      obtain ⟨p, e1, e2⟩ := C19_periodic_lookup size l ys Ly g hg r (by omega) (((y : ℤ) + step) / (ys.length : ℤ))
      refine ⟨p, ys.getD r 0 + ((((y : ℤ) + step) / (ys.length : ℤ) : ℤ) : K) * Ly, ?_, ?_⟩
      · rw [hr, Int.toNat_natCast]; exact e1
      · have e : (y : ℤ) + step = (r : ℤ) + (((y : ℤ) + step) / (ys.length : ℤ)) * (ys.length : ℤ) := by
          have := Int.emod_add_mul_ediv ((y : ℤ) + step) (ys.length : ℤ)
          rw [hr] at this
          rw [mul_comm]
          exact this.symm
        have e' : (((y : ℤ) + step : ℤ) : K) = (r : K) + ((((y : ℤ) + step) / (ys.length : ℤ) : ℤ) : K) * (ys.length : K) := by
          exact_mod_cast congrArg (Int.cast (R := K)) e
        rw [e']
        exact e2
    | false =>
      obtain ⟨a, b⟩ : 0 ≤ (y : ℤ) + step ∧ (y : ℤ) + step < ys.length := by
        rcases hn with h | h
        · cases h
        · exact h
      obtain ⟨r, hr⟩ := Int.eq_ofNat_of_zero_le a
      obtain ⟨p, e1, e2⟩ := (C21_ends size l ys Ly g hg).1 r (by omega)
      refine ⟨p, ys.getD r 0, ?_, ?_⟩
      · rw [Int.emod_eq_of_lt a b, hr, Int.toNat_natCast]; exact e1
      · rw [hr]; push_cast; exact e2
  obtain ⟨p1, w1, h1⟩ := h1
  obtain ⟨pol, w2, hpol, h2⟩ := h2
  have hget : ∀ k v, maps k = some v → maps.get k = .ok v := by
    intro k v hk; unfold Dict.get; rw [hk]
  have hidx : pyIndex g.ycoords.length (y : ℤ) = some y := by
    unfold pyIndex; rw [hyl, if_pos (by omega), if_pos (by omega)]; simp
  have hok : ∃ p, plotMap true pre step g maps (y : ℤ) = .ok (some p) := by
    unfold plotMap
    rw [if_neg (by simp), h1]
    simp only [Except.bind]
    rw [h2]
    simp only
    rw [hget _ _ hR]
    simp only [hidx]
    rw [hget _ _ hZ]
    simp only
    rw [hget _ _ hxt]
    exact ⟨_, rfl⟩
  obtain ⟨p, hp⟩ := hok
  obtain ⟨y', mR', mZ', xt', pol', w', e1, e2, e3, e4, e5, e6, e7, e8, e9⟩ := plotMap_marks hp
  rw [hidx] at e1; injection e1 with e1; subst e1
  rw [hR] at e2; injection e2 with e2; subst e2
  rw [hZ] at e3; injection e3 with e3; subst e3
  rw [hxt] at e4; injection e4 with e4; subst e4
  rw [h2] at e5
  injection e5 with e5
  have e5' := (Prod.ext_iff.1 e5).1
  injection e5' with e5'
  subst e5'
  refine ⟨p, pol, hp, hpol, e6, e7, ?_, ?_, ?_, ?_⟩
  · rw [e7, e8]; exact List.Sublist.map _ List.filter_sublist
  · rw [e7, e9]; exact List.Sublist.map _ List.filter_sublist
  · intro a
    rw [e8]
    simp only [List.mem_map, List.mem_filter, decide_eq_true_eq]
    constructor
    · rintro ⟨c, ⟨hc, hm⟩, rfl⟩
      obtain ⟨a, b⟩ := (mem_ravelCells _ _ _).1 hc
      exact ⟨c.1, c.2, a, b, hm, rfl⟩
    · rintro ⟨x, z, a, b, hm, rfl⟩
      exact ⟨(x, z), ⟨(mem_ravelCells _ _ _).2 ⟨a, b⟩, hm⟩, rfl⟩
  · intro a
    rw [e9]
    simp only [List.mem_map, List.mem_filter, decide_eq_true_eq]
    constructor
    · rintro ⟨c, ⟨hc, hm⟩, rfl⟩
      obtain ⟨a, b⟩ := (mem_ravelCells _ _ _).1 hc
      exact ⟨c.1, c.2, a, b, hm, rfl⟩
    · rintro ⟨x, z, a, b, hm, rfl⟩
      exact ⟨(x, z), ⟨(mem_ravelCells _ _ _).2 ⟨a, b⟩, hm⟩, rfl⟩

/-- **C176 (refutation).** On a grid that is not periodic the forward map of the last slice and the backward map of the first one cannot be plotted:
there is an `AttributeError`, although the maps have these slices. -/
theorem C176_fails (size : PolGrid K → ℕ × ℕ) (l : List (PolGrid K)) (ys : List K) (Ly : K)
    (g : Grid (PolGrid K) K) (hg : Grid.init size (.many l) ys Ly false = .ok g) (pre : String) (maps : Dict (Cell → K)) :
    (∃ m, plotMap true pre 1 g maps ((ys.length : ℤ) - 1) = .error (.attribute m)) ∧
      ∃ m, plotMap true pre (-1) g maps 0 = .error (.attribute m) := by
  obtain ⟨c1, c2, c3⟩ := C21_ends size l ys Ly g hg
  obtain ⟨_, _, _, _, _, h0⟩ := Grid.init_many hg
  constructor
  · obtain ⟨p, -, h1⟩ := c1 (ys.length - 1) (by omega)
    have e : (((ys.length : ℤ) - 1 : ℤ) : K) = ((ys.length - 1 : ℕ) : K) := by
      rw [Nat.cast_sub h0]; push_cast; ring
    have h2 := c3 ((ys.length : ℤ) - 1 + 1) (by omega)
    unfold plotMap
    rw [if_neg (by simp), e, h1]
    simp only [Except.bind]
    rw [h2]
    exact ⟨_, rfl⟩
  · obtain ⟨p, -, h1⟩ := c1 0 h0
    have h2 := c2 (0 + -1) (by omega)
    unfold plotMap
    rw [if_neg (by simp), show (((0 : ℤ)) : K) = ((0 : ℕ) : K) by simp, h1]
    simp only [Except.bind]
    rw [h2]
    exact ⟨_, rfl⟩

/-- A periodic grid with two slices and maps on it. -/
example : ((Grid.init (fun p : PolGrid ℚ => (p.nx, p.nz)) (.many [⟨1, 2, fun _ z => z, fun _ _ => 0, fun _ => none⟩,
      ⟨1, 2, fun _ z => 5 + z, fun _ _ => 0, fun _ => none⟩]) [0, 1] 2 true).toOption.bind fun g =>
    (plotMap true "forward" 1 g (fun k => if k = "forward_R" then some fun c => c.2.2 else if k = "forward_Z" then some fun _ => 7
      else if k = "forward_xt_prime" then some fun c => if c.2.2 = 0 then -1 else 0 else none) 1).toOption.bind fun o =>
      o.map fun p => (p.grid, p.mapped, p.inner, p.outer)) =
    some ([(0, 0), (1, 0)], [(0, 7), (1, 7)], [(0, 7)], []) := by decide +kernel

/-! ## C177 -/

/-- **C177.** For an object that has the attributes and at least two surfaces, `psi` at `(i, y, k)` is the interpolation at `(x_i, z_k)` of the points where the field lines
meet slice `y` (at `y_values[y] + r * Ly`), with the values 0 for the innermost line to 1 for the outermost; nothing
else enters. -/
theorem C177_surfaces_partial (ode : List K → List K → Except Err (List (List K))) (line : K × K → List K → ℕ → K × K)
    (ho : LineWise ode line) (interp : List ((K × K) × K) → K → K → K) (g : SurfGrid K) (m : K) (hm : g.xarray.max? = some m)
    (nsurf revs : ℕ) (hn : 2 ≤ nsurf) (hr : 1 ≤ revs) (hy : 2 ≤ revs * g.yarray.length) :
    ∃ psi phi, makeSurfaces ode interp g nsurf revs = .ok psi ∧ phi.length = revs * g.yarray.length ∧
      (∀ r < revs, ∀ y < g.yarray.length, phi.getD (r * g.yarray.length + y) 0 = (r : K) * g.Ly + g.yarray.getD y 0) ∧
      ∀ i, ∀ y < g.yarray.length, ∀ k, psi i y k = interp ((List.range revs).flatMap fun r => (List.range nsurf).map fun s : ℕ =>
        (line (g.xcentre + (s : K) * (m / 2 / ((nsurf : K) - 1)), g.zcentre) phi (r * g.yarray.length + y),
          (s : K) / ((nsurf : K) - 1))) (g.xarray.getD i 0) (g.zarray.getD k 0) := by
  set phi := poincareYs g.Ly g.yarray revs with hphi
  have hlen : phi.length = revs * g.yarray.length := poincareYs_length _ _ _ hr
  set xpos := (linspaceClosed (0 : K) (1 / 2 * m) nsurf).map (fun d => g.xcentre + d) with hxp
  have hxl : xpos.length = nsurf := by simp [hxp, linspaceClosed]
  have hsh1 : shape1 (⟨[nsurf], xpos⟩ : FArr K) = [nsurf] := rfl
  have hsh2 : shape1 (⟨[], [g.zcentre]⟩ : FArr K) = [1] := rfl
  have hcs : commonShape (⟨[nsurf], xpos⟩ : FArr K) ⟨[], [g.zcentre]⟩ = [nsurf] := by
    unfold commonShape
    rw [hsh1, hsh2, if_neg (by simp; omega), if_neg (by rw [hxl]; omega)]
  obtain ⟨p, hp, hok, hsh, hdat⟩ := C68_lines ode line ho (⟨[nsurf], xpos⟩ : FArr K) ⟨[], [g.zcentre]⟩ ⟨[phi.length], phi⟩
    (by simp [FArr.Ok, hxl]) rfl (by simp [FArr.Ok]) ⟨⟨_, by omega, rfl⟩, Or.inr (Or.inr rfl)⟩
    (by rintro ⟨-, -, -, h⟩; rw [hsh2] at h; simp at h)
  rw [hcs] at hsh hdat
  have hdl : p.data.length = revs * g.yarray.length * nsurf * 2 := by
    have h0 : p.data.length = p.shape.prod := hok
    rw [h0, hsh, hlen]
    simp
    ring
  unfold makeSurfaces
  rw [hm]
  simp only
  rw [← hphi, ← hxp, hp]
  simp only [Except.bind]
  rw [if_neg (by simp [hdl]), if_neg (by omega)]
  refine ⟨_, phi, rfl, hlen, ?_, ?_⟩
  · intro r hr y hy
    exact poincareYs_getD _ _ _ hr hy
  · intro i y hy k
    congr 1
    apply List.flatMap_congr
    intro r hr
    apply List.map_congr_left
    intro s hs
    have hr := List.mem_range.1 hr
    have hs := List.mem_range.1 hs
    have hlt : r * g.yarray.length + y < phi.length := by
      have : (r + 1) * g.yarray.length ≤ revs * g.yarray.length := Nat.mul_le_mul_right _ hr
      rw [Nat.add_mul, Nat.one_mul] at this
      omega
    obtain ⟨a, b⟩ := hdat (r * g.yarray.length + y) hlt s (by simpa using hs)
    simp only [List.prod_cons, List.prod_nil, Nat.mul_one] at a b
    rw [a, b]
    have hst : startPoint (⟨[nsurf], xpos⟩ : FArr K) ⟨[], [g.zcentre]⟩ s = (g.xcentre + (s : K) * (m / 2 / ((nsurf : K) - 1)), g.zcentre) := by
      unfold startPoint
      simp only
      rw [if_neg (by rw [hxl]; omega), List.getD_eq_getElem _ _ (by rw [hxl]; exact hs)]
      simp only [hxp, linspaceClosed, List.getElem_map, List.getElem_range]
      rw [if_neg (by omega)]
      refine Prod.ext ?_ (by simp)
      dsimp only
      ring
    rw [hst]

/-- **C177 (refutation).** One surface: `ZeroDivisionError`. -/
theorem C177_fails (ode : List K → List K → Except Err (List (List K))) (line : K × K → List K → ℕ → K × K)
    (ho : LineWise ode line) (interp : List ((K × K) × K) → K → K → K) (g : SurfGrid K) (m : K) (hm : g.xarray.max? = some m)
    (revs : ℕ) (hr : 1 ≤ revs) (hy : 2 ≤ revs * g.yarray.length) :
    makeSurfaces ode interp g 1 revs = .error (.runtime "ZeroDivisionError") := by
  set phi := poincareYs g.Ly g.yarray revs with hphi
  have hlen : phi.length = revs * g.yarray.length := poincareYs_length _ _ _ hr
  set xpos := (linspaceClosed (0 : K) (1 / 2 * m) 1).map (fun d => g.xcentre + d) with hxp
  have hxl : xpos.length = 1 := by simp [hxp, linspaceClosed]
  obtain ⟨p, hp, hok, hsh, -⟩ := C68_lines ode line ho (⟨[1], xpos⟩ : FArr K) ⟨[], [g.zcentre]⟩ ⟨[phi.length], phi⟩
    (by simp [FArr.Ok, hxl]) rfl (by simp [FArr.Ok]) ⟨⟨_, by omega, rfl⟩, Or.inr (Or.inr rfl)⟩
    (by rintro ⟨-, -, -, h⟩; revert h; simp [shape1])
  have hcs : commonShape (⟨[1], xpos⟩ : FArr K) ⟨[], [g.zcentre]⟩ = [1] := rfl
  rw [hcs] at hsh
  have hdl : p.data.length = revs * g.yarray.length * 1 * 2 := by
    have h0 : p.data.length = p.shape.prod := hok
    rw [h0, hsh, hlen]
    simp
  unfold makeSurfaces
  rw [hm]
  simp only
  rw [← hphi, ← hxp, hp]
  simp only [Except.bind]
  rw [if_neg (by simp [hdl])]
  rfl

/-- **C177.** If `griddata` is exact at its points then every point of the mesh that lies on a traced line gets the value of
this line, if no other line passes there with another value. -/
theorem C177_values (ode : List K → List K → Except Err (List (List K))) (line : K × K → List K → ℕ → K × K)
    (ho : LineWise ode line) (interp : List ((K × K) × K) → K → K → K)
    (hi : ∀ l p v, (p, v) ∈ l → (∀ w, (p, w) ∈ l → w = v) → interp l p.1 p.2 = v)
    (g : SurfGrid K) (m : K) (hm : g.xarray.max? = some m)
    (nsurf revs : ℕ) (hn : 2 ≤ nsurf) (hr : 1 ≤ revs) (hy : 2 ≤ revs * g.yarray.length) :
    ∃ psi phi, makeSurfaces ode interp g nsurf revs = .ok psi ∧
      (∀ r < revs, ∀ y < g.yarray.length, phi.getD (r * g.yarray.length + y) 0 = (r : K) * g.Ly + g.yarray.getD y 0) ∧
      ∀ i, ∀ y < g.yarray.length, ∀ k, ∀ s < nsurf, ∀ r < revs,
        line (g.xcentre + (s : K) * (m / 2 / ((nsurf : K) - 1)), g.zcentre) phi (r * g.yarray.length + y) = (g.xarray.getD i 0, g.zarray.getD k 0) →
        (∀ s' < nsurf, ∀ r' < revs, line (g.xcentre + (s' : K) * (m / 2 / ((nsurf : K) - 1)), g.zcentre) phi (r' * g.yarray.length + y) =
          (g.xarray.getD i 0, g.zarray.getD k 0) → s' = s) →
        psi i y k = (s : K) / ((nsurf : K) - 1) := by
  obtain ⟨psi, phi, h1, h2, h3, h4⟩ := C177_surfaces_partial ode line ho interp g m hm nsurf revs hn hr hy
  refine ⟨psi, phi, h1, h3, ?_⟩
  intro i y hy k s hs r hr he hu
  rw [h4 i y hy k]
  refine hi _ (g.xarray.getD i 0, g.zarray.getD k 0) _ ?_ ?_
  · rw [List.mem_flatMap]
    exact ⟨r, List.mem_range.2 hr, List.mem_map.2 ⟨s, List.mem_range.2 hs, by rw [he]⟩⟩
  · intro w hw
    rw [List.mem_flatMap] at hw
    obtain ⟨r', hr', hw⟩ := hw
    obtain ⟨s', hs', hw⟩ := List.mem_map.1 hw
    have e1 := congrArg Prod.fst hw
    have e2 : (s' : K) / ((nsurf : K) - 1) = w := congrArg Prod.snd hw
    have := hu s' (List.mem_range.1 hs') r' (List.mem_range.1 hr') e1
    rw [← e2, this]

/-- Two lines that do not move: the value of the outer one. -/
example : ((makeSurfaces stillOde (fun l x z => ((l.find? fun q => q.1 = (x, z)).map Prod.snd).getD 1)
    (⟨0, 0, [0, 1, 2], [0, 1], [0], 2⟩ : SurfGrid ℚ) 2 2).toOption.map fun psi => (psi 0 1 0, psi 1 1 0)) = some (0, 1) := by decide +kernel

end Zoidberg
