import Verif.Props.Plot
import Verif.Props.Geqdsk
import Verif.Props.Examples
import Verif.Props.FieldScale
import Verif.Props.Exact3

/-!
# Exact conditions for plots, files and directions
-/

set_option linter.unusedSectionVars false

namespace Zoidberg

section
variable {K : Type} [Field K] [LinearOrder K] [IsStrictOrderedRing K]

/-- `tracePoincare` returns the slices asked for. -/
theorem tracePoincare_slices {α : Type} {follow : List K → Except Err (List α)} {T : K} {nplot : Option ℕ} {slices : Option (List K)} {revs nover : ℕ}
    {s : List K} (hs : poincareSlices T nplot slices = .ok s) {r : List (List α) × List K}
    (h : tracePoincare follow T nplot slices revs nover = .ok r) : r.2 = s := by
  unfold tracePoincare at h
  rw [hs] at h
  simp only [Except.bind] at h
  split_ifs at h
  generalize follow (overSample (poincareYs T s revs) nover) = u at h
  cases u with
  | error e => cases h
  | ok v =>
    simp only at h
    split_ifs at h
    cases h
    rfl

/-- **C171**, exactly: with a tracer that works and starting points that fit, `plot_poincare` plots if matplotlib is there, there are at most six slices,
`nover` is not zero and there are at least two planes altogether. -/
theorem C171_iff (avail : Bool) (ode : List K → List K → Except Err (List (List K))) (line : K × K → List K → ℕ → K × K) (ho : LineWise ode line)
    (x z : FArr K) (hx : x.Ok) (hz : z.Ok) (hshape : shape1 x = shape1 z) (T : K) (nplot : Option ℕ) (slices : Option (List K)) (s : List K)
    (hs : poincareSlices T nplot slices = .ok s) (revs nover : ℕ) :
    (∃ r, plotPoincare avail (poincareFollow ode x z) T nplot slices revs nover = .ok r) ↔
      avail = true ∧ s.length ≤ 6 ∧ 1 ≤ nover ∧ 2 ≤ revs * s.length := by
  have hc := C72_iff ode line ho x z hx hz hshape T nplot slices s hs revs nover
  unfold plotPoincare
  cases avail with
  | false => simp
  | true =>
    rw [if_neg (by simp), ← hc]
    cases h : tracePoincare (poincareFollow ode x z) T nplot slices revs nover with
    | error e => simp [Except.bind]
    | ok a =>
      have e := tracePoincare_slices hs h
      simp only [Except.bind]
      rw [e]
      by_cases h6 : s.length > plotColours.length
      · rw [if_pos h6]
        have : ¬ s.length ≤ 6 := by simp [plotColours] at h6; omega
        simp [this]
      · rw [if_neg h6]
        have : s.length ≤ 6 := by simp [plotColours] at h6; omega
        simp [this]
end

section
variable {K : Type} [Field K] [LinearOrder K] [IsStrictOrderedRing K] [FloorRing K]

/-- **C173**, exactly: with a tracer that works and starting points that fit, `plot_3d_field_line` plots if there is one starting point and there are at
least two positions. -/
theorem C173_iff (avail : Bool) (ode : List K → List K → Except Err (List (List K))) (line : K × K → List K → ℕ → K × K)
    (ho : LineWise ode line) (x z : FArr K) (hx : x.Ok) (hz : z.Ok) (hs : ¬ OddScalar x z)
    (hv : shape1 x = shape1 z ∨ x.data.length = 1 ∨ z.data.length = 1) (T : K) (cycles yres : ℕ) :
    (∃ l, plot3d avail ode x z T cycles yres = .ok l) ↔ avail = true ∧ 2 ≤ cycles * yres ∧ (commonShape x z).prod = 1 := by
  cases avail with
  | false => simp [plot3d]
  | true =>
    set phi := linspaceOpen (0 : K) ((cycles : K) * T) (yres * cycles) with hphi
    have hlen : phi.length = cycles * yres := by rw [hphi]; simp [linspaceOpen, Nat.mul_comm]
    by_cases h2 : 2 ≤ cycles * yres
    · obtain ⟨r, hr, hok, hsh, hdat⟩ := C68_lines ode line ho x z ⟨[phi.length], phi⟩ hx hz (by simp [FArr.Ok])
        ⟨⟨_, by omega, rfl⟩, hv⟩ hs
      have hdl : r.data.length = cycles * yres * (commonShape x z).prod * 2 := by
        have h0 : r.data.length = r.shape.prod := hok
        rw [h0, hsh, hlen]
        simp
        ring
      have key : r.data.length ≠ cycles * yres * 2 ↔ (commonShape x z).prod ≠ 1 := by
        rw [hdl, not_iff_not]
        constructor
        · intro h
          have h3 : cycles * yres * (commonShape x z).prod = cycles * yres * 1 := by omega
          exact Nat.eq_of_mul_eq_mul_left (by omega) h3
        · intro h
          rw [h, mul_one]
      unfold plot3d
      rw [if_neg (by simp)]
      simp only
      rw [← hphi, hr]
      simp only [Except.bind]
      by_cases h1 : (commonShape x z).prod = 1
      · rw [if_neg (by rw [key]; simp [h1])]
        simp [h1, h2]
      · rw [if_pos (key.2 h1)]
        simp [h1]
    · obtain ⟨m, hm⟩ := C69_invalid ode x z ⟨[phi.length], phi⟩ hx hz (by
        rintro ⟨⟨n, h3, h4⟩, -⟩
        simp only [List.cons.injEq, and_true] at h4
        omega)
      unfold plot3d
      rw [if_neg (by simp)]
      simp only
      rw [← hphi, hm]
      simp [Except.bind, h2]

/-- **C176**, exactly: with all maps, `plot_forward_map` (`step = 1`) and `plot_backward_map` (`step = -1`) plot a slice of the grid if matplotlib is
there and the grid is periodic or has the neighbouring slice. -/
theorem C176_iff (avail : Bool) (size : PolGrid K → ℕ × ℕ) (l : List (PolGrid K)) (ys : List K) (Ly : K) (per : Bool)
    (g : Grid (PolGrid K) K) (hg : Grid.init size (.many l) ys Ly per = .ok g) (pre : String) (step : ℤ)
    (maps : Dict (Cell → K)) (mR mZ xt : Cell → K) (hR : maps (pre ++ "_R") = some mR) (hZ : maps (pre ++ "_Z") = some mZ)
    (hxt : maps (pre ++ "_xt_prime") = some xt) (y : ℕ) (hy : y < ys.length) :
    (∃ p, plotMap avail pre step g maps y = .ok p) ↔ avail = true ∧ (per = true ∨ (0 ≤ (y : ℤ) + step ∧ (y : ℤ) + step < ys.length)) := by
  cases avail with
  | false => simp [plotMap]
  | true =>
    by_cases hn : per = true ∨ (0 ≤ (y : ℤ) + step ∧ (y : ℤ) + step < ys.length)
    · obtain ⟨p, pol, h, -⟩ := C176_plots_partial size l ys Ly per g hg pre step maps mR mZ xt hR hZ hxt y hy hn
      simp [h, hn]
    · have hn' := hn
      push Not at hn'
      obtain ⟨h1, h2⟩ := hn'
      have hper : per = false := by simpa using h1
      subst hper
      obtain ⟨c1, c2, c3⟩ := C21_ends size l ys Ly g hg
      obtain ⟨p, -, hp⟩ := c1 y hy
      have hnone : ∃ w, g.getPoloidalGrid ((((y : ℤ) + step : ℤ)) : K) = .ok (none, w) := by
        rcases lt_or_ge ((y : ℤ) + step) 0 with h | h
        · exact ⟨_, c2 _ h⟩
        · exact ⟨_, c3 _ (h2 h)⟩
      obtain ⟨w, hw⟩ := hnone
      unfold plotMap
      rw [if_neg (by simp), show (((y : ℤ)) : K) = ((y : ℕ) : K) by push_cast; rfl, hp]
      simp only [Except.bind]
      rw [hw]
      simpa using h2

/-- **C177**, exactly: with a tracer that works and something to follow, `make_surfaces` returns for all numbers of surfaces from two on. -/
theorem C177_iff (ode : List K → List K → Except Err (List (List K))) (line : K × K → List K → ℕ → K × K)
    (ho : LineWise ode line) (interp : List ((K × K) × K) → K → K → K) (g : SurfGrid K) (m : K) (hm : g.xarray.max? = some m)
    (nsurf revs : ℕ) (hn : 1 ≤ nsurf) (hr : 1 ≤ revs) (hy : 2 ≤ revs * g.yarray.length) :
    (∃ psi, makeSurfaces ode interp g nsurf revs = .ok psi) ↔ 2 ≤ nsurf := by
  constructor
  · rintro ⟨psi, h⟩
    by_contra hc
    have : nsurf = 1 := by omega
    subst this
    rw [C177_fails ode line ho interp g m hm revs hr hy] at h
    cases h
  · intro h
    obtain ⟨psi, phi, h1, -⟩ := C177_surfaces_partial ode line ho interp g m hm nsurf revs h hr hy
    exact ⟨psi, h1⟩

/-- **C242**, exactly: a file with consistent sizes can be read if it has at least one point of the plasma boundary. -/
theorem C242_iff (s : GSplines K) (d : GFile K) (h2 : ∀ a, ∃ f, s.two d.r d.z a = .ok f)
    (h1 : ∀ a, a.length = d.nr → ∃ f, s.one (linspaceClosed 0 1 d.nr) a = .ok f) (hf : d.fpol.length = d.nr) (hp : d.pres.length = d.nr) :
    (∃ g, d.init s = .ok g) ↔ d.bdry ≠ [] := by
  constructor
  · rintro ⟨g, hg⟩ hb
    obtain ⟨e, he⟩ := C242_no_boundary s d hb
    rw [hg] at he
    cases he
  · intro hb
    obtain ⟨g, hg, -⟩ := C242_partial s d h2 h1 hf hp hb
    exact ⟨g, hg⟩

/-- **C240**, exactly: for points at which `B` has a direction, `g B` has the same one if it is nowhere weaker than `1e-8`. -/
theorem C240_iff (f : FieldFns K) (g : K → K → K → K) (y : K) (pts : List (K × K)) (r : List (K × K)) (h : f.slopes y pts = .ok r) :
    (f.scale g).slopes y pts = f.slopes y pts ↔ ∀ p ∈ pts, 1 / 100000000 ≤ |g p.1 p.2 y * f.By p.1 p.2 y| := by
  constructor
  · intro he
    rw [h] at he
    exact (slopes_of_ok _ y pts r he).2
  · intro hb
    have hne := (slopes_of_ok f y pts r h).1
    have h' := slopes_ok (f.scale g) y pts hne hb
    rw [h', h, C240_same f g y h h']
end

/-- **C201**, exactly: among the options for curvilinear grids those with which the lines are always aligned as asked are all but "only the outer ones". -/
theorem C201_iff (o : EllipseOpts) (h1 : o.rectangular = false) (h2 : o.curvilinear = true) :
    (∀ (L : Type) (shaped : ℕ → L) (aligned : ℕ → List L), (aligned 0).length = (aligned 1).length → ∀ g : GridArg (L × L),
      ellipseGrid o (.ok (shaped 0, shaped 0)) (fun a => .ok (shaped a)) (fun r => .ok (aligned r)) (fun a b => .ok (a, b)) 0 1 0 1 = .ok g →
        ∀ y < (aligned 0).length, ∃ p : L × L, (match g with
          | .one q => some q
          | .many l => l[y]?) = some p ∧
          some p.1 = (if o.innerAligned then (aligned 0)[y]? else some (shaped 0)) ∧ some p.2 = (if o.outerAligned then (aligned 1)[y]? else some (shaped 1))) ↔
      (o.innerAligned = true ∨ o.outerAligned = false) := by
  refine ⟨fun h => ?_, fun hc L shaped aligned hl g hg y hy => by
    cases g <;> exact C201_partial o L shaped aligned h1 h2 hl hc _ hg y hy⟩
  by_contra hc
  push Not at hc
  obtain ⟨hi, ho⟩ := hc
  have hi : o.innerAligned = false := by simpa using hi
  have ho : o.outerAligned = true := by simpa using ho
  have hg : ellipseGrid o (.ok ((0 : ℕ), (0 : ℕ))) (fun a => .ok a) (fun r : ℕ => .ok [r + 10]) (fun a b => .ok (a, b)) 0 1 0 1 = .ok (.one (0, 1)) := by
    simp [ellipseGrid, h1, h2, hi, ho, Except.bind]
    rfl
  obtain ⟨p, hp, -, h4⟩ := h ℕ (fun a => a) (fun r => [r + 10]) rfl (.one (0, 1)) hg 0 (by norm_num)
  injection hp with hp
  subst hp
  rw [if_pos ho] at h4
  simp at h4

/-! Cases of these conditions. -/

/-- Six slices are plotted, seven are not; one slice in one revolution is not. -/
example : (∃ r, plotPoincare true (poincareFollow stillOde ⟨[], [(3 : ℚ)]⟩ ⟨[], [5]⟩) 7 (some 6) none 1 1 = .ok r) ∧
    ¬ ∃ r, plotPoincare true (poincareFollow stillOde ⟨[], [(3 : ℚ)]⟩ ⟨[], [5]⟩) 7 (some 7) none 1 1 = .ok r := by
  constructor
  · rw [C171_iff true stillOde _ stillOde_lineWise _ _ (by exact rfl) (by exact rfl) (by exact rfl) (7 : ℚ) (some 6) none _ rfl 1 1]
    exact ⟨rfl, by decide +kernel, by norm_num, by decide +kernel⟩
  · rw [C171_iff true stillOde _ stillOde_lineWise _ _ (by exact rfl) (by exact rfl) (by exact rfl) (7 : ℚ) (some 7) none _ rfl 1 1]
    rintro ⟨-, h, -⟩
    revert h
    decide +kernel

/-- One starting point is plotted, two are not. -/
example : (∃ l, plot3d true stillOde ⟨[], [(3 : ℚ)]⟩ ⟨[], [5]⟩ 4 2 2 = .ok l) ∧ ¬ ∃ l, plot3d true stillOde ⟨[2], [(3 : ℚ), 4]⟩ ⟨[2], [5, 6]⟩ 4 2 2 = .ok l := by
  constructor
  · rw [C173_iff true stillOde _ stillOde_lineWise _ _ (by exact rfl) (by exact rfl) (by rintro ⟨-, -, -, h⟩; revert h; simp [shape1]) (Or.inl (by exact rfl))]
    exact ⟨rfl, by norm_num, rfl⟩
  · rw [C173_iff true stillOde _ stillOde_lineWise _ _ (by exact rfl) (by exact rfl) (by rintro ⟨-, -, -, h⟩; revert h; simp [shape1]) (Or.inl (by exact rfl))]
    rintro ⟨-, -, h⟩
    revert h
    decide

/-- The last of two slices of a grid that is not periodic: its forward map is not plotted, its backward map is. -/
example (g : Grid (PolGrid ℚ) ℚ) (hg : Grid.init (fun p : PolGrid ℚ => (p.nx, p.nz)) (.many [⟨1, 2, fun _ z => z, fun _ _ => 0, fun _ => none⟩,
      ⟨1, 2, fun _ z => 5 + z, fun _ _ => 0, fun _ => none⟩]) [0, 1] 2 false = .ok g) :
    (¬ ∃ p, plotMap true "a" 1 g (fun _ => some fun _ => 0) (1 : ℕ) = .ok p) ∧ ∃ p, plotMap true "a" (-1) g (fun _ => some fun _ => 0) (1 : ℕ) = .ok p := by
  constructor
  · rw [C176_iff true _ _ _ _ _ g hg "a" 1 _ _ _ _ rfl rfl rfl 1 (by decide)]
    decide
  · rw [C176_iff true _ _ _ _ _ g hg "a" (-1) _ _ _ _ rfl rfl rfl 1 (by decide)]
    decide

example : (Grid.init (fun p : PolGrid ℚ => (p.nx, p.nz)) (.many [⟨1, 2, fun _ z => z, fun _ _ => 0, fun _ => none⟩,
      ⟨1, 2, fun _ z => 5 + z, fun _ _ => 0, fun _ => none⟩]) [0, 1] 2 false).toBool = true := by decide +kernel

/-- Half of a field of two has the same direction, a billionth of it has none. -/
example : ((slab (2 : ℚ) 1 0 1).scale fun _ _ _ => 1 / 2).slopes 0 [(1, 0)] = (slab (2 : ℚ) 1 0 1).slopes 0 [(1, 0)] ∧
    ((slab (2 : ℚ) 1 0 1).scale fun _ _ _ => 1 / 1000000000).slopes 0 [(1, 0)] ≠ (slab (2 : ℚ) 1 0 1).slopes 0 [(1, 0)] := by
  have h := slopes_ok (slab (2 : ℚ) 1 0 1) 0 [(1, 0)] (by simp) (by intro p _; simp only [slab]; norm_num [abs_of_pos])
  constructor
  · rw [C240_iff _ _ 0 _ _ h]
    intro p _
    simp only [slab]
    norm_num [abs_of_pos]
  · rw [Ne, C240_iff _ _ 0 _ _ h]
    intro hb
    have := hb (1, 0) (by simp)
    revert this
    simp only [slab]
    norm_num [abs_of_pos]

end Zoidberg
