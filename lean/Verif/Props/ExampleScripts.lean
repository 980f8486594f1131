import Verif.Model.Examples
import Verif.Props.EndToEnd
import Verif.Props.FieldCoils
import Verif.Props.GridMetric
import Verif.Props.RzCircle
import Verif.Props.TracePoincare

/-!
# Properties C220 and C221: the grids of `screwpinch` and of the scripts
-/

set_option linter.unusedSectionVars false

namespace Zoidberg

/-! ## C220 -/

open Real in
/-- **C220.** Both boundaries of the grid of `screwpinch` consist of flux surfaces of its field, and no field line moves at all in the poloidal plane: it has no shear. -/
theorem C220_lines (e : RzEnv ℝ) (hpi : e.pi = π) (ny : ℕ) (xcentre a : ℝ) (ha : a ≠ 0) (n : ℕ) (hn : 3 ≤ n)
    (f : FieldFns ℝ) (ys : List ℝ) (inner outer : RZLine ℝ) (h : pinchExample e ny xcentre a n = .ok (f, ys, inner, outer)) :
    (∀ p ∈ inner.pts, (p.1 - xcentre) ^ 2 + p.2 ^ 2 = (a / 2) ^ 2) ∧ (∀ p ∈ outer.pts, (p.1 - xcentre) ^ 2 + p.2 ^ 2 = a ^ 2) ∧
      inner.pts.length = n ∧ outer.pts.length = n ∧
      ∀ (x z : ℝ → ℝ) (y0 y1 : ℝ), FieldLineOn f (Set.Icc y0 y1) x z → ∀ y ∈ Set.Icc y0 y1, x y = x y0 ∧ z y = z y0 := by
  unfold pinchExample at h
  rw [C123_shaped, C123_shaped] at h
  cases hi : circle e cos sin xcentre (a / 2) n with
  | error err => rw [hi] at h; cases h
  | ok i =>
    cases ho : circle e cos sin xcentre a n with
    | error err => rw [hi, ho] at h; cases h
    | ok o =>
      rw [hi, ho] at h
      simp only [Except.bind, Except.map] at h
      cases h
      obtain ⟨i1, _, _, _, i2⟩ := C123_circle e hpi xcentre (a / 2) (by simpa using ha) n hn _ hi
      obtain ⟨o1, _, _, _, o2⟩ := C123_circle e hpi xcentre a ha n hn _ ho
      refine ⟨i2, o2, i1, o1, ?_⟩
      intro x z y0 y1 hl y hy
      constructor
      · refine const_on_Icc (fun t ht => ?_) y hy
        obtain ⟨_, hx, _⟩ := hl.deriv ht
        simpa [screwpinch] using hx
      · refine const_on_Icc (fun t ht => ?_) y hy
        obtain ⟨_, _, hz⟩ := hl.deriv ht
        simpa [screwpinch] using hz

open Real in
/-- **C220.** The planes of `screwpinch` are at multiples of a `ny`th of the period, the end of the period not among them, and its field is that of a toroidal field
alone: wherever the centre is. -/
theorem C220_ycoords (e : RzEnv ℝ) (ny : ℕ) (xcentre a : ℝ) (n : ℕ) (f : FieldFns ℝ) (ys : List ℝ) (inner outer : RZLine ℝ)
    (h : pinchExample e ny xcentre a n = .ok (f, ys, inner, outer)) :
    ys.length = ny ∧ (∀ j < ny, ys.getD j 0 = 2 * π * j / ny) ∧ f = ⟨fun _ _ _ => 0, fun x _ _ => 1 / x, fun _ _ _ => 0, some fun x _ _ => x⟩ := by
  unfold pinchExample at h
  cases hi : shapedLine e cos sin xcentre (a / 2) 0 0 0 n with
  | error err => rw [hi] at h; cases h
  | ok i =>
    cases ho : shapedLine e cos sin xcentre a 0 0 0 n with
    | error err => rw [hi, ho] at h; cases h
    | ok o =>
      rw [hi, ho] at h
      simp only [Except.bind, Except.map] at h
      cases h
      refine ⟨by simp [linspaceOpen], fun j hj => ?_, by simp [screwpinch]⟩
      rw [List.getD_eq_getElem _ _ (by simpa [linspaceOpen] using hj)]
      simp [linspaceOpen]
      ring

open Real in
/-- Circles can be made with splines that never fail. -/
theorem circle_ok (R0 r : ℝ) (hr : r ≠ 0) (n : ℕ) (hn : 3 ≤ n) : ∃ l, circle ⟨π, Real.sqrt, fun _ _ _ => .ok fun _ _ => 0⟩ cos sin R0 r n = .ok l := by
  have hn' : (0 : ℝ) < n := by exact_mod_cast (by omega : 0 < n)
  have hs : 0 < sin (2 * π / n) := by
    apply sin_pos_of_pos_of_lt_pi
    · have := pi_pos; positivity
    · rw [div_lt_iff₀ hn']
      have : (3 : ℝ) ≤ n := by exact_mod_cast hn
      nlinarith [pi_pos]
  have hd : (0 : ℝ) < signedArea (circlePts π cos sin R0 r n) := by
    rw [circlePts_area R0 r n (by omega)]
    positivity
  have h := C54_direction (⟨π, Real.sqrt, fun _ _ _ => .ok fun _ _ => 0⟩ : RzEnv ℝ) (circlePts π cos sin R0 r n) none none hd.ne'
  rw [if_pos hd] at h
  have hne : circlePts π cos sin R0 r n ≠ [] := by
    intro h0
    have := circlePts_length R0 r n
    rw [h0] at this
    simp at this
    omega
  unfold circle
  rw [h]
  unfold RZLine.build
  dsimp only
  rw [if_neg hne]
  exact ⟨_, rfl⟩

/-- The default arguments. -/
example : ∃ r, pinchExample ⟨Real.pi, Real.sqrt, fun _ _ _ => .ok fun _ _ => 0⟩ 16 (3 / 2) (1 / 5) 421 = .ok r := by
  obtain ⟨i, hi⟩ := circle_ok (3 / 2) (1 / 5 / 2) (by norm_num) 421 (by norm_num)
  obtain ⟨o, ho⟩ := circle_ok (3 / 2) (1 / 5) (by norm_num) 421 (by norm_num)
  unfold pinchExample
  rw [C123_shaped, C123_shaped, hi, ho]
  exact ⟨_, rfl⟩

/-- **C220.** The planes are equally spaced, and the one after the last is the first one, a period on. -/
theorem C220_planes {K : Type} [Field K] [LinearOrder K] [IsStrictOrderedRing K] [FloorRing K] {G : Type} (size : G → ℕ × ℕ) (l : List G) (T : K) (n : ℕ)
    (g : Grid G K) (hg : Grid.init size (.many l) (linspaceOpen 0 T n) T true = .ok g) (j : ℤ) :
    ∃ p, g.getPoloidalGrid (j : K) = .ok (some p, (j : K) * (T / n)) := by
  have hlen : (linspaceOpen (0 : K) T n).length = n := by simp [linspaceOpen]
  obtain ⟨_, _, _, _, _, h0⟩ := Grid.init_many hg
  rw [hlen] at h0
  have hn : (0 : ℤ) < (n : ℤ) := by exact_mod_cast h0
  have hm0 := Int.emod_nonneg j hn.ne'
  have hm1 := Int.emod_lt_of_pos j hn
  obtain ⟨r, hr⟩ := Int.eq_ofNat_of_zero_le hm0
  obtain ⟨p, _, hp⟩ := C19_periodic_lookup size l _ T g hg r (by rw [hlen]; omega) (j / n)
  refine ⟨p, ?_⟩
  have hj : j = (r : ℤ) + (j / n) * n := by
    have := Int.emod_add_mul_ediv j n
    rw [hr] at this
    linarith [this, mul_comm (n : ℤ) (j / n)]
  have hjK : (j : K) = (r : K) + ((j / n : ℤ) : K) * (n : K) := by
    have : (j : K) = (((r : ℤ) + (j / n) * n : ℤ) : K) := by rw [← hj]
    rw [this]; push_cast; ring
  rw [hlen, ← hjK] at hp
  rw [hp]
  have hrn : r < n := by omega
  have hget : (linspaceOpen (0 : K) T n).getD r 0 = r * (T / n) := by
    rw [List.getD_eq_getElem _ _ (by rw [hlen]; exact hrn)]
    simp [linspaceOpen]
  rw [hget, hjK]
  have hnK : (n : K) ≠ 0 := by exact_mod_cast h0.ne'
  congr 2
  field_simp

/-! ## C221 -/

section
variable {K : Type} [Field K] [LinearOrder K] [IsStrictOrderedRing K] [FloorRing K]

theorem scriptPlanes_length (T : K) (n : ℕ) : (scriptPlanes T n).length = n := by simp [scriptPlanes, linspaceClosed]

theorem scriptPlanes_getD (T : K) (n : ℕ) (hn : 2 ≤ n) (i : ℕ) (hi : i < n) : (scriptPlanes T n).getD i 0 = i * (T / ((n : K) - 1)) := by
  rw [List.getD_eq_getElem _ _ (by rw [scriptPlanes_length]; exact hi)]
  simp [scriptPlanes, linspaceClosed, show n ≠ 1 by omega]

/-- In a periodic grid each plane is followed by one at a larger `y`. -/
def PlanesAhead {G : Type} (g : Grid G K) : Prop :=
  ∀ (j : ℕ), j < g.ny → ∀ p q y y', g.getPoloidalGrid (j : K) = .ok (p, y) → g.getPoloidalGrid ((j : K) + 1) = .ok (q, y') → y < y'

/-- **C221 (partial).** The planes of `linspace(0, T, n, endpoint=False)`, as `screwpinch` and `rotating_ellipse` use them, are so.  Missing: the scripts, which include the end
(`C221_fails`). -/
theorem C221_open_partial {G : Type} (size : G → ℕ × ℕ) (l : List G) (T : K) (hT : 0 < T) (n : ℕ) (g : Grid G K)
    (hg : Grid.init size (.many l) (linspaceOpen 0 T n) T true = .ok g) : PlanesAhead g := by
  intro j hj p q y y' h h'
  obtain ⟨_, a, _, _, _, h0⟩ := Grid.init_many hg
  have hlen : (linspaceOpen (0 : K) T n).length = n := by simp [linspaceOpen]
  rw [hlen] at h0
  have hnK : (0 : K) < n := by exact_mod_cast h0
  obtain ⟨_, h1⟩ := C220_planes size l T n g hg j
  obtain ⟨_, h2⟩ := C220_planes size l T n g hg ((j : ℤ) + 1)
  push_cast at h1 h2
  rw [h] at h1
  rw [h'] at h2
  cases h1
  cases h2
  have : 0 < T / n := div_pos hT hnK
  linarith

/-- **C221.** In the scripts the last plane and the one after it are at the same `y`, for every period and number of slices. -/
theorem C221_coincide {G : Type} (size : G → ℕ × ℕ) (l : List G) (T : K) (n : ℕ) (hn : 2 ≤ n) (g : Grid G K)
    (hg : Grid.init size (.many l) (scriptPlanes T n) T true = .ok g) :
    ∃ first last, l[0]? = some first ∧ l[n - 1]? = some last ∧ g.getPoloidalGrid ((n - 1 : ℕ) : K) = .ok (some last, T) ∧
      g.getPoloidalGrid (((n - 1 : ℕ) : K) + 1) = .ok (some first, T) := by
  have hlen := scriptPlanes_length T n
  obtain ⟨last, a1, a2⟩ := C19_periodic_lookup size l _ T g hg (n - 1) (by omega) 0
  obtain ⟨first, b1, b2⟩ := C19_periodic_lookup size l _ T g hg 0 (by omega) 1
  rw [scriptPlanes_getD T n hn _ (by omega)] at a2 b2
  have hc : ((n - 1 : ℕ) : K) = (n : K) - 1 := by rw [Nat.cast_sub (by omega)]; simp
  have hn1 : (n : K) - 1 ≠ 0 := by
    rw [← hc]
    exact_mod_cast (by omega : n - 1 ≠ 0)
  refine ⟨first, last, b1, a1, ?_, ?_⟩
  · rw [show ((n - 1 : ℕ) : K) = ((n - 1 : ℕ) : K) + ((0 : ℤ) : K) * ((scriptPlanes T n).length : K) by simp, a2, hc]
    congr 2
    push_cast
    field_simp
    ring
  · have e : ((n - 1 : ℕ) : K) + 1 = ((0 : ℕ) : K) + ((1 : ℤ) : K) * ((scriptPlanes T n).length : K) := by
      rw [hlen, hc]; push_cast; ring
    rw [e, b2]
    congr 2
    push_cast
    ring

/-- **C221 (refutation).** No grid of the scripts has its planes in order, for any period and number of slices. -/
theorem C221_fails {G : Type} (size : G → ℕ × ℕ) (l : List G) (T : K) (n : ℕ) (hn : 2 ≤ n) (g : Grid G K)
    (hg : Grid.init size (.many l) (scriptPlanes T n) T true = .ok g) : ¬ PlanesAhead g := by
  intro h
  obtain ⟨_, _, _, _, h1, h2⟩ := C221_coincide size l T n hn g hg
  obtain ⟨_, a, _, _, _, _⟩ := Grid.init_many hg
  have hny : g.ny = n := by
    unfold Grid.ny
    rw [a, scriptPlanes_length]
  exact lt_irrefl _ (h (n - 1) (by rw [hny]; omega) _ _ _ _ h1 h2)

/-- There are such grids. -/
example : ∃ g : Grid ℕ ℚ, Grid.init (fun _ => (4, 4)) (.many [7, 8, 9]) (scriptPlanes 10 3) 10 true = .ok g ∧ ¬ PlanesAhead g := by
  have h : (Grid.init (fun _ => (4, 4)) (.many [7, 8, 9]) (scriptPlanes (10 : ℚ) 3) 10 true : Except Err (Grid ℕ ℚ)) = .ok ⟨[7, 8, 9], scriptPlanes (10 : ℚ) 3, 10, true, 4, 4⟩ := by
    unfold Grid.init
    rw [scriptPlanes_length]
    rfl
  exact ⟨_, h, C221_fails _ _ _ _ (by decide) _ h⟩

/-- **C221.** What that does to the maps: the forward map of the last plane follows no field line, it looks up the points of that plane in the first one. -/
theorem C221_maps (e : MmEnv K) (hf : FollowOk e) (φ : K → K → K → K → K × K) (hφ : PointTracer e φ) (hstart : ∀ R Z y, φ R Z y y = (R, Z))
    (size : MapPol K → ℕ × ℕ) (l : List (MapPol K)) (T : K) (n : ℕ) (hn : 2 ≤ n) (hg : Grid.init size (.many l) (scriptPlanes T n) T true = .ok e.grid)
    (mxg r nc : ℕ) (empty : JState K) (m : ODict (MapVal K)) (h : makeMaps e 1 mxg 1 r nc empty = .ok m) (pol : MapPol K) (i : Weights.Input K)
    (hi : ReadFrom e mxg 1 m pol i) :
    ∃ first last, l[0]? = some first ∧ l[n - 1]? = some last ∧ ∀ x z, (i.xs true (x, n - 1, z) 0, i.zs true (x, n - 1, z) 0) =
      if e.outside (last.R x z) T (last.Z x z) then (-1, -1) else first.findIndex last.R last.Z x z := by
  obtain ⟨first, last, h0, h1, h2, h3⟩ := C221_coincide size l T n hn e.grid hg
  obtain ⟨_, a, _, _, _, _⟩ := Grid.init_many hg
  have hny : e.grid.ny = n := by
    unfold Grid.ny
    rw [a, scriptPlanes_length]
  refine ⟨first, last, h0, h1, ?_⟩
  obtain ⟨pol', y, t, yt, g1, g2, g3⟩ := C207_positions e hf φ hφ mxg r nc empty m h pol i hi true (n - 1) (by rw [hny]; omega)
  rw [h2] at g1
  simp only [stepOf, if_true, Int.cast_one] at g2
  rw [h3] at g2
  cases g1
  cases g2
  intro x z
  rw [g3 x z]
  simp only [hstart]

/-- The slab of C208 with two planes as in the scripts. -/
def twoPlanes : MmEnv ℚ :=
  { slabMm (1 / 2) with grid := ⟨[slabPol.mapPol, slabPol.mapPol], scriptPlanes 1 2, 1, true, 1, 4⟩ }

theorem twoPlanes_init : Grid.init (fun _ => (1, 4)) (.many [slabPol.mapPol, slabPol.mapPol]) (scriptPlanes 1 2) 1 true = .ok twoPlanes.grid := by
  unfold Grid.init
  rw [scriptPlanes_length]
  rfl

/-- Although the field is inclined, the points of the last plane are mapped to themselves. -/
example : ∃ m i, makeMaps twoPlanes 1 0 1 1 1 ⟨fun _ => 0, fun _ _ => 0, fun _ _ => 0⟩ = .ok m ∧ ReadFrom twoPlanes 0 1 m slabPol.mapPol i ∧
    (i.xs true (0, 1, 2) 0, i.zs true (0, 1, 2) 0) = (0, 2) := by
  have hf : FollowOk twoPlanes := by intro n m R Z ys; simp [twoPlanes, slabMm]
  have hgo : GridOk twoPlanes := by
    refine ⟨by show _ = (scriptPlanes (1 : ℚ) 2).length; rw [scriptPlanes_length]; rfl, by show 0 < (scriptPlanes (1 : ℚ) 2).length; rw [scriptPlanes_length]; decide, ?_⟩
    intro p hp
    have : p = slabPol.mapPol := by simpa [twoPlanes] using hp
    subst this
    exact ⟨fun _ _ => 1, fun _ _ => 1, fun _ _ => 0, rfl, rfl, rfl⟩
  have hgs : GaussOk twoPlanes 1 := fun h => absurd h (by norm_num)
  have hpos : ∀ p ∈ twoPlanes.gauss 1, 0 < p.2 := by
    intro p hp
    obtain ⟨i, _, rfl⟩ := List.mem_map.1 hp
    norm_num
  obtain ⟨m, h⟩ := makeMaps_succeeds twoPlanes hf hgo 1 0 1 1 1 le_rfl hgs le_rfl le_rfl ⟨fun _ => 0, fun _ _ => 0, fun _ _ => 0⟩
  obtain ⟨f, i, hi⟩ := C205_read _ hf hgo 1 0 1 1 1 le_rfl le_rfl hgs rfl hpos _ m h
  obtain ⟨p0, q1, q2⟩ := C19_periodic_lookup _ _ _ _ _ twoPlanes_init 0 (by rw [scriptPlanes_length]; decide) 0
  have e0 : p0 = slabPol.mapPol := by simpa using q1.symm
  subst e0
  rw [Int.cast_zero, zero_mul, add_zero] at q2
  have e1 := hi.first_eq q2
  subst e1
  obtain ⟨a, b, ha, hb, hv⟩ := C221_maps twoPlanes hf _ (fun n m R Z y ys => rfl : PointTracer twoPlanes (slabLine 1 (1 / 2) 0 0))
    (fun R Z y => by simp [slabLine]) _ _ 1 2 le_rfl twoPlanes_init 0 1 1 _ m h _ i hi
  refine ⟨m, i, h, hi, ?_⟩
  have ea : a = slabPol.mapPol := by simpa using ha.symm
  have eb : b = slabPol.mapPol := by simpa using hb.symm
  subst ea eb
  have hv2 := hv 0 2
  rw [show (2 - 1 : ℕ) = 1 by rfl] at hv2
  rw [hv2]
  decide +kernel

/-- **C221.** And to the lines: the points found for the last slice are those of the first slice, one turn later. -/
theorem C221_lines {α : Type} (follow : List K → Except Err (List α)) (pos : K → K → α)
    (hf : ∀ ys, 2 ≤ ys.length → follow ys = .ok (ys.map (pos (ys.getD 0 0)))) (T : K) (hT : 0 ≤ T) (n revs nover : ℕ) (hn : 2 ≤ n) (hr : 1 ≤ revs) (ho : 1 ≤ nover) :
    ∃ res s, tracePoincare follow T none (some (scriptPlanes T n)) revs nover = .ok (res, s) ∧ s = scriptPlanes T n ∧
      ∀ r, r + 1 < revs → (res[r]?.bind fun q => q[n - 1]?) = (res[r + 1]?.bind fun q => q[0]?) := by
  have hc : ((n - 1 : ℕ) : K) = (n : K) - 1 := by rw [Nat.cast_sub (by omega)]; simp
  have hn1 : (0 : K) < (n : K) - 1 := by
    rw [← hc]
    exact_mod_cast (by omega : 0 < n - 1)
  have hd : 0 ≤ T / ((n : K) - 1) := div_nonneg hT hn1.le
  have hmem : ∀ a ∈ scriptPlanes T n, 0 ≤ a ∧ a ≤ T := by
    intro a ha
    obtain ⟨k, hk, rfl⟩ := List.mem_map.1 ha
    have hk' : k < n := List.mem_range.1 hk
    rw [if_neg (by omega : n ≠ 1)]
    have hkc : (k : K) ≤ (n : K) - 1 := by rw [← hc]; exact_mod_cast (by omega : k ≤ n - 1)
    refine ⟨by rw [sub_zero, zero_add]; positivity, ?_⟩
    rw [sub_zero, zero_add]
    calc (k : K) * (T / ((n : K) - 1)) ≤ ((n : K) - 1) * (T / ((n : K) - 1)) := mul_le_mul_of_nonneg_right hkc hd
      _ = T := by field_simp
  have hsl : poincareSlices T none (some (scriptPlanes T n)) = .ok (scriptPlanes T n) := by
    unfold poincareSlices
    dsimp only
    rw [if_neg (by intro h0; have := scriptPlanes_length T n; rw [h0] at this; simp at this; omega), if_neg, List.Pairwise.insertionSort_eq]
    · unfold scriptPlanes linspaceClosed
      rw [List.pairwise_map]
      refine List.Pairwise.imp ?_ List.pairwise_lt_range
      intro a b hab
      rw [if_neg (by omega : n ≠ 1), if_neg (by omega : n ≠ 1), sub_zero, zero_add, zero_add]
      exact mul_le_mul_of_nonneg_right (by exact_mod_cast hab.le) hd
    · simp only [Bool.or_eq_true, List.any_eq_true, decide_eq_true_eq, not_or, not_exists, not_and, not_lt]
      exact ⟨fun a ha => (hmem a ha).1, fun a ha => (hmem a ha).2⟩
  have hlen := scriptPlanes_length T n
  obtain ⟨res, h1, _, _, _, h2⟩ := C72_positions_partial follow pos hf T none (some (scriptPlanes T n)) revs nover hr ho _ hsl
    (by rw [hlen]; exact le_trans hn (Nat.le_mul_of_pos_left _ hr))
  refine ⟨res, _, h1, rfl, ?_⟩
  intro r hr'
  rw [h2 r (by omega) (n - 1) (by omega), h2 (r + 1) hr' 0 (by omega), scriptPlanes_getD T n hn _ (by omega), scriptPlanes_getD T n hn _ (by omega)]
  congr 2
  rw [hc]
  push_cast
  field_simp
  ring

/-- Positions given by the angle. -/
example : ∃ res s, tracePoincare (fun ys : List ℚ => .ok ys) 10 none (some (scriptPlanes 10 3)) 2 1 = .ok (res, s) ∧ s = scriptPlanes 10 3 ∧
    ∀ r, r + 1 < 2 → (res[r]?.bind fun q => q[2]?) = (res[r + 1]?.bind fun q => q[0]?) :=
  C221_lines (fun ys : List ℚ => .ok ys) (fun _ y => y) (fun ys _ => by simp) 10 (by norm_num) 3 2 1 (by decide) (by decide) (by decide)

/-- **C221.** The spacings `dy` of the grid add up to more than the period. -/
theorem C221_total (size : PolGrid K → ℕ × ℕ) (l : List (PolGrid K)) (T : K) (hT : 0 < T) (n : ℕ) (hn : 2 ≤ n) (g : Grid (PolGrid K) K)
    (hg : Grid.init size (.many l) (scriptPlanes T n) T true = .ok g) (m : Metric K) (hm : g.metric none = .ok m) :
    ∃ d : K, (∀ i < n, DyIs g i d) ∧ T < n * d := by
  have hc : ((n - 1 : ℕ) : K) = (n : K) - 1 := by rw [Nat.cast_sub (by omega)]; simp
  have hn1 : (0 : K) < (n : K) - 1 := by
    rw [← hc]
    exact_mod_cast (by omega : 0 < n - 1)
  have hlen := scriptPlanes_length T n
  refine ⟨T / ((n : K) - 1), fun i hi => ?_, ?_⟩
  · refine C24_uniform size l _ T true g hg m hm 0 _ (by rw [hlen]; exact hn) (fun k hk => ?_) i (by rw [hlen]; exact hi)
    rw [hlen] at hk
    rw [scriptPlanes_getD T n hn k hk, zero_add]
  · rw [mul_div_assoc', lt_div_iff₀ hn1]
    nlinarith

end

end Zoidberg
