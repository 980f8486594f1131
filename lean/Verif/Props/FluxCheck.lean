import Verif.Props.ParMetric
import Verif.Props.FluxTube
import Mathlib.Tactic.FieldSimp
import Mathlib.Tactic.LinearCombination

/-!
# C264: the test of flux conservation in `MapWriter`
-/

set_option linter.unusedSectionVars false

namespace Zoidberg

section
variable {K : Type} [Field K] [LinearOrder K] [IsStrictOrderedRing K] [FloorRing K]

theorem foldl_max_lt (l : List K) : ∀ a t : K, t < l.foldl max a ↔ t < a ∨ ∃ b ∈ l, t < b := by
  induction l with
  | nil => intro a t; simp
  | cons c l ih =>
    intro a t
    rw [List.foldl_cons, ih, lt_max_iff, or_assoc]
    simp

theorem npMax_lt (l : List K) (hl : l ≠ []) (t : K) : t < npMax l ↔ ∃ b ∈ l, t < b := by
  cases l with
  | nil => exact absurd rfl hl
  | cons a l =>
    unfold npMax
    rw [List.tail_cons, List.headD_cons, foldl_max_lt]
    simp

/-- **C264.** What the test prints: the numbers are printed exactly if there are more than four points in `x` and the quotient differs from 1 by more than `1e-6` in some cell,
not counting the outermost two in `x`. -/
theorem C264_print (nx ny nz : ℕ) (hy : 0 < ny) (hz : 0 < nz) (bjg par : Cell → K) :
    (fluxCheck nx ny nz bjg par).isSome ↔ ∃ x y z, 2 ≤ x ∧ x + 2 < nx ∧ y < ny ∧ z < nz ∧ 1 / 10 ^ 6 < |par (x, y, z) / bjg (x, y, z) - 1| := by
  unfold fluxCheck
  by_cases hx : 4 < nx
  · rw [if_pos hx]
    dsimp only
    have hlt : ∀ y (t : K), t < fluxMax nx nz bjg par y ↔ ∃ x z, 2 ≤ x ∧ x + 2 < nx ∧ z < nz ∧ t < |par (x, y, z) / bjg (x, y, z) - 1| := by
      intro y t
      unfold fluxMax
      rw [npMax_lt]
      · constructor
        · rintro ⟨b, hb, h⟩
          obtain ⟨x, hx', hb⟩ := List.mem_flatMap.1 hb
          obtain ⟨z, hz', rfl⟩ := List.mem_map.1 hb
          rw [List.mem_range] at hx' hz'
          exact ⟨x + 2, z, by omega, by omega, hz', h⟩
        · rintro ⟨x, z, h1, h2, h3, h⟩
          refine ⟨_, List.mem_flatMap.2 ⟨x - 2, List.mem_range.2 (by omega), List.mem_map.2 ⟨z, List.mem_range.2 h3, rfl⟩⟩, ?_⟩
          rwa [Nat.sub_add_cancel h1]
      · intro h
        rw [List.flatMap_eq_nil_iff] at h
        have := h 0 (List.mem_range.2 (by omega))
        rw [List.map_eq_nil_iff, List.range_eq_nil] at this
        omega
    have hm : 1 / 10 ^ 6 < npMax ((List.range ny).map (fluxMax nx nz bjg par)) ↔
        ∃ x y z, 2 ≤ x ∧ x + 2 < nx ∧ y < ny ∧ z < nz ∧ 1 / 10 ^ 6 < |par (x, y, z) / bjg (x, y, z) - 1| := by
      rw [npMax_lt _ (by simp; omega)]
      constructor
      · rintro ⟨b, hb, h⟩
        obtain ⟨y, hy', rfl⟩ := List.mem_map.1 hb
        obtain ⟨x, z, h1, h2, h3, h4⟩ := (hlt y _).1 h
        exact ⟨x, y, z, h1, h2, List.mem_range.1 hy', h3, h4⟩
      · rintro ⟨x, y, z, h1, h2, hy', h3, h4⟩
        exact ⟨_, List.mem_map.2 ⟨y, List.mem_range.2 hy', rfl⟩, (hlt y _).2 ⟨x, z, h1, h2, h3, h4⟩⟩
    rw [← hm]
    split_ifs with h
    · simp only [Option.isSome_some, h]
    · simp only [Option.isSome_none, h, Bool.false_eq_true]
  · rw [if_neg hx]
    simp only [Option.isSome_none, Bool.false_eq_true, false_iff]
    rintro ⟨x, y, z, h1, h2, -⟩
    omega

/-! ### The quantity that is compared -/

/-- The area of a cell of a poloidal grid, for spacings 1. -/
def cellArea (sqrt : K → K) (p : PolGrid K) (x z : ℕ) : K :=
  sqrt (((p.metric "g_xx").getD fun _ _ => 0) x z * ((p.metric "g_zz").getD fun _ _ => 0) x z - ((p.metric "g_xz").getD fun _ _ => 0) x z ^ 2)

/-- `BJg` is the field times the area of the cells in the plane. -/
theorem bjg_value (sqrt : K → K) (g : Grid (PolGrid K) K) (l : List (PolGrid K)) (ys : List K) (hg : MetricGrid g l ys) (f : MagField K) (m : Metric K) (b : Cell → K)
    (h : getMetric sqrt g f none = .ok (m, b)) (x y z : ℕ) (p : PolGrid K) (hp : l[y]? = some p) :
    b (x, y, z) = f.Bmag (p.R x z) (p.Z x z) (ys.getD y 0) * cellArea sqrt p x z := by
  obtain ⟨⟨size, Ly, per, hi⟩, hc, hJ⟩ := hg
  obtain ⟨h1, h2, _, _, h3, _⟩ := Grid.init_many hi
  obtain ⟨M, hM⟩ := (C23_succeeds_iff size l ys Ly per g hi hc).2 hJ
  obtain ⟨a, bb, c⟩ := C23_components size l ys Ly per g hi hc M hM
  obtain ⟨xx, hxx, vxx⟩ := a "g_xx" (by simp)
  obtain ⟨zz, hzz, vzz⟩ := a "g_zz" (by simp)
  obtain ⟨xz, hxz, vxz⟩ := a "g_xz" (by simp)
  obtain ⟨r, e, -⟩ := getMetric_eq sqrt g (by rw [h1, h2]; exact h3) f none M hM _ _ xx zz xz c bb hxx hzz hxz
  rw [h] at e
  cases e
  have hy : y < l.length := (List.getElem?_eq_some_iff.1 hp).1
  obtain ⟨p1, v1, q1, q2, q3⟩ := vxx y hy
  obtain ⟨p2, v2, r1, r2, r3⟩ := vzz y hy
  obtain ⟨p3, v3, s1, s2, s3⟩ := vxz y hy
  rw [hp] at q1 r1 s1
  cases q1
  cases r1
  cases s1
  dsimp only
  rw [if_pos (by rw [h2, ← h3]; exact hy), q3, r3, s3]
  unfold cellArea evalAt
  rw [q2, r2, s2, h1, h2]
  dsimp only
  rw [hp]
  rfl

/-- The magnetic flux through a cell in the plane, for spacings 1: the component across the plane times the area. -/
def cellFlux (sqrt : K → K) (f : MagField K) (p : PolGrid K) (y : K) (x z : ℕ) : K := f.Byfunc (p.R x z) (p.Z x z) y * cellArea sqrt p x z

/-- The strength of the field over the component across the plane. -/
def pitch (f : MagField K) (p : PolGrid K) (y : K) (x z : ℕ) : K := f.Bmag (p.R x z) (p.Z x z) y / f.Byfunc (p.R x z) (p.Z x z) y

/-- What the statement says: the test prints exactly if the flux through a cell of the slice differs from that through the cell of the grid. -/
def FluxTestRight (sqrt : K → K) (f : MagField K) (nx nz : ℕ) (l l' : List (PolGrid K)) (ys ys' : List K) (bjg par : Cell → K) : Prop :=
  (fluxCheck nx l.length nz bjg par).isSome ↔ ∃ x y z p p', 2 ≤ x ∧ x + 2 < nx ∧ z < nz ∧ l[y]? = some p ∧ l'[y]? = some p' ∧
    1 / 10 ^ 6 < |cellFlux sqrt f p' (ys'.getD y 0) x z / cellFlux sqrt f p (ys.getD y 0) x z - 1|

/-- The two grids, their `BJg`, and a field that has a component across the planes at all points. -/
structure FluxData (sqrt : K → K) (f : MagField K) (l l' : List (PolGrid K)) (ys ys' : List K) (bjg par : Cell → K) : Prop where
  grid : ∃ g m, MetricGrid g l ys ∧ getMetric sqrt g f none = .ok (m, bjg)
  slice : ∃ g m, MetricGrid g l' ys' ∧ getMetric sqrt g f none = .ok (m, par)
  len : l.length = l'.length
  ne : l ≠ []
  by0 : ∀ (y : ℕ) (p : PolGrid K) (x z : ℕ), l[y]? = some p → f.Byfunc (p.R x z) (p.Z x z) (ys.getD y 0) ≠ 0 ∧ f.Bmag (p.R x z) (p.Z x z) (ys.getD y 0) ≠ 0 ∧ cellArea sqrt p x z ≠ 0
  by1 : ∀ (y : ℕ) (p : PolGrid K) (x z : ℕ), l'[y]? = some p → f.Byfunc (p.R x z) (p.Z x z) (ys'.getD y 0) ≠ 0

/-- **C264.** The number that is compared with 1 is the quotient of the fluxes times that of the pitches. -/
theorem C264_quotient {sqrt : K → K} {f : MagField K} {l l' : List (PolGrid K)} {ys ys' : List K} {bjg par : Cell → K} (h : FluxData sqrt f l l' ys ys' bjg par) (x y z : ℕ)
    (p p' : PolGrid K) (hp : l[y]? = some p) (hp' : l'[y]? = some p') :
    par (x, y, z) / bjg (x, y, z) =
      cellFlux sqrt f p' (ys'.getD y 0) x z / cellFlux sqrt f p (ys.getD y 0) x z * (pitch f p' (ys'.getD y 0) x z / pitch f p (ys.getD y 0) x z) := by
  obtain ⟨g, m, a1, a2⟩ := h.grid
  obtain ⟨g', m', b1, b2⟩ := h.slice
  rw [bjg_value sqrt g l ys a1 f m bjg a2 x y z p hp, bjg_value sqrt g' l' ys' b1 f m' par b2 x y z p' hp']
  obtain ⟨h1, h2, h3⟩ := h.by0 y p x z hp
  have h4 := h.by1 y p' x z hp'
  unfold cellFlux pitch
  generalize f.Byfunc (p.R x z) (p.Z x z) (ys.getD y 0) = a at *
  generalize f.Byfunc (p'.R x z) (p'.Z x z) (ys'.getD y 0) = a' at *
  generalize f.Bmag (p.R x z) (p.Z x z) (ys.getD y 0) = b at *
  generalize cellArea sqrt p x z = A at *
  field_simp

/-- **C264.** Exactly when the test prints. -/
theorem C264_iff {sqrt : K → K} {f : MagField K} {l l' : List (PolGrid K)} {ys ys' : List K} {bjg par : Cell → K} (h : FluxData sqrt f l l' ys ys' bjg par) (nx nz : ℕ)
    (hz : 0 < nz) :
    (fluxCheck nx l.length nz bjg par).isSome ↔ ∃ x y z p p', 2 ≤ x ∧ x + 2 < nx ∧ z < nz ∧ l[y]? = some p ∧ l'[y]? = some p' ∧
      1 / 10 ^ 6 < |cellFlux sqrt f p' (ys'.getD y 0) x z / cellFlux sqrt f p (ys.getD y 0) x z * (pitch f p' (ys'.getD y 0) x z / pitch f p (ys.getD y 0) x z) - 1| := by
  rw [C264_print nx l.length nz (List.length_pos_iff.2 h.ne) hz]
  constructor
  · rintro ⟨x, y, z, h1, h2, h3, h4, h5⟩
    have hp : l[y]? = some l[y] := List.getElem?_eq_getElem h3
    have hp' : l'[y]? = some (l'[y]'(by rw [← h.len]; exact h3)) := List.getElem?_eq_getElem _
    refine ⟨x, y, z, _, _, h1, h2, h4, hp, hp', ?_⟩
    rwa [← C264_quotient h x y z _ _ hp hp']
  · rintro ⟨x, y, z, p, p', h1, h2, h3, hp, hp', h4⟩
    refine ⟨x, y, z, h1, h2, (List.getElem?_eq_some_iff.1 hp).1, h3, ?_⟩
    rwa [C264_quotient h x y z p p' hp hp']

/-- **C264 (partial).** The test is right if the pitch is the same at both ends of every line.  Missing: all other fields (`C264_conserved`, `C264_fails`). -/
theorem C264_partial {sqrt : K → K} {f : MagField K} {l l' : List (PolGrid K)} {ys ys' : List K} {bjg par : Cell → K} (h : FluxData sqrt f l l' ys ys' bjg par) (nx nz : ℕ)
    (hz : 0 < nz) (hpitch : ∀ (y : ℕ) (p p' : PolGrid K) (x z : ℕ), l[y]? = some p → l'[y]? = some p' → pitch f p' (ys'.getD y 0) x z = pitch f p (ys.getD y 0) x z) :
    FluxTestRight sqrt f nx nz l l' ys ys' bjg par := by
  unfold FluxTestRight
  rw [C264_iff h nx nz hz]
  have hne : ∀ (y : ℕ) (p : PolGrid K) (x z : ℕ), l[y]? = some p → pitch f p (ys.getD y 0) x z ≠ 0 := fun y p x z hp =>
    div_ne_zero (h.by0 y p x z hp).2.1 (h.by0 y p x z hp).1
  constructor
  · rintro ⟨x, y, z, p, p', h1, h2, h3, hp, hp', h4⟩
    refine ⟨x, y, z, p, p', h1, h2, h3, hp, hp', ?_⟩
    rwa [hpitch y p p' x z hp hp', div_self (hne y p x z hp), mul_one] at h4
  · rintro ⟨x, y, z, p, p', h1, h2, h3, hp, hp', h4⟩
    refine ⟨x, y, z, p, p', h1, h2, h3, hp, hp', ?_⟩
    rwa [hpitch y p p' x z hp hp', div_self (hne y p x z hp), mul_one]

/-- **C264 (refutation).** With maps and cells for which the flux is conserved exactly the test prints where the pitch changes. -/
theorem C264_conserved {sqrt : K → K} {f : MagField K} {l l' : List (PolGrid K)} {ys ys' : List K} {bjg par : Cell → K} (h : FluxData sqrt f l l' ys ys' bjg par) (nx nz : ℕ)
    (hz : 0 < nz) (hflux : ∀ (y : ℕ) (p p' : PolGrid K) (x z : ℕ), l[y]? = some p → l'[y]? = some p' → cellFlux sqrt f p' (ys'.getD y 0) x z = cellFlux sqrt f p (ys.getD y 0) x z) :
    (fluxCheck nx l.length nz bjg par).isSome ↔ ∃ x y z p p', 2 ≤ x ∧ x + 2 < nx ∧ z < nz ∧ l[y]? = some p ∧ l'[y]? = some p' ∧
      1 / 10 ^ 6 < |pitch f p' (ys'.getD y 0) x z / pitch f p (ys.getD y 0) x z - 1| := by
  rw [C264_iff h nx nz hz]
  have hne : ∀ (y : ℕ) (p : PolGrid K) (x z : ℕ), l[y]? = some p → cellFlux sqrt f p (ys.getD y 0) x z ≠ 0 := fun y p x z hp =>
    mul_ne_zero (h.by0 y p x z hp).1 (h.by0 y p x z hp).2.2
  constructor
  · rintro ⟨x, y, z, p, p', h1, h2, h3, hp, hp', h4⟩
    refine ⟨x, y, z, p, p', h1, h2, h3, hp, hp', ?_⟩
    rwa [hflux y p p' x z hp hp', div_self (hne y p x z hp), one_mul] at h4
  · rintro ⟨x, y, z, p, p', h1, h2, h3, hp, hp', h4⟩
    refine ⟨x, y, z, p, p', h1, h2, h3, hp, hp', ?_⟩
    rwa [hflux y p p' x z hp hp', div_self (hne y p x z hp), one_mul]

/-- **C264.** What is printed for a slice, from the maps: the planes have the positions in the maps and the `y` of the slice. -/
theorem C264_slice (sqrt : K → K) (mkPol : (ℕ → ℕ → K) → (ℕ → ℕ → K) → PolGrid K) (hc : ∀ R Z, (mkPol R Z).Complete) (hJ : (∀ R Z, (mkPol R Z).ProvidesJ) ∨ (∀ R Z, ¬ (mkPol R Z).ProvidesJ))
    (f : MagField K) (ypar : List K) (Ly : K) (yperiodic : Bool) (maps : ODict (Cell → K)) (repr : K → String) (nx nz : ℕ) (bjg : Cell → K) (offset : ℤ) (r : Option (List K))
    (h : sliceFlux sqrt mkPol f ypar Ly yperiodic maps repr nx nz bjg offset = .ok r) :
    ∃ g m par pypar R Z, parCoords ypar Ly yperiodic offset = .ok pypar ∧ MetricGrid g ((List.range ypar.length).map fun i => mkPol (fun x z => R (x, i, z)) fun x z => Z (x, i, z)) pypar ∧
      getMetric sqrt g f none = .ok (m, par) ∧ r = fluxCheck nx ypar.length nz bjg par ∧
      (∃ n, parallelSliceFieldName repr "R" (.int offset) = .ok n ∧ maps.get? n = some R) ∧ ∃ n, parallelSliceFieldName repr "Z" (.int offset) = .ok n ∧ maps.get? n = some Z := by
  unfold sliceFlux at h
  cases hg : parGrid mkPol ypar Ly yperiodic maps repr offset with
  | error e => rw [hg] at h; cases h
  | ok g =>
    rw [hg] at h
    simp only [Except.bind] at h
    cases hm : getMetric sqrt g f none with
    | error e => rw [hm] at h; cases h
    | ok r' =>
      rw [hm] at h
      simp only [Except.map] at h
      cases h
      unfold parGrid at hg
      cases h1 : parCoords ypar Ly yperiodic offset with
      | error e => rw [h1] at hg; cases hg
      | ok pypar =>
        cases h2 : parallelSliceFieldName repr "R" (.int offset) with
        | error e => rw [h1, h2] at hg; cases hg
        | ok nR =>
          cases h3 : maps.getE nR with
          | error e => rw [h1, h2] at hg; simp only [ok_bind] at hg; rw [h3] at hg; cases hg
          | ok R =>
            cases h4 : parallelSliceFieldName repr "Z" (.int offset) with
            | error e => rw [h1, h2, h4] at hg; simp only [ok_bind] at hg; rw [h3] at hg; cases hg
            | ok nZ =>
              cases h5 : maps.getE nZ with
              | error e => rw [h1, h2, h4] at hg; simp only [ok_bind] at hg; rw [h3] at hg; simp only [ok_bind] at hg; rw [h5] at hg; cases hg
              | ok Z =>
                rw [h1, h2, h4] at hg
                simp only [ok_bind] at hg
                rw [h3] at hg
                simp only [ok_bind] at hg
                rw [h5] at hg
                simp only [ok_bind] at hg
                refine ⟨g, r'.1, r'.2, pypar, R, Z, rfl, ⟨⟨_, _, _, hg⟩, ?_, ?_⟩, hm, rfl, ⟨nR, rfl, getE_ok h3⟩, nZ, rfl, getE_ok h5⟩
                · intro q hq
                  obtain ⟨i, _, rfl⟩ := List.mem_map.1 hq
                  exact hc _ _
                · rcases hJ with hJ | hJ
                  · left
                    intro q hq
                    obtain ⟨i, _, rfl⟩ := List.mem_map.1 hq
                    exact hJ _ _
                  · right
                    intro q hq
                    obtain ⟨i, _, rfl⟩ := List.mem_map.1 hq
                    exact hJ _ _

end

/-! ### Exact lines -/

open Real Set

section
variable {f : FieldFns ℝ} {U : Set (ℝ × ℝ)} {S : Set ℝ} {y : ℝ} {Φ : ℝ × ℝ → ℝ → ℝ × ℝ}

/-- **C264.** Along the lines of a field the component across the planes times the area of a tube is constant exactly if the field has no sources; the strength of the field times
the area changes with the pitch. -/
theorem C264_lines (h : LineMap f U S y Φ) (ha : OffAxis U S Φ) :
    ((∀ p ∈ U, ∀ s ∈ S, f.By (Φ p s).1 (Φ p s).2 s * spread Φ p s = f.By p.1 p.2 y) ↔ SourceFree f U S Φ) ∧
    (SourceFree f U S Φ → ∀ (Bm : ℝ → ℝ → ℝ → ℝ), ∀ p ∈ U, ∀ s ∈ S, Bm (Φ p s).1 (Φ p s).2 s * spread Φ p s / Bm p.1 p.2 y =
      Bm (Φ p s).1 (Φ p s).2 s / f.By (Φ p s).1 (Φ p s).2 s / (Bm p.1 p.2 y / f.By p.1 p.2 y)) := by
  constructor
  · rw [← C262_iff h ha]
    refine forall₂_congr fun p hp => forall₂_congr fun s hs => ?_
    rw [eq_div_iff (h.eqs hp hs).1, mul_comm]
  · intro hd Bm p hp s hs
    rw [C262_spread h ha hd p hp s hs]
    have h1 := (h.eqs hp hs).1
    have h2 : f.By p.1 p.2 y ≠ 0 := by
      have := (h.eqs hp h.mem).1
      rwa [h.start p hp] at this
    by_cases h3 : Bm p.1 p.2 y = 0
    · rw [h3]
      simp
    · field_simp

end

/-! ### A field with lines that swing up and down -/

/-- A vertical component that vanishes in the planes with even `y`. -/
noncomputable def swing : FieldFns ℝ := ⟨fun _ _ _ => 0, fun _ _ _ => 4, fun _ _ s => 3 * sin (π * s / 2) ^ 2, some fun x _ _ => x⟩

noncomputable def swingMap (p : ℝ × ℝ) (s : ℝ) : ℝ × ℝ := (p.1, p.2 + p.1 * (3 / 8 * (s - sin (π * s) / π)))

theorem swing_lineMap : LineMap swing {p | 0 < p.1} univ 0 swingMap where
  openU := isOpen_lt continuous_const continuous_fst
  openS := isOpen_univ
  conn := ordConnected_univ
  mem := mem_univ _
  smooth := by
    apply ContDiff.contDiffOn
    unfold swingMap
    refine ContDiff.prodMk contDiff_fst.fst (contDiff_fst.snd.add (contDiff_fst.fst.mul (contDiff_const.mul (contDiff_snd.sub (ContDiff.div_const ?_ _)))))
    exact contDiff_sin.comp (contDiff_const.mul contDiff_snd)
  start := by
    intro p _
    unfold swingMap
    simp
  line := by
    intro p hp s _
    refine ⟨_, _, (direction_one _ _ _ _ _ _).2 ⟨?_, rfl, rfl⟩, ?_, ?_⟩
    · change 1 / 100000000 ≤ |(4 : ℝ)|
      norm_num
    · simp only [swingMap, swing, mul_zero, zero_div]
      exact hasDerivAt_const _ _
    · have h0 : HasDerivAt (fun t : ℝ => π * t) π s := by simpa using (hasDerivAt_id s).const_mul π
      have h1 := ((((hasDerivAt_id s).sub (((hasDerivAt_sin (π * s)).comp s h0).div_const π)).const_mul (3 / 8)).const_mul p.1).const_add p.2
      refine HasDerivAt.congr_deriv (f := fun s => (swingMap p s).2) h1 ?_
      have hc : cos (π * s) = 1 - 2 * sin (π * s / 2) ^ 2 := by
        rw [show π * s = 2 * (π * s / 2) by ring, cos_two_mul, show 2 * (π * s / 2) / 2 = π * s / 2 by ring, cos_sq']
        ring
      have := pi_pos.ne'
      simp only [swingMap, swing, FieldFns.Rmaj]
      rw [hc]
      field_simp
      ring
  cyl := rfl
  dBx := fun p _ s _ => differentiableAt_const _
  dBy := fun p _ s _ => differentiableAt_const _
  dBz := by
    intro p _ s _
    simp only [swing]
    have h1 : DifferentiableAt ℝ (fun r : (ℝ × ℝ) × ℝ => π * r.2 / 2) (swingMap p s, s) := by fun_prop
    exact ((h1.sin).pow 2).const_mul 3

theorem swing_free : SourceFree swing {p | 0 < p.1} univ swingMap := by
  intro p hp s _
  unfold divCyl
  simp [swing]

/-- What `get_metric` uses of it. -/
noncomputable def swingField : MagField ℝ :=
  ⟨swing.R, fun x z y => √(swing.Bx x z y ^ 2 + swing.By x z y ^ 2 + swing.Bz x z y ^ 2), fun _ _ _ => 0, swing.By, []⟩

/-- Squares, shifted upwards in proportion to `R`, with their metric. -/
noncomputable def shearedPol (c : ℝ) : PolGrid ℝ :=
  ⟨5, 1, fun x _ => 1 + x, fun x z => z + (1 + x) * c, fun n => if n = "J" then none else if n = "g_xx" ∨ n = "gzz" then some fun _ _ => 1 + c ^ 2
    else if n = "g_xz" then some fun _ _ => c else if n = "gxz" then some fun _ _ => -c else some fun _ _ => 1⟩

theorem shearedPol_complete (c : ℝ) : (shearedPol c).Complete := by
  intro n hn
  simp only [shearedPol]
  simp only [List.mem_cons, List.not_mem_nil, or_false] at hn
  rcases hn with rfl | rfl | rfl | rfl | rfl | rfl | rfl | rfl <;> simp

theorem shearedPol_area (c : ℝ) (x z : ℕ) : cellArea Real.sqrt (shearedPol c) x z = 1 := by
  unfold cellArea shearedPol
  simp

theorem sheared_grid (c y : ℝ) : ∃ g m b, MetricGrid g [shearedPol c, shearedPol c] [y, y + 1] ∧ getMetric Real.sqrt g swingField none = .ok (m, b) := by
  have hg : ∃ g, Grid.init (fun p : PolGrid ℝ => (p.nx, p.nz)) (.many [shearedPol c, shearedPol c]) [y, y + 1] 2 true = .ok g := by
    unfold Grid.init
    simp only
    rw [if_neg (by simp)]
    exact ⟨_, rfl⟩
  obtain ⟨g, hg⟩ := hg
  have hmg : MetricGrid g [shearedPol c, shearedPol c] [y, y + 1] :=
    ⟨⟨_, _, _, hg⟩, by simp [shearedPol_complete], Or.inr (by simp [PolGrid.ProvidesJ, shearedPol])⟩
  obtain ⟨f1, f2, hl, M, xx, zz, xz, hM, M1, M2, hxx, hzz, hxz⟩ := hmg.facts
  obtain ⟨r, e, -⟩ := getMetric_eq Real.sqrt g (by rw [f1, f2]; exact hl) swingField none M hM _ _ xx zz xz M1 M2 hxx hzz hxz
  exact ⟨g, r, _, hmg, e⟩

/-- The field in the planes. -/
theorem swing_mag (x z : ℝ) : swingField.Bmag x z 0 = 4 ∧ swingField.Bmag x z 1 = 5 ∧ swingField.Bmag x z 2 = 4 := by
  have h4 : √(4 ^ 2 : ℝ) = 4 := Real.sqrt_sq (by norm_num)
  have h5 : √(5 ^ 2 : ℝ) = 5 := Real.sqrt_sq (by norm_num)
  refine ⟨?_, ?_, ?_⟩
  · simp only [swingField, swing, mul_zero, zero_div, sin_zero]
    rw [show (0 : ℝ) ^ 2 + 4 ^ 2 + (3 * 0 ^ 2) ^ 2 = 4 ^ 2 by norm_num, h4]
  · simp only [swingField, swing, mul_one, sin_pi_div_two]
    rw [show (0 : ℝ) ^ 2 + 4 ^ 2 + (3 * 1 ^ 2) ^ 2 = 5 ^ 2 by norm_num, h5]
  · simp only [swingField, swing]
    rw [show π * 2 / 2 = π by ring, sin_pi, show (0 : ℝ) ^ 2 + 4 ^ 2 + (3 * 0 ^ 2) ^ 2 = 4 ^ 2 by norm_num, h4]

theorem swing_data (c c' y y' : ℝ) : ∃ bjg par, FluxData Real.sqrt swingField [shearedPol c, shearedPol c] [shearedPol c', shearedPol c'] [y, y + 1] [y', y' + 1] bjg par := by
  obtain ⟨g, m, bjg, a1, a2⟩ := sheared_grid c y
  obtain ⟨g', m', par, b1, b2⟩ := sheared_grid c' y'
  have hB : ∀ x z y, swingField.Bmag x z y ≠ 0 := by
    intro x z y
    simp only [swingField, swing]
    positivity
  have hBy : ∀ x z y, swingField.Byfunc x z y ≠ 0 := fun _ _ _ => by simp [swingField, swing]
  refine ⟨bjg, par, ⟨g, m, a1, a2⟩, ⟨g', m', b1, b2⟩, rfl, by simp, fun y p x z hp => ⟨hBy _ _ _, hB _ _ _, ?_⟩, fun y p x z hp => hBy _ _ _⟩
  have : p = shearedPol c := by
    have := List.mem_of_getElem? hp
    simpa using this
  rw [this, shearedPol_area]
  norm_num

/-- **C264 (refutation).** A field without sources, planes whose slices are on its lines, cells with exactly the same flux, and the test prints. -/
theorem C264_fails : LineMap swing {p | 0 < p.1} univ 0 swingMap ∧ SourceFree swing {p | 0 < p.1} univ swingMap ∧
    (∀ x z, ((shearedPol (3 / 8)).R x z, (shearedPol (3 / 8)).Z x z) = swingMap ((shearedPol 0).R x z, (shearedPol 0).Z x z) 1) ∧
    ∃ bjg par, FluxData Real.sqrt swingField [shearedPol 0, shearedPol 0] [shearedPol (3 / 8), shearedPol (3 / 8)] [0, 0 + 1] [1, 1 + 1] bjg par ∧
      (∀ (y : ℕ) (p p' : PolGrid ℝ) (x z : ℕ), [shearedPol 0, shearedPol 0][y]? = some p → [shearedPol (3 / 8), shearedPol (3 / 8)][y]? = some p' →
        cellFlux Real.sqrt swingField p' (([1, 1 + 1] : List ℝ).getD y 0) x z = cellFlux Real.sqrt swingField p (([0, 0 + 1] : List ℝ).getD y 0) x z) ∧
      (fluxCheck 5 2 1 bjg par).isSome ∧ ¬ FluxTestRight Real.sqrt swingField 5 1 [shearedPol 0, shearedPol 0] [shearedPol (3 / 8), shearedPol (3 / 8)] [0, 0 + 1] [1, 1 + 1] bjg par := by
  obtain ⟨bjg, par, hd⟩ := swing_data 0 (3 / 8) 0 1
  have hflux : ∀ (y : ℕ) (p p' : PolGrid ℝ) (x z : ℕ), [shearedPol 0, shearedPol 0][y]? = some p → [shearedPol (3 / 8), shearedPol (3 / 8)][y]? = some p' →
      cellFlux Real.sqrt swingField p' (([1, 1 + 1] : List ℝ).getD y 0) x z = cellFlux Real.sqrt swingField p (([0, 0 + 1] : List ℝ).getD y 0) x z := by
    intro y p p' x z hp hp'
    have e1 : p = shearedPol 0 := by simpa using List.mem_of_getElem? hp
    have e2 : p' = shearedPol (3 / 8) := by simpa using List.mem_of_getElem? hp'
    unfold cellFlux
    rw [e1, e2, shearedPol_area, shearedPol_area]
    rfl
  have hprint : (fluxCheck 5 2 1 bjg par).isSome := by
    refine (C264_conserved hd 5 1 (by norm_num) hflux).2 ⟨2, 0, 0, _, _, le_rfl, by norm_num, by norm_num, rfl, rfl, ?_⟩
    unfold pitch
    simp only [List.getD_cons_zero]
    rw [(swing_mag _ _).1, (swing_mag _ _).2.1]
    simp only [swingField, swing]
    norm_num
  refine ⟨swing_lineMap, swing_free, ?_, bjg, par, hd, hflux, hprint, fun hr => ?_⟩
  · intro x z
    simp [shearedPol, swingMap]
  · obtain ⟨x, y, z, p, p', -, -, -, hp, hp', h⟩ := hr.1 hprint
    rw [hflux y p p' x z hp hp', div_self, sub_self, abs_zero] at h
    · norm_num at h
    · exact mul_ne_zero (hd.by0 y p x z hp).1 (hd.by0 y p x z hp).2.2

/-- The planes that are two apart are on the same phase: there the pitches agree and the test is right. -/
example : ∃ bjg par, FluxTestRight Real.sqrt swingField 5 1 [shearedPol 0, shearedPol 0] [shearedPol (3 / 4), shearedPol (3 / 4)] [0, 0 + 1] [2, 2 + 1] bjg par := by
  obtain ⟨bjg, par, hd⟩ := swing_data 0 (3 / 4) 0 2
  refine ⟨bjg, par, C264_partial hd 5 1 (by norm_num) fun y p p' x z hp hp' => ?_⟩
  have hy : y < 2 := (List.getElem?_eq_some_iff.1 hp).1
  have h3 : sin (π * (2 + 1) / 2) = -1 := by
    rw [show π * (2 + 1) / 2 = π / 2 + π by ring, sin_add_pi, sin_pi_div_two]
  unfold pitch
  obtain rfl | rfl : y = 0 ∨ y = 1 := by omega
  · simp only [List.getD_cons_zero]
    rw [(swing_mag _ _).1, (swing_mag _ _).2.2]
    rfl
  · simp only [List.getD_cons_zero, List.getD_cons_succ]
    simp only [swingField, swing, h3]
    norm_num

end Zoidberg
