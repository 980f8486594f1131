import Verif.Proofs.GetMetric
import Mathlib.Analysis.SpecialFunctions.Pow.Real

/-! # C27-C29: `get_metric` and the metric cache -/

set_option linter.unusedSectionVars false

namespace Zoidberg

variable {K : Type} [Field K] [LinearOrder K] [IsStrictOrderedRing K] [FloorRing K]

/-- A grid whose slices give a metric: the constructor call succeeded, every
slice provides the eight entries and all or none provide a Jacobian. -/
structure MetricGrid (g : Grid (PolGrid K) K) (l : List (PolGrid K)) (ys : List K) : Prop where
  init : ∃ size Ly per, Grid.init size (.many l) ys Ly per = .ok g
  complete : ∀ p ∈ l, p.Complete
  jac : (∀ p ∈ l, p.ProvidesJ) ∨ (∀ p ∈ l, ¬ p.ProvidesJ)

theorem MetricGrid.facts {g : Grid (PolGrid K) K} {l : List (PolGrid K)} {ys : List K}
    (h : MetricGrid g l ys) :
    g.polGrids = l ∧ g.ycoords = ys ∧ l.length = ys.length ∧ ∃ m xx zz xz, g.metric none = .ok m ∧
      m.get? "g_yy" = some (fun _ => 1) ∧ m.get? "gyy" = some (fun _ => 1) ∧
      m.get? "g_xx" = some xx ∧ m.get? "g_zz" = some zz ∧ m.get? "g_xz" = some xz := by
  obtain ⟨⟨size, Ly, per, hg⟩, hc, hJ⟩ := h
  obtain ⟨h1, h2, _, _, h3, _⟩ := Grid.init_many hg
  obtain ⟨m, hm⟩ := (C23_succeeds_iff size l ys Ly per g hg hc).2 hJ
  obtain ⟨a, b, c⟩ := C23_components size l ys Ly per g hg hc m hm
  obtain ⟨xx, hxx, _⟩ := a "g_xx" (by simp)
  obtain ⟨zz, hzz, _⟩ := a "g_zz" (by simp)
  obtain ⟨xz, hxz, _⟩ := a "g_xz" (by simp)
  exact ⟨h1, h2, h3, m, xx, zz, xz, hm, c, b, hxx, hzz, hxz⟩

/-- The `(n+1)`-st of successive calls of `get_metric` on one grid and field,
starting with an empty cache. -/
def nthCall (sqrt : K → K) (g : Grid (PolGrid K) K) (f : MagField K) :
    ℕ → Except Err (Metric K × (Cell → K))
  | 0 => getMetric sqrt g f none
  | n + 1 => match nthCall sqrt g f n with
    | .ok (m, _) => getMetric sqrt g f (some m)
    | .error e => .error e

/-- C27 as claimed: every call returns what the first one did, and `grid.metric()`
afterwards is what it was before. -/
def C27Claim (sqrt : K → K) (g : Grid (PolGrid K) K) (f : MagField K) : Prop :=
  ∀ n m b m0 b0, nthCall sqrt g f n = .ok (m, b) → nthCall sqrt g f 0 = .ok (m0, b0) →
    (∀ k, m.get? k = m0.get? k) ∧ b = b0 ∧ g.metric (some m) = g.metric none

theorem nthCall_eq (sqrt : K → K) (g : Grid (PolGrid K) K) (l : List (PolGrid K)) (ys : List K)
    (h : MetricGrid g l ys) (f : MagField K) :
    ∃ (m0 : Metric K) (xx zz xz : Cell → K), g.metric none = .ok m0 ∧ m0.get? "g_xx" = some xx ∧
      m0.get? "g_zz" = some zz ∧ m0.get? "g_xz" = some xz ∧
    ∀ n, ∃ m, nthCall sqrt g f n = .ok (m, fun c =>
        (if c.2.1 < ys.length then evalAt l ys f.Bmag c else 0) * sqrt (xx c * zz c - xz c ^ 2)) ∧
      m.get? "g_yy" = some ((match f.Rfunc with
        | none => Nat.iterate (scaled ys.length (fun c =>
            (evalAt l ys f.Bmag c / evalAt l ys f.Byfunc c) ^ 2)) (n + 1) (fun _ => 1)
        | some _ => scaled ys.length (fun c =>
            (evalAt l ys f.Bmag c / evalAt l ys f.Byfunc c) ^ 2) (baseLow g f fun _ => 1))) ∧
      m.get? "gyy" = some ((match f.Rfunc with
        | none => Nat.iterate (scaled ys.length (fun c =>
            (evalAt l ys f.Byfunc c / evalAt l ys f.Bmag c) ^ 2)) (n + 1) (fun _ => 1)
        | some _ => scaled ys.length (fun c =>
            (evalAt l ys f.Byfunc c / evalAt l ys f.Bmag c) ^ 2) (baseUp g f fun _ => 1))) ∧
      m.get? "Bxy" = some (fun c => if c.2.1 < ys.length then evalAt l ys f.Bmag c else 0) ∧
      m.get? "B" = some (fun c => if c.2.1 < ys.length then evalAt l ys f.Bmag c else 0) ∧
      m.get? "pressure" = some (fun c => if c.2.1 < ys.length then evalAt l ys f.pressure c else 0) ∧
      (∀ k ∉ (["g_yy", "gyy", "Bxy", "B", "pressure"] : List String), m.get? k = m0.get? k) := by
  obtain ⟨rfl, rfl, hl, m0, xx, zz, xz, hm, h1, h2, hxx, hzz, hxz⟩ := h.facts
  refine ⟨m0, xx, zz, xz, hm, hxx, hzz, hxz, ?_⟩
  have hbase : ∀ a a', f.Rfunc ≠ none → baseLow g f a = baseLow g f a' ∧
      baseUp g f a = baseUp g f a' := by
    intro a a' hR
    unfold baseLow baseUp
    cases hf : f.Rfunc with
    | none => exact absurd hf hR
    | some R => exact ⟨rfl, rfl⟩
  intro n
  induction n with
  | zero =>
    obtain ⟨r, e, r1, r2, r3, r4, r5, r6⟩ := getMetric_eq sqrt g hl f none m0 hm _ _ xx zz xz h1 h2 hxx
      hzz hxz
    refine ⟨r, e, ?_, ?_, r3, r4, r5, r6⟩
    · rw [r1]
      cases hf : f.Rfunc with
      | none => simp [baseLow, hf]
      | some R => rfl
    · rw [r2]
      cases hf : f.Rfunc with
      | none => simp [baseUp, hf]
      | some R => rfl
  | succ n ih =>
    obtain ⟨m, e, i1, i2, i3, i4, i5, i6⟩ := ih
    have g1 := i6 "g_xx" (by decide)
    have g2 := i6 "g_zz" (by decide)
    have g3 := i6 "g_xz" (by decide)
    obtain ⟨r, e', r1, r2, r3, r4, r5, r6⟩ := getMetric_eq sqrt g hl f (some m) m rfl _ _ xx zz xz i1 i2
      (g1.trans hxx) (g2.trans hzz) (g3.trans hxz)
    refine ⟨r, ?_, ?_, ?_, r3, r4, r5, ?_⟩
    · unfold nthCall; rw [e]; exact e'
    · rw [r1]
      cases hf : f.Rfunc with
      | none =>
        simp only [baseLow, hf]
        rw [Function.iterate_succ_apply' _ (n + 1)]
      | some R =>
        simp only
        rw [(hbase _ (fun _ => 1) (by rw [hf]; simp)).1]
    · rw [r2]
      cases hf : f.Rfunc with
      | none =>
        simp only [baseUp, hf]
        rw [Function.iterate_succ_apply' _ (n + 1)]
      | some R =>
        simp only
        rw [(hbase _ (fun _ => 1) (by rw [hf]; simp)).2]
    · intro k hk
      rw [r6 k hk, i6 k hk]

theorem scaled_iterate (N : ℕ) (q a : Cell → K) (n : ℕ) (c : Cell) (hc : c.2.1 < N) :
    Nat.iterate (scaled N q) n a c = a c * q c ^ n := by
  induction n with
  | zero => simp
  | succ n ih =>
    rw [Function.iterate_succ_apply']
    unfold scaled at ih ⊢
    rw [if_pos hc, ih, pow_succ]
    ring

/-- C27, the part that is true: in cylindrical coordinates every call returns the
same values, whatever the number of calls before it.  Missing: `grid.metric()`
itself is changed, and Cartesian coordinates. -/
theorem C27_cylindrical_values_partial (sqrt : K → K) (g : Grid (PolGrid K) K) (l : List (PolGrid K))
    (ys : List K) (h : MetricGrid g l ys) (f : MagField K) (hR : f.Rfunc ≠ none) (n : ℕ) :
    ∃ m m0 b, nthCall sqrt g f n = .ok (m, b) ∧ getMetric sqrt g f none = .ok (m0, b) ∧
      ∀ k, m.get? k = m0.get? k := by
  obtain ⟨M, xx, zz, xz, _, _, _, _, hn⟩ := nthCall_eq sqrt g l ys h f
  obtain ⟨m, e, a1, a2, a3, a4, a5, a6⟩ := hn n
  obtain ⟨m0, e0, b1, b2, b3, b4, b5, b6⟩ := hn 0
  refine ⟨m, m0, _, e, e0, ?_⟩
  obtain ⟨R, hR⟩ := Option.ne_none_iff_exists'.1 hR
  simp only [hR] at a1 a2 b1 b2
  intro k
  by_cases hk : k ∈ (["g_yy", "gyy", "Bxy", "B", "pressure"] : List String)
  · simp only [List.mem_cons, List.not_mem_nil, or_false] at hk
    rcases hk with rfl | rfl | rfl | rfl | rfl
    · rw [a1, b1]
    · rw [a2, b2]
    · rw [a3, b3]
    · rw [a4, b4]
    · rw [a5, b5]
  · rw [a6 k hk, b6 k hk]

/-- C27, Cartesian: after `n + 1` calls `g_yy` is `(B/By)^(2(n+1))`, the factor
being applied once more by every call. -/
theorem C27_cartesian_history_partial (sqrt : K → K) (g : Grid (PolGrid K) K) (l : List (PolGrid K))
    (ys : List K) (h : MetricGrid g l ys) (f : MagField K) (hR : f.Rfunc = none) (n : ℕ) :
    ∃ m b a, nthCall sqrt g f n = .ok (m, b) ∧ m.get? "g_yy" = some a ∧
      ∀ c : Cell, c.2.1 < ys.length →
        a c = ((evalAt l ys f.Bmag c / evalAt l ys f.Byfunc c) ^ 2) ^ (n + 1) := by
  obtain ⟨M, xx, zz, xz, _, _, _, _, hn⟩ := nthCall_eq sqrt g l ys h f
  obtain ⟨m, e, a1, _⟩ := hn n
  simp only [hR] at a1
  refine ⟨m, _, _, e, a1, ?_⟩
  intro c hc
  rw [scaled_iterate _ _ _ _ c hc, one_mul]

/-- C27 is false: with `B = 2` and `By = 1` in Cartesian coordinates the second
call returns `g_yy = 16` where the first one returned `4`. -/
theorem C27_fails : ∃ (g : Grid (PolGrid ℚ) ℚ) (f : MagField ℚ), (∃ l ys, MetricGrid g l ys) ∧
    ¬ C27Claim id g f := by
  have hmg : MetricGrid exMetricGrid [exPol true, exPol true, exPol true] [0, 1, 3] :=
    ⟨⟨_, _, _, exMetricGrid_init⟩, by simp [exPol_complete], Or.inl (by simp [PolGrid.ProvidesJ, exPol])⟩
  let f : MagField ℚ := ⟨none, fun _ _ _ => 2, fun _ _ _ => 0, fun _ _ _ => 1, []⟩
  refine ⟨exMetricGrid, f, ⟨_, _, hmg⟩, ?_⟩
  intro hcl
  obtain ⟨m, b, a, e, ha, hv⟩ := C27_cartesian_history_partial id exMetricGrid _ _ hmg f rfl 1
  obtain ⟨m0, b0, a0, e0, ha0, hv0⟩ := C27_cartesian_history_partial id exMetricGrid _ _ hmg f rfl 0
  have := (hcl 1 m b m0 b0 e e0).1 "g_yy"
  rw [ha, ha0] at this
  injection this with this
  have h1 := hv (0, 0, 0) (by norm_num)
  have h2 := hv0 (0, 0, 0) (by norm_num)
  rw [this, h2] at h1
  norm_num [evalAt, f] at h1

/-- `grid.metric()` is changed by `get_metric`, in all coordinates: it has an
entry `B` afterwards. -/
theorem C27_fails_for_grid_metric (sqrt : K → K) (g : Grid (PolGrid K) K) (l : List (PolGrid K))
    (ys : List K) (h : MetricGrid g l ys) (f : MagField K) : ¬ C27Claim sqrt g f := by
  intro hcl
  obtain ⟨M, xx, zz, xz, hM, _, _, _, hn⟩ := nthCall_eq sqrt g l ys h f
  obtain ⟨m, e, _, _, _, hB, _⟩ := hn 0
  have h1 := (hcl 0 m _ m _ e e).2.2
  rw [hM] at h1
  have h2 : m = M := by
    change Except.ok m = _ at h1
    injection h1
  subst h2
  obtain ⟨⟨size, Ly, per, hg⟩, hc, hJ⟩ := h
  have hM' : g.computeMetric = .ok m := hM
  unfold Grid.computeMetric at hM'
  split at hM'
  · simp at hM'
  · split at hM'
    · simp at hM'
    · injection hM' with hM'
      rw [← hM'] at hB
      by_cases hj : 0 < (‹MetricState K›).hasJ <;> simp [hj, ODict.get?_cons] at hB

example : ∃ m m0 b, nthCall id exMetricGrid
      ⟨some fun R _ _ => R + 1, fun _ _ _ => 2, fun _ _ _ => 0, fun _ _ _ => 1, []⟩ 5 = .ok (m, b) ∧
    getMetric id exMetricGrid ⟨some fun R _ _ => R + 1, fun _ _ _ => 2, fun _ _ _ => 0,
      fun _ _ _ => 1, []⟩ none = .ok (m0, b) ∧ ∀ k, m.get? k = m0.get? k :=
  C27_cylindrical_values_partial id exMetricGrid [exPol true, exPol true, exPol true] [0, 1, 3]
    ⟨⟨_, _, _, exMetricGrid_init⟩, by simp [exPol_complete], Or.inl (by simp [PolGrid.ProvidesJ, exPol])⟩
    _ (by simp) 5

/-! ## C28 -/

/-- C28: from an empty cache `g_yy * gyy = 1` wherever `By` and `R` do not
vanish (in Cartesian coordinates wherever `By` does not), and `g_yy` is at least
`R^2` (at least 1), for a field whose `Bmag` is the modulus of a vector with
toroidal component `By`. -/
theorem C28_reciprocal_and_bounded (sqrt : K → K) (g : Grid (PolGrid K) K) (l : List (PolGrid K))
    (ys : List K) (h : MetricGrid g l ys) (f : MagField K) (Bx Bz : K → K → K → K)
    (hB : ∀ x z y, f.Bmag x z y ^ 2 = Bx x z y ^ 2 + f.Byfunc x z y ^ 2 + Bz x z y ^ 2) :
    ∃ m b lo up, getMetric sqrt g f none = .ok (m, b) ∧ m.get? "g_yy" = some lo ∧
      m.get? "gyy" = some up ∧
      ∀ c : Cell, c.2.1 < ys.length → evalAt l ys f.Byfunc c ≠ 0 →
        (∀ R, f.Rfunc = some R → (evalAt l ys R c ≠ 0 → lo c * up c = 1) ∧ evalAt l ys R c ^ 2 ≤ lo c) ∧
        (f.Rfunc = none → lo c * up c = 1 ∧ 1 ≤ lo c) := by
  obtain ⟨M, xx, zz, xz, _, _, _, _, hn⟩ := nthCall_eq sqrt g l ys h f
  obtain ⟨rfl, rfl, hl, -⟩ := h.facts
  obtain ⟨m, e, a1, a2, _⟩ := hn 0
  refine ⟨m, _, _, _, e, a1, a2, ?_⟩
  intro c hc hBy
  obtain ⟨p, hp⟩ : ∃ p, g.polGrids[c.2.1]? = some p := ⟨_, List.getElem?_eq_getElem (by omega)⟩
  have hBm : evalAt g.polGrids g.ycoords f.Bmag c ^ 2 ≥ evalAt g.polGrids g.ycoords f.Byfunc c ^ 2 := by
    simp only [evalAt, hp, hB]
    nlinarith [sq_nonneg (Bx (p.R c.1 c.2.2) (p.Z c.1 c.2.2) (g.ycoords.getD c.2.1 0)),
      sq_nonneg (Bz (p.R c.1 c.2.2) (p.Z c.1 c.2.2) (g.ycoords.getD c.2.1 0))]
  obtain ⟨B, hBdef⟩ : ∃ B, evalAt g.polGrids g.ycoords f.Bmag c = B := ⟨_, rfl⟩
  rw [hBdef] at hBm
  have hpos : 0 < evalAt g.polGrids g.ycoords f.Byfunc c ^ 2 := by positivity
  have hB0 : B ≠ 0 := by
    rintro rfl
    simp only [ne_eq, OfNat.ofNat_ne_zero, not_false_eq_true, zero_pow] at hBm
    linarith
  have hq : 1 ≤ (B / evalAt g.polGrids g.ycoords f.Byfunc c) ^ 2 := by
    rw [div_pow, le_div_iff₀ hpos]; linarith
  have hprod : (B / evalAt g.polGrids g.ycoords f.Byfunc c) ^ 2 *
      (evalAt g.polGrids g.ycoords f.Byfunc c / B) ^ 2 = 1 := by
    field_simp
  constructor
  · intro R hR
    have elo : scaled g.ycoords.length (fun c => (evalAt g.polGrids g.ycoords f.Bmag c /
        evalAt g.polGrids g.ycoords f.Byfunc c) ^ 2) (baseLow g f fun _ => 1) c =
        evalAt g.polGrids g.ycoords R c ^ 2 * (B / evalAt g.polGrids g.ycoords f.Byfunc c) ^ 2 := by
      simp only [scaled, if_pos hc, baseLow, hR, hBdef]
    have eup : scaled g.ycoords.length (fun c => (evalAt g.polGrids g.ycoords f.Byfunc c /
        evalAt g.polGrids g.ycoords f.Bmag c) ^ 2) (baseUp g f fun _ => 1) c =
        1 / evalAt g.polGrids g.ycoords R c ^ 2 *
          (evalAt g.polGrids g.ycoords f.Byfunc c / B) ^ 2 := by
      simp only [scaled, if_pos hc, baseUp, hR, hBdef]
    simp only [hR]
    rw [elo, eup]
    constructor
    · intro h0
      field_simp
    · nlinarith [sq_nonneg (evalAt g.polGrids g.ycoords R c)]
  · intro hR
    simp only [hR]
    rw [scaled_iterate _ _ _ _ c hc, scaled_iterate _ _ _ _ c hc, hBdef]
    constructor
    · linarith [hprod]
    · linarith

/-- `MagneticField.Bmag` (field.py:140-162). -/
noncomputable def bmagReal (Bx By Bz : ℝ → ℝ → ℝ → ℝ) : ℝ → ℝ → ℝ → ℝ :=
  fun x z y => Real.sqrt (Bx x z y ^ 2 + By x z y ^ 2 + Bz x z y ^ 2)

/-- C28 for the `Bmag` of the base class `MagneticField`, over the reals. -/
theorem C28_base_class (g : Grid (PolGrid ℝ) ℝ) (l : List (PolGrid ℝ)) (ys : List ℝ)
    (h : MetricGrid g l ys) (Bx By Bz p : ℝ → ℝ → ℝ → ℝ) (R? : Option (ℝ → ℝ → ℝ → ℝ)) :
    ∃ m b lo up, getMetric Real.sqrt g ⟨R?, bmagReal Bx By Bz, p, By, []⟩ none = .ok (m, b) ∧
      m.get? "g_yy" = some lo ∧ m.get? "gyy" = some up ∧
      ∀ c : Cell, c.2.1 < ys.length → evalAt l ys By c ≠ 0 →
        (∀ R, R? = some R → (evalAt l ys R c ≠ 0 → lo c * up c = 1) ∧ evalAt l ys R c ^ 2 ≤ lo c) ∧
        (R? = none → lo c * up c = 1 ∧ 1 ≤ lo c) := by
  refine C28_reciprocal_and_bounded Real.sqrt g l ys h ⟨R?, bmagReal Bx By Bz, p, By, []⟩ Bx Bz ?_
  intro x z y
  unfold bmagReal
  rw [Real.sq_sqrt (by positivity)]

theorem exMetricGrid_ok : MetricGrid exMetricGrid [exPol true, exPol true, exPol true] [0, 1, 3] :=
  ⟨⟨_, _, _, exMetricGrid_init⟩, by simp [exPol_complete], Or.inl (by simp [PolGrid.ProvidesJ, exPol])⟩

/-- A field with `B = (3, 4, 0)`. -/
example : ∃ m b lo up, getMetric id exMetricGrid ⟨none, fun _ _ _ => 5, fun _ _ _ => 0,
    fun _ _ _ => 4, []⟩ none = .ok (m, b) ∧ m.get? "g_yy" = some lo ∧ m.get? "gyy" = some up ∧
    lo (1, 2, 0) * up (1, 2, 0) = 1 ∧ 1 ≤ lo (1, 2, 0) := by
  obtain ⟨m, b, lo, up, h1, h2, h3, h4⟩ := C28_reciprocal_and_bounded id exMetricGrid _ _ exMetricGrid_ok
    ⟨none, fun _ _ _ => 5, fun _ _ _ => 0, fun _ _ _ => 4, []⟩ (fun _ _ _ => 3) (fun _ _ _ => 0)
    (by intro x z y; norm_num)
  exact ⟨m, b, lo, up, h1, h2, h3, (h4 (1, 2, 0) (by norm_num) (by norm_num [evalAt])).2 rfl⟩

/-! ## C29 -/

/-- One call of `_write_metric`: writer configuration, field and maps. -/
structure WmCall (K : Type) where
  conf : MwConf K
  field : MagField K
  maps : ODict (Cell → K)

/-- Successive calls on one grid, stopping at the first exception. -/
def wmHistory (g : Grid (PolGrid K) K) : List (WmCall K) → ODict (Val K) → WmState K
  | [], file => ⟨file, none, none⟩
  | c :: t, file =>
    -- calls are listed last first
    let s := wmHistory g t file
    match s.err with
    | some _ => s
    | none => writeMetric c.conf g c.field c.maps s.file s.cache

/-- A call that completes leaves an empty cache. -/
theorem C29_cache_reset (c : MwConf K) (g : Grid (PolGrid K) K) (f : MagField K)
    (maps : ODict (Cell → K)) (file : ODict (Val K)) (cache : Option (Metric K))
    (h : (writeMetric c g f maps file cache).err = none) :
    (writeMetric c g f maps file cache).cache = none := by
  unfold writeMetric at h ⊢
  split
  · rename_i e he; rw [he] at h; simp at h
  · rename_i m b he
    rw [he] at h
    simp only at h ⊢
    split
    · rename_i m' e ha; rw [ha] at h; simp at h
    · rename_i m' ha
      rw [ha] at h
      simp only at h ⊢
      split
      · rename_i fl e hw; rw [hw] at h; simp at h
      · split <;> rfl

/-- C29: after any number of completed calls on the same grid, with any fields,
maps and writers, the next call writes exactly what it would write on a fresh
grid, and `grid.metric()` computes pristine values. -/
theorem C29_history (g : Grid (PolGrid K) K) (hist : List (WmCall K)) (file : ODict (Val K))
    (h : (wmHistory g hist file).err = none) (c : WmCall K) :
    wmHistory g (c :: hist) file =
      writeMetric c.conf g c.field c.maps (wmHistory g hist file).file none ∧
    g.metric (wmHistory g hist file).cache = g.metric none := by
  have hc : (wmHistory g hist file).cache = none := by
    cases hist with
    | nil => rfl
    | cons d t =>
      unfold wmHistory at h ⊢
      simp only at h ⊢
      split
      · rename_i e he; rw [he] at h; simp [he] at h
      · rename_i he
        rw [he] at h
        exact C29_cache_reset _ _ _ _ _ _ h
  refine ⟨?_, by rw [hc]⟩
  conv_lhs => unfold wmHistory
  simp only [h, hc]

/-- A successful write of a whole dictionary. -/
theorem writeEntries_ok {V : Type} (o : Vals V) (d : ODict V) (ho : ∀ v, o.finite v = true) :
    ∀ file : ODict V, writeEntries o d file = (d.foldl (fun a p => ODict.set a p.1 p.2) file, none) := by
  induction d with
  | nil => intro file; rfl
  | cons p t ih =>
    intro file
    obtain ⟨k, v⟩ := p
    unfold writeEntries
    rw [ho, if_neg (by simp), ih]
    rfl

/-- A writer that accepts all arrays, a Cartesian field and maps without `Ly`. -/
def exWmCall : WmCall ℚ :=
  ⟨⟨true, false, true, fun _ => true, id⟩,
    ⟨none, fun _ _ _ => 2, fun _ _ _ => 0, fun _ _ _ => 1, []⟩, []⟩

theorem exWmCall_completes (file : ODict (Val ℚ)) :
    (writeMetric exWmCall.conf exMetricGrid exWmCall.field exWmCall.maps file none).err = none := by
  obtain ⟨M, xx, zz, xz, _, _, _, _, hn⟩ := nthCall_eq id exMetricGrid _ _ exMetricGrid_ok exWmCall.field
  obtain ⟨m, e, a1, _⟩ := hn 0
  obtain ⟨a, ha⟩ : ∃ a, m.get? "g_yy" = some a := ⟨_, a1⟩
  have e' : getMetric exWmCall.conf.sqrt exMetricGrid exWmCall.field none = _ := e
  have hadd : addLy m exWmCall.maps = ((m.set "g_yy_cell_ylow" a).set "g_yy_cell_yhigh" a, none) := by
    unfold addLy exWmCall
    simp only [ODict.get?_nil, ODict.getE_of_get? ha]
  have hw : writeDict (valOps exWmCall.conf.finite) exWmCall.conf.isOpen exWmCall.conf.metric2d false
      ((((m.set "g_yy_cell_ylow" a).set "g_yy_cell_yhigh" a)).mapV Val.f3) file = (_, none) :=
    writeEntries_ok (valOps exWmCall.conf.finite) _ (fun _ => rfl) file
  unfold writeMetric
  simp only [e', hadd, show exWmCall.conf.newNames = true from rfl, if_true, hw,
        show exWmCall.field.attributes = [] from rfl]
  rfl

/-- Two completed calls followed by a third one. -/
example (file : ODict (Val ℚ)) : wmHistory exMetricGrid [exWmCall, exWmCall, exWmCall] file =
    writeMetric exWmCall.conf exMetricGrid exWmCall.field exWmCall.maps
      (wmHistory exMetricGrid [exWmCall, exWmCall] file).file none := by
  have h1 : wmHistory exMetricGrid [exWmCall] file =
      writeMetric exWmCall.conf exMetricGrid exWmCall.field exWmCall.maps file none := rfl
  have h2 := (C29_history exMetricGrid [exWmCall] file (by rw [h1]; exact exWmCall_completes _)
    exWmCall).1
  exact (C29_history exMetricGrid [exWmCall, exWmCall] file (by rw [h2]; exact exWmCall_completes _)
    exWmCall).1

/-! ## C95: retrying after a failed write -/

/-- C95 as claimed: a call of `_write_metric` that fails has no influence on what
a later call with the same maps writes. -/
def C95Claim (g : Grid (PolGrid K) K) (f : MagField K) : Prop :=
  ∀ (c1 c2 : MwConf K) (maps : ODict (Cell → K)) (file1 file2 : ODict (Val K)),
    (writeMetric c1 g f maps file1 none).err ≠ none →
    (writeMetric c2 g f maps file2 (writeMetric c1 g f maps file1 none).cache).file =
      (writeMetric c2 g f maps file2 none).file

/-- `addLy` when it succeeds. -/
theorem addLy_ok {m m' : Metric K} {maps : ODict (Cell → K)} (h : addLy m maps = (m', none)) :
    ∃ a, m.get? "g_yy" = some a ∧
    ((∃ ly lo hi dy, maps.get? "Ly" = some ly ∧ maps.get? "Ly_cell_ylow" = some lo ∧
        maps.get? "Ly_cell_yhigh" = some hi ∧ m.get? "dy" = some dy ∧
        m' = ((((m.set "g_yy_old" a).set "g_yy" (lyMetric ly dy)).set "g_yy_cell_ylow"
          (lyMetric lo dy)).set "g_yy_cell_yhigh" (lyMetric hi dy)).set "g_yy_correct" (lyMetric ly dy)) ∨
      (maps.get? "Ly" = none ∧
        m' = (m.set "g_yy_cell_ylow" a).set "g_yy_cell_yhigh" a)) := by
  have ok : ∀ {d : ODict (Cell → K)} {k v}, d.getE k = .ok v → d.get? k = some v := by
    intro d k v h
    unfold ODict.getE at h
    split at h
    · rename_i w hw; injection h with h; rw [hw, h]
    · simp at h
  unfold addLy at h
  split at h
  · rename_i ly hly
    split at h
    · simp at h
    · rename_i a ha
      simp only at h
      split at h
      · simp at h
      · rename_i dy hdy
        split at h
        · simp at h
        · rename_i lo hlo
          split at h
          · simp at h
          · rename_i hi hhi
            have hdy' := ok hdy
            rw [ODict.get?_set_ne _ _ (by decide)] at hdy'
            refine ⟨a, ok ha, Or.inl ⟨ly, lo, hi, dy, hly, ok hlo, ok hhi, hdy', ?_⟩⟩
            injection h with h _
            exact h.symm
  · rename_i hly
    split at h
    · simp at h
    · rename_i a ha
      refine ⟨a, ok ha, Or.inr ⟨hly, ?_⟩⟩
      injection h with h _
      exact h.symm

/-- Whether `addLy` succeeds depends only on which entries are present. -/
theorem addLy_err {m m2 : Metric K} {maps : ODict (Cell → K)} {m' : Metric K} {e : Err}
    (h : addLy m maps = (m', some e)) (h1 : m.get? "g_yy" ≠ none) (h2 : m.get? "dy" ≠ none)
    (h3 : m2.get? "g_yy" ≠ none) (h4 : m2.get? "dy" ≠ none) :
    ∃ m'' e', addLy m2 maps = (m'', some e') := by
  obtain ⟨a, ha⟩ := Option.ne_none_iff_exists'.1 h1
  obtain ⟨d, hd⟩ := Option.ne_none_iff_exists'.1 h2
  obtain ⟨a2, ha2⟩ := Option.ne_none_iff_exists'.1 h3
  obtain ⟨d2, hd2⟩ := Option.ne_none_iff_exists'.1 h4
  have g1 := ODict.getE_of_get? ha
  have g3 := ODict.getE_of_get? ha2
  have g2 : ODict.getE (m.set "g_yy_old" a) "dy" = .ok d :=
    ODict.getE_of_get? (by rw [ODict.get?_set_ne _ _ (by decide)]; exact hd)
  have g4 : ODict.getE (m2.set "g_yy_old" a2) "dy" = .ok d2 :=
    ODict.getE_of_get? (by rw [ODict.get?_set_ne _ _ (by decide)]; exact hd2)
  unfold addLy at h ⊢
  cases hly : maps.get? "Ly" with
  | none => rw [hly] at h; simp [g1] at h
  | some ly =>
    rw [hly] at h
    simp only [g1, g2, g3, g4] at h ⊢
    cases hlo : maps.getE "Ly_cell_ylow" with
    | error e1 => exact ⟨_, _, rfl⟩
    | ok lo =>
      rw [hlo] at h
      simp only at h ⊢
      cases hhi : maps.getE "Ly_cell_yhigh" with
      | error e1 => exact ⟨_, _, rfl⟩
      | ok hi => rw [hhi] at h; simp at h

theorem baseLow_indep (g : Grid (PolGrid K) K) (f : MagField K) (hR : f.Rfunc ≠ none)
    (a a' : Cell → K) : baseLow g f a = baseLow g f a' := by
  unfold baseLow
  cases hf : f.Rfunc with
  | none => exact absurd hf hR
  | some R => rfl

theorem baseUp_indep (g : Grid (PolGrid K) K) (f : MagField K) (hR : f.Rfunc ≠ none)
    (a a' : Cell → K) : baseUp g f a = baseUp g f a' := by
  unfold baseUp
  cases hf : f.Rfunc with
  | none => exact absurd hf hR
  | some R => rfl

/-- The file after the call, given the metric. -/
theorem writeMetric_file_eq (c : MwConf K) (g : Grid (PolGrid K) K) (f : MagField K)
    (maps : ODict (Cell → K)) (file : ODict (Val K)) (ca cb : Option (Metric K)) (ma mb : Metric K)
    (ba bb : Cell → K) (ha : getMetric c.sqrt g f ca = .ok (ma, ba))
    (hb : getMetric c.sqrt g f cb = .ok (mb, bb))
    (h : (addLy ma maps = addLy mb maps) ∨ ((addLy ma maps).2 ≠ none ∧ (addLy mb maps).2 ≠ none)) :
    (writeMetric c g f maps file ca).file = (writeMetric c g f maps file cb).file := by
  unfold writeMetric
  simp only [ha, hb]
  rcases h with h | ⟨h1, h2⟩
  · rw [h]
  · cases e1 : addLy ma maps with
    | mk x y =>
      cases e2 : addLy mb maps with
      | mk x' y' =>
        rw [e1] at h1
        rw [e2] at h2
        obtain ⟨y, rfl⟩ := Option.ne_none_iff_exists'.1 h1
        obtain ⟨y', rfl⟩ := Option.ne_none_iff_exists'.1 h2
        rfl

/-- The keys of a metric dictionary obtained from a fresh grid. -/
theorem metric_has_dy {g : Grid (PolGrid K) K} {m : Metric K} (h : g.metric none = .ok m) :
    m.get? "dy" ≠ none := by
  have h' : g.computeMetric = .ok m := h
  unfold Grid.computeMetric at h'
  split at h'
  · simp at h'
  · split at h'
    · simp at h'
    · injection h' with h'
      subst h'
      simp [ODict.get?_cons]

theorem mem_keys_set {V : Type} (d : ODict V) (k k' : String) (v : V) :
    k ∈ (d.set k' v).keys ↔ k = k' ∨ k ∈ d.keys := by
  rw [ODict.keys_set]
  split
  · constructor
    · exact Or.inr
    · rintro (rfl | h)
      · assumption
      · exact h
  · simp [or_comm]

/-- C95, in part: in cylindrical coordinates a retry writes the same.  Missing:
Cartesian coordinates, where it is false. -/
theorem C95_cylindrical_partial (g : Grid (PolGrid K) K) (l : List (PolGrid K)) (ys : List K)
    (h : MetricGrid g l ys) (f : MagField K) (hR : f.Rfunc ≠ none) : C95Claim g f := by
  intro c1 c2 maps file1 file2 herr
  obtain ⟨rfl, rfl, hl, M, xx, zz, xz, hM, M1, M2, hxx, hzz, hxz⟩ := h.facts
  have hdy := metric_has_dy hM
  have hMk1 : "g_yy" ∈ ODict.keys M := (ODict.mem_keys_iff _ _).2 (by rw [M1]; simp)
  have hMk2 : "gyy" ∈ ODict.keys M := (ODict.mem_keys_iff _ _).2 (by rw [M2]; simp)
  have hMn : (ODict.keys M).Nodup := computeMetric_nodup hM
  -- fresh calls
  obtain ⟨r, e, r1, r2, r3, r4, r5, r6⟩ := getMetric_eq c1.sqrt g hl f none M hM _ _ xx zz xz M1 M2 hxx
    hzz hxz
  obtain ⟨s, e', s1, s2, s3, s4, s5, s6⟩ := getMetric_eq c2.sqrt g hl f none M hM _ _ xx zz xz M1 M2 hxx
    hzz hxz
  have kr := getMetric_keys hM hMk1 hMk2 e
  have ks := getMetric_keys hM hMk1 hMk2 e'
  have nr : (ODict.keys r).Nodup := by
    rw [kr]; exact ODict.nodup_set _ _ _ (ODict.nodup_set _ _ _ (ODict.nodup_set _ _ _ hMn))
  have hrs : r = s := by
    refine ODict.ext r s ?_ nr ?_
    · rw [kr, ks]; simp only [ODict.keys_set]
    · intro k
      by_cases hk : k ∈ (["g_yy", "gyy", "Bxy", "B", "pressure"] : List String)
      · simp only [List.mem_cons, List.not_mem_nil, or_false] at hk
        rcases hk with rfl | rfl | rfl | rfl | rfl
        · rw [r1, s1]
        · rw [r2, s2]
        · rw [r3, s3]
        · rw [r4, s4]
        · rw [r5, s5]
      · rw [r6 k hk, s6 k hk]
  subst hrs
  have rdy : r.get? "dy" ≠ none := by rw [r6 _ (by decide)]; exact hdy
  -- the cache after the failed call
  have hcache : (writeMetric c1 g f maps file1 none).cache = none ∨
      (writeMetric c1 g f maps file1 none).cache = some (addLy r maps).1 := by
    unfold writeMetric
    simp only [e]
    cases ha : addLy r maps with
    | mk m' er =>
      cases er with
      | some er => exact Or.inr rfl
      | none =>
        simp only
        split
        · exact Or.inr rfl
        · split <;> exact Or.inl rfl
  rcases hcache with hc | hc
  · rw [hc]
  rw [hc]
  cases ha : addLy r maps with
  | mk m' er =>
    -- entries of the cached dictionary
    have hsub : ∀ k, k ∈ ODict.keys r → k ∈ ODict.keys m' := by
      intro k hk
      unfold addLy at ha
      split at ha
      · split at ha
        · injection ha with ha _; subst ha; exact hk
        · simp only at ha
          split at ha
          · injection ha with ha _; subst ha; simp [mem_keys_set, hk]
          · split at ha
            · injection ha with ha _; subst ha; simp [mem_keys_set, hk]
            · split at ha <;> (injection ha with ha _; subst ha; simp [mem_keys_set, hk])
      · split at ha <;> (injection ha with ha _; subst ha; simp [mem_keys_set, hk])
    have hget : ∀ k, k ∉ (["g_yy", "g_yy_old", "g_yy_cell_ylow", "g_yy_cell_yhigh", "g_yy_correct"] :
        List String) → m'.get? k = r.get? k := by
      intro k hk
      simp only [List.mem_cons, List.not_mem_nil, or_false, not_or] at hk
      obtain ⟨k1, k2, k3, k4, k5⟩ := hk
      unfold addLy at ha
      split at ha
      · split at ha
        · injection ha with ha _; subst ha; rfl
        · simp only at ha
          split at ha
          · injection ha with ha _; subst ha; rw [ODict.get?_set_ne _ _ k2]
          · split at ha
            · injection ha with ha _; subst ha
              rw [ODict.get?_set_ne _ _ k1, ODict.get?_set_ne _ _ k2]
            · split at ha
              · injection ha with ha _; subst ha
                rw [ODict.get?_set_ne _ _ k3, ODict.get?_set_ne _ _ k1, ODict.get?_set_ne _ _ k2]
              · injection ha with ha _; subst ha
                rw [ODict.get?_set_ne _ _ k5, ODict.get?_set_ne _ _ k4, ODict.get?_set_ne _ _ k3,
                  ODict.get?_set_ne _ _ k1, ODict.get?_set_ne _ _ k2]
      · split at ha
        · injection ha with ha _; subst ha; rfl
        · injection ha with ha _; subst ha
          rw [ODict.get?_set_ne _ _ k4, ODict.get?_set_ne _ _ k3]
    have hr1 : "g_yy" ∈ ODict.keys r := (ODict.mem_keys_iff _ _).2 (by rw [r1]; simp)
    obtain ⟨a', ha'⟩ := Option.ne_none_iff_exists'.1 ((ODict.mem_keys_iff _ _).1 (hsub _ hr1))
    have hup : m'.get? "gyy" = r.get? "gyy" := hget _ (by decide)
    rw [r2] at hup
    have hxx' : m'.get? "g_xx" = some xx := by rw [hget _ (by decide), r6 _ (by decide), hxx]
    have hzz' : m'.get? "g_zz" = some zz := by rw [hget _ (by decide), r6 _ (by decide), hzz]
    have hxz' : m'.get? "g_xz" = some xz := by rw [hget _ (by decide), r6 _ (by decide), hxz]
    obtain ⟨t, e2, t1, t2, t3, t4, t5, t6⟩ := getMetric_eq c2.sqrt g hl f (some m') m' rfl _ _ xx zz xz
      ha' hup hxx' hzz' hxz'
    have kt := getMetric_keys (m := m') rfl ((ODict.mem_keys_iff _ _).2 (by rw [ha']; simp))
      ((ODict.mem_keys_iff _ _).2 (by rw [hup]; simp)) e2
    have keyB : ∀ k ∈ (["Bxy", "B", "pressure"] : List String), k ∈ ODict.keys m' := by
      intro k hk
      apply hsub
      rw [kr]
      simp only [List.mem_cons, List.not_mem_nil, or_false] at hk
      rcases hk with rfl | rfl | rfl <;> simp [mem_keys_set]
    have kt' : ODict.keys t = ODict.keys m' := by
      rw [kt, ODict.keys_set_of_mem _ _ _ (by simp [mem_keys_set, keyB]),
        ODict.keys_set_of_mem _ _ _ (by simp [mem_keys_set, keyB]),
        ODict.keys_set_of_mem _ _ _ (by simp [keyB])]
    -- the retried dictionary agrees with the fresh one except for the added entries
    have tr : ∀ k, k ∉ (["g_yy_old", "g_yy_cell_ylow", "g_yy_cell_yhigh", "g_yy_correct"] :
        List String) → t.get? k = r.get? k := by
      intro k hk
      by_cases hk5 : k ∈ (["g_yy", "gyy", "Bxy", "B", "pressure"] : List String)
      · simp only [List.mem_cons, List.not_mem_nil, or_false] at hk5
        rcases hk5 with rfl | rfl | rfl | rfl | rfl
        · rw [t1, r1, baseLow_indep g f hR a' (fun _ => 1)]
        · rw [t2, r2, baseUp_indep g f hR _ (fun _ => 1)]
        · rw [t3, r3]
        · rw [t4, r4]
        · rw [t5, r5]
      · rw [t6 k hk5]
        refine hget k ?_
        simp only [List.mem_cons, List.not_mem_nil, or_false, not_or] at hk hk5 ⊢
        exact ⟨hk5.1, hk.1, hk.2.1, hk.2.2.1, hk.2.2.2⟩
    refine writeMetric_file_eq c2 g f maps file2 (some m') none t r _ _ e2 e' ?_
    cases er with
    | some er =>
      refine Or.inr ⟨?_, by rw [ha]; simp⟩
      obtain ⟨x, y, hxy⟩ := addLy_err (m2 := t) ha (by rw [r1]; simp) rdy (by rw [t1]; simp)
        (by rw [tr _ (by decide)]; exact rdy)
      rw [hxy]; simp
    | none =>
      refine Or.inl ?_
      have tg := tr "g_yy" (by decide)
      have td := tr "dy" (by decide)
      have nm : (ODict.keys m').Nodup := by
        obtain ⟨a, _, ⟨_, _, _, _, _, _, _, _, rfl⟩ | ⟨_, rfl⟩⟩ := addLy_ok ha
        · exact ODict.nodup_set _ _ _ (ODict.nodup_set _ _ _ (ODict.nodup_set _ _ _
            (ODict.nodup_set _ _ _ (ODict.nodup_set _ _ _ nr))))
        · exact ODict.nodup_set _ _ _ (ODict.nodup_set _ _ _ nr)
      obtain ⟨a, h1, ⟨ly, lo, hi, dy, p1, p2, p3, p4, p5⟩ | ⟨p1, p5⟩⟩ := addLy_ok ha
      · rw [← tg] at h1
        rw [← td] at p4
        have : addLy t maps = (((((t.set "g_yy_old" a).set "g_yy" (lyMetric ly dy)).set "g_yy_cell_ylow"
          (lyMetric lo dy)).set "g_yy_cell_yhigh" (lyMetric hi dy)).set "g_yy_correct"
          (lyMetric ly dy), none) := by
          unfold addLy
          have q : ODict.getE (t.set "g_yy_old" a) "dy" = .ok dy :=
            ODict.getE_of_get? (by rw [ODict.get?_set_ne _ _ (by decide)]; exact p4)
          simp only [p1, ODict.getE_of_get? h1, q, ODict.getE_of_get? p2, ODict.getE_of_get? p3]
        rw [this, ha]
        congr 1
        refine ODict.ext _ _ ?_ ?_ ?_
        · have : ∀ k ∈ (["g_yy_old", "g_yy", "g_yy_cell_ylow", "g_yy_cell_yhigh", "g_yy_correct"] :
              List String), k ∈ ODict.keys t := by
            intro k hk
            rw [kt', p5]
            simp only [List.mem_cons, List.not_mem_nil, or_false] at hk
            rcases hk with rfl | rfl | rfl | rfl | rfl <;> simp [mem_keys_set]
          rw [ODict.keys_set_of_mem _ _ _ (by simp [mem_keys_set, this]),
            ODict.keys_set_of_mem _ _ _ (by simp [mem_keys_set, this]),
            ODict.keys_set_of_mem _ _ _ (by simp [mem_keys_set, this]),
            ODict.keys_set_of_mem _ _ _ (by simp [mem_keys_set, this]),
            ODict.keys_set_of_mem _ _ _ (by simp [this]), kt']
        · exact ODict.nodup_set _ _ _ (ODict.nodup_set _ _ _ (ODict.nodup_set _ _ _
            (ODict.nodup_set _ _ _ (ODict.nodup_set _ _ _ (by rw [kt']; exact nm)))))
        · intro k
          rw [p5]
          simp only [ODict.get?_set]
          split
          · rfl
          · split
            · rfl
            · split
              · rfl
              · split
                · rfl
                · split
                  · rfl
                  · rename_i n1 n2 n3 n4 n5
                    refine tr k ?_
                    simp only [List.mem_cons, List.not_mem_nil, or_false, not_or]
                    exact ⟨Ne.symm n5, Ne.symm n3, Ne.symm n2, Ne.symm n1⟩
      · rw [← tg] at h1
        have : addLy t maps = ((t.set "g_yy_cell_ylow" a).set "g_yy_cell_yhigh" a, none) := by
          unfold addLy
          simp only [p1, ODict.getE_of_get? h1]
        rw [this, ha]
        congr 1
        refine ODict.ext _ _ ?_ ?_ ?_
        · have : ∀ k ∈ (["g_yy_cell_ylow", "g_yy_cell_yhigh"] : List String), k ∈ ODict.keys t := by
            intro k hk
            rw [kt', p5]
            simp only [List.mem_cons, List.not_mem_nil, or_false] at hk
            rcases hk with rfl | rfl <;> simp [mem_keys_set]
          rw [ODict.keys_set_of_mem _ _ _ (by simp [mem_keys_set, this]),
            ODict.keys_set_of_mem _ _ _ (by simp [this]), kt']
        · exact ODict.nodup_set _ _ _ (ODict.nodup_set _ _ _ (by rw [kt']; exact nm))
        · intro k
          rw [p5]
          simp only [ODict.get?_set]
          split
          · rfl
          · split
            · rfl
            · rename_i n1 n2
              have hno : ∀ k', (["g_yy_old", "g_yy_correct"] : List String).contains k' →
                  t.get? k' = r.get? k' := by
                intro k' hk'
                simp only [List.contains_cons, List.contains_nil, Bool.or_false, Bool.or_eq_true,
                  beq_iff_eq] at hk'
                rw [t6 k' (by rcases hk' with rfl | rfl <;> decide), p5]
                rw [ODict.get?_set_ne _ _ (by rcases hk' with rfl | rfl <;> decide),
                  ODict.get?_set_ne _ _ (by rcases hk' with rfl | rfl <;> decide)]
              by_cases hk : k ∈ (["g_yy_old", "g_yy_correct"] : List String)
              · exact hno k (by simpa using hk)
              · simp only [List.mem_cons, List.not_mem_nil, or_false, not_or] at hk
                refine tr k ?_
                simp only [List.mem_cons, List.not_mem_nil, or_false, not_or]
                exact ⟨hk.1, Ne.symm n2, Ne.symm n1, hk.2⟩

/-- C95 is false in Cartesian coordinates.  A writer that rejects every array
fails first; the second attempt, with a writer accepting everything, writes
`g_yy = 16` where a first attempt would have written `4`. -/
theorem C95_fails : ∃ (g : Grid (PolGrid ℚ) ℚ) (l : List (PolGrid ℚ)) (ys : List ℚ)
    (f : MagField ℚ), MetricGrid g l ys ∧ ¬ C95Claim g f := by
  let f : MagField ℚ := ⟨none, fun _ _ _ => 2, fun _ _ _ => 0, fun _ _ _ => 1, []⟩
  let c1 : MwConf ℚ := ⟨true, false, true, fun _ => false, id⟩
  let c2 : MwConf ℚ := ⟨true, false, true, fun _ => true, id⟩
  obtain ⟨-, -, hl, -⟩ := exMetricGrid_ok.facts
  obtain ⟨M, xx, zz, xz, hM, hxx, hzz, hxz, hn⟩ := nthCall_eq id exMetricGrid _ _ exMetricGrid_ok f
  obtain ⟨r, e, r1, r2, _, _, _, r6⟩ := hn 0
  have hM1 : "g_yy" ∈ ODict.keys M := by
    obtain ⟨_, _, _, m, _, _, _, hm, h1, _⟩ := exMetricGrid_ok.facts
    rw [hM] at hm; injection hm with hm; subst hm
    exact (ODict.mem_keys_iff _ _).2 (by rw [h1]; simp)
  have hM2 : "gyy" ∈ ODict.keys M := by
    obtain ⟨_, _, _, m, _, _, _, hm, _, h1, _⟩ := exMetricGrid_ok.facts
    rw [hM] at hm; injection hm with hm; subst hm
    exact (ODict.mem_keys_iff _ _).2 (by rw [h1]; simp)
  have kr := getMetric_keys hM hM1 hM2 e
  have nr : (ODict.keys r).Nodup := by
    rw [kr]
    exact ODict.nodup_set _ _ _ (ODict.nodup_set _ _ _ (ODict.nodup_set _ _ _ (computeMetric_nodup hM)))
  -- the general form of a call without Ly
  have form : ∀ (cache : Option (Metric ℚ)) (m : Metric ℚ) (b a : Cell → ℚ),
      getMetric id exMetricGrid f cache = .ok (m, b) → m.get? "g_yy" = some a →
      (ODict.keys m).Nodup →
      (writeMetric c1 exMetricGrid f [] [] cache).err ≠ none ∧
      (writeMetric c1 exMetricGrid f [] [] cache).cache =
        some ((m.set "g_yy_cell_ylow" a).set "g_yy_cell_yhigh" a) ∧
      (writeMetric c2 exMetricGrid f [] [] cache).file.get? "g_yy" = some (.f3 a) := by
    intro cache m b a hm ha hnd
    have hadd : addLy m [] = ((m.set "g_yy_cell_ylow" a).set "g_yy_cell_yhigh" a, none) := by
      unfold addLy
      simp only [ODict.get?_nil, ODict.getE_of_get? ha]
    have hne : m ≠ [] := by rintro rfl; simp at ha
    have h1 : getMetric c1.sqrt exMetricGrid f cache = .ok (m, b) := hm
    have h2 : getMetric c2.sqrt exMetricGrid f cache = .ok (m, b) := hm
    have hw1 : ∃ er, writeDict (valOps c1.finite) c1.isOpen c1.metric2d false
        ((((m.set "g_yy_cell_ylow" a).set "g_yy_cell_yhigh" a)).mapV Val.f3) [] = ([], some er) := by
      obtain ⟨p, t, hpt⟩ : ∃ p t, (m.set "g_yy_cell_ylow" a).set "g_yy_cell_yhigh" a = p :: t := by
        cases hq : (m.set "g_yy_cell_ylow" a).set "g_yy_cell_yhigh" a with
        | nil =>
          have := ODict.get?_set_self (m.set "g_yy_cell_ylow" a) "g_yy_cell_yhigh" a
          rw [hq] at this; simp at this
        | cons p t => exact ⟨p, t, rfl⟩
      rw [hpt]
      exact ⟨_, rfl⟩
    obtain ⟨er, hw1⟩ := hw1
    have w1 : writeMetric c1 exMetricGrid f [] [] cache =
        ⟨[], some ((m.set "g_yy_cell_ylow" a).set "g_yy_cell_yhigh" a), some er⟩ := by
      unfold writeMetric
      simp only [h1, hadd, show c1.newNames = true from rfl, if_true, hw1]
    have hw2 : writeDict (valOps c2.finite) c2.isOpen c2.metric2d false
          ((((m.set "g_yy_cell_ylow" a).set "g_yy_cell_yhigh" a)).mapV Val.f3) [] =
          (((((m.set "g_yy_cell_ylow" a).set "g_yy_cell_yhigh" a)).mapV Val.f3).foldl
            (fun d p => ODict.set d p.1 p.2) [], none) :=
        writeEntries_ok (valOps c2.finite) _ (fun _ => rfl) []
    have w2 : (writeMetric c2 exMetricGrid f [] [] cache).file =
        (((m.set "g_yy_cell_ylow" a).set "g_yy_cell_yhigh" a).mapV Val.f3).foldl
            (fun d p => ODict.set d p.1 p.2) [] := by
      unfold writeMetric
      simp only [h2, hadd, show c2.newNames = true from rfl, if_true, hw2,
        show f.attributes = [] from rfl]
      rfl
    refine ⟨by rw [w1]; simp, by rw [w1], ?_⟩
    rw [w2, ODict.get?_foldl_set, ODict.get?_mapV, ODict.get?_set_ne _ _ (by decide),
        ODict.get?_set_ne _ _ (by decide), ha]
    · rfl
    · rw [ODict.keys_mapV]
      exact ODict.nodup_set _ _ _ (ODict.nodup_set _ _ _ hnd)
  obtain ⟨a, ra, hav⟩ : ∃ a, r.get? "g_yy" = some a ∧ a (0, 0, 0) = 4 := by
    refine ⟨_, r1, ?_⟩
    simp only [f, Function.iterate_one, Nat.zero_add]
    norm_num [scaled, evalAt]
  obtain ⟨b, rb⟩ : ∃ b, r.get? "gyy" = some b := ⟨_, r2⟩
  obtain ⟨f1, f2, f3⟩ := form none r _ a e ra nr
  -- second call
  have g1 : ∀ k, k ≠ "g_yy_cell_ylow" → k ≠ "g_yy_cell_yhigh" →
      ODict.get? ((r.set "g_yy_cell_ylow" a).set "g_yy_cell_yhigh" a) k = r.get? k := by
    intro k k1 k2
    rw [ODict.get?_set_ne _ _ k2, ODict.get?_set_ne _ _ k1]
  obtain ⟨t, e2, t1, _⟩ := getMetric_eq id exMetricGrid hl f
    (some ((r.set "g_yy_cell_ylow" a).set "g_yy_cell_yhigh" a)) _ rfl a b xx zz xz
    (by rw [g1 _ (by decide) (by decide)]; exact ra)
    (by rw [g1 _ (by decide) (by decide)]; exact rb)
    (by rw [g1 _ (by decide) (by decide), r6 _ (by decide)]; exact hxx)
    (by rw [g1 _ (by decide) (by decide), r6 _ (by decide)]; exact hzz)
    (by rw [g1 _ (by decide) (by decide), r6 _ (by decide)]; exact hxz)
  have kt := getMetric_keys (cache := some ((r.set "g_yy_cell_ylow" a).set "g_yy_cell_yhigh" a)) rfl
    ((ODict.mem_keys_iff _ _).2 (by rw [g1 _ (by decide) (by decide), ra]; simp))
    ((ODict.mem_keys_iff _ _).2 (by rw [g1 _ (by decide) (by decide), rb]; simp)) e2
  have nt : (ODict.keys t).Nodup := by
    rw [kt]
    exact ODict.nodup_set _ _ _ (ODict.nodup_set _ _ _ (ODict.nodup_set _ _ _
      (ODict.nodup_set _ _ _ (ODict.nodup_set _ _ _ nr))))
  obtain ⟨_, _, f6⟩ := form _ t _ _ e2 t1 nt
  refine ⟨exMetricGrid, _, _, f, exMetricGrid_ok, ?_⟩
  intro hcl
  have h := hcl c1 c2 [] [] [] f1
  rw [f2] at h
  have h := congrArg (fun d => ODict.get? d "g_yy") h
  beta_reduce at h
  rw [f3, f6] at h
  injection h with h
  injection h with h
  have h := congrFun h (0, 0, 0)
  rw [hav] at h
  have hlen : (0 : ℕ) < exMetricGrid.ycoords.length := by decide
  simp only [scaled, hlen, if_true, baseLow, f] at h
  rw [hav] at h
  norm_num [evalAt, exMetricGrid] at h

/-- The hypotheses of `C95_cylindrical_partial` are met. -/
example : C95Claim exMetricGrid ⟨some fun R _ _ => R + 1, fun _ _ _ => 2, fun _ _ _ => 0,
    fun _ _ _ => 1, []⟩ :=
  C95_cylindrical_partial exMetricGrid _ _ exMetricGrid_ok _ (by simp)

end Zoidberg
