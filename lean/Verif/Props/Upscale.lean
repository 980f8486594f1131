import Verif.Model.Upscale
import Mathlib.Tactic.Linarith
import Mathlib.Tactic.Ring
import Mathlib.Tactic.FieldSimp
import Mathlib.Tactic.NormNum
import Mathlib.Algebra.Order.Field.Basic

/-!
# C43, C107, C108, C117: `upscale`
-/

set_option linter.unusedSectionVars false

namespace Zoidberg

variable {K : Type} [Field K]

theorem div_mod_pair {a b n : ℕ} (h : b < n) : (a * n + b) / n = a ∧ (a * n + b) % n = b := by
  have hn : 0 < n := by omega
  constructor
  · rw [Nat.add_comm, Nat.add_mul_div_right _ _ hn, Nat.div_eq_of_lt h, Nat.zero_add]
  · rw [Nat.add_comm, Nat.add_mul_mod_self_right, Nat.mod_eq_of_lt h]

theorem ravel_lt : ∀ {s i : List ℕ}, InShape s i → ravel s i < s.prod
  | [], [], _ => by simp [ravel]
  | n :: s, i :: t, h => by
    have := ravel_lt h.2
    simp only [ravel, List.prod_cons]
    calc i * s.prod + ravel s t < i * s.prod + s.prod := by omega
      _ = (i + 1) * s.prod := by ring
      _ ≤ n * s.prod := Nat.mul_le_mul_right _ h.1

theorem unravel_ravel : ∀ {s i : List ℕ}, InShape s i → unravel s (ravel s i) = i
  | [], [], _ => rfl
  | n :: s, i :: t, h => by
    obtain ⟨h1, h2⟩ := div_mod_pair (a := i) (ravel_lt h.2)
    simp only [ravel, unravel, h1, h2, unravel_ravel h.2]

theorem inShape_unravel : ∀ (s : List ℕ) (k : ℕ), k < s.prod → InShape s (unravel s k)
  | [], _, _ => trivial
  | n :: s, k, h => by
    rw [List.prod_cons] at h
    have hp : 0 < s.prod := by
      rcases Nat.eq_zero_or_pos s.prod with e | e
      · rw [e] at h; simp at h
      · exact e
    exact ⟨(Nat.div_lt_iff_lt_mul hp).2 h, inShape_unravel s _ (Nat.mod_lt _ hp)⟩

theorem ravel_unravel : ∀ (s : List ℕ) (k : ℕ), k < s.prod → ravel s (unravel s k) = k
  | [], k, h => by simp at h; simp [ravel, h]
  | n :: s, k, h => by
    rw [List.prod_cons] at h
    have hp : 0 < s.prod := by
      rcases Nat.eq_zero_or_pos s.prod with e | e
      · rw [e] at h; simp at h
      · exact e
    simp only [ravel, unravel, ravel_unravel s _ (Nat.mod_lt _ hp)]
    rw [Nat.mul_comm]
    exact Nat.div_add_mod k s.prod

/-- The order of the output of `twizzle`: plane `y` of factor step `m` is plane
`y * factor + m`. -/
theorem twizzle_val {nx factor ny nz : ℕ} {a r : NdArray K} (hs : a.shape = [factor, nx, ny, nz])
    (h : twizzle nx factor ny nz a = .ok r) (m x y z : ℕ) (hm : m < factor) (hx : x < nx) (hy : y < ny)
    (hz : z < nz) : r.val [x, y * factor + m, z] = a.val [m, x, y, z] := by
  unfold twizzle NdArray.reshape NdArray.transpose at h
  simp only [hs] at h
  split at h
  · simp at h
  · injection h with h
    subst h
    have e : ravel [nx, factor * ny, nz] [x, y * factor + m, z] =
        ravel ([1, 2, 0, 3].map fun j => [factor, nx, ny, nz].getD j 0) [x, y, m, z] := by
      simp only [ravel, List.prod_cons, List.prod_nil, List.map_cons, List.map_nil, List.getD_cons_succ,
        List.getD_cons_zero]
      ring
    have hin : InShape ([1, 2, 0, 3].map fun j => [factor, nx, ny, nz].getD j 0) [x, y, m, z] :=
      ⟨hx, hy, hm, hz, trivial⟩
    simp only [e, unravel_ravel hin]
    rfl

theorem twizzle_ok {nx factor ny nz : ℕ} {a : NdArray K} (hs : a.shape = [factor, nx, ny, nz]) :
    ∃ r, twizzle nx factor ny nz a = .ok r ∧ r.shape = [nx, factor * ny, nz] := by
  unfold twizzle NdArray.reshape NdArray.transpose
  simp only [hs]
  rw [if_neg]
  · exact ⟨_, rfl, rfl⟩
  · simp only [List.prod_cons, List.prod_nil, List.map_cons, List.map_nil, List.getD_cons_succ,
      List.getD_cons_zero, not_not]
    ring

/-- **C43.** `twizzle` succeeds on every array of four axes and puts the element
`(m, x, y, z)` at `(x, y * factor + m, z)`. -/
theorem C43_positions (nx factor ny nz : ℕ) (a : NdArray K) (hs : a.shape = [factor, nx, ny, nz]) :
    ∃ r, twizzle nx factor ny nz a = .ok r ∧ r.shape = [nx, factor * ny, nz] ∧
      ∀ m < factor, ∀ x < nx, ∀ y < ny, ∀ z < nz, r.val [x, y * factor + m, z] = a.val [m, x, y, z] := by
  obtain ⟨r, h1, h2⟩ := twizzle_ok hs
  exact ⟨r, h1, h2, fun m hm x hx y hy z hz => twizzle_val hs h1 m x y z hm hx hy hz⟩

/-- **C43.** Every position of the output is that of exactly one element of the input. -/
theorem C43_bijection (factor ny Y : ℕ) (hY : Y < factor * ny) :
    ∃! p : ℕ × ℕ, p.1 < factor ∧ p.2 < ny ∧ p.2 * factor + p.1 = Y := by
  have hf : 0 < factor := by
    rcases Nat.eq_zero_or_pos factor with e | e
    · rw [e] at hY; simp at hY
    · exact e
  refine ⟨(Y % factor, Y / factor), ⟨Nat.mod_lt _ hf, ?_, ?_⟩, ?_⟩
  · exact Nat.div_lt_of_lt_mul hY
  · simp only
    rw [Nat.mul_comm]
    exact Nat.div_add_mod Y factor
  · rintro ⟨m, y⟩ ⟨h1, _, h3⟩
    obtain ⟨q1, q2⟩ := div_mod_pair (a := y) h1
    simp only at h3
    rw [h3] at q1 q2
    rw [q1, q2]

/-- **C43.** The positions are ordered along the field line: by plane, then by step. -/
theorem C43_order (factor m m' y y' : ℕ) (hm : m < factor) (hm' : m' < factor) :
    y * factor + m < y' * factor + m' ↔ y < y' ∨ (y = y' ∧ m < m') := by
  constructor
  · intro h
    rcases Nat.lt_trichotomy y y' with h' | rfl | h'
    · exact Or.inl h'
    · exact Or.inr ⟨rfl, by omega⟩
    · exfalso
      have : (y' + 1) * factor ≤ y * factor := Nat.mul_le_mul_right _ h'
      rw [Nat.add_mul] at this
      omega
  · rintro (h | ⟨rfl, h⟩)
    · have : (y + 1) * factor ≤ y' * factor := Nat.mul_le_mul_right _ h
      rw [Nat.add_mul] at this
      omega
    · omega

/-- Three steps in each of two planes. -/
example : ∃ r, twizzle 1 3 2 1 (⟨[3, 1, 2, 1], fun i => (ravel [3, 1, 2, 1] i : ℚ)⟩ : NdArray ℚ) = .ok r ∧
    (List.range 6).map (fun Y => r.val [0, Y, 0]) = [0, 2, 4, 1, 3, 5] := by
  obtain ⟨r, h1, _, h3⟩ := C43_positions 1 3 2 1
    (⟨[3, 1, 2, 1], fun i => (ravel [3, 1, 2, 1] i : ℚ)⟩ : NdArray ℚ) rfl
  refine ⟨r, h1, ?_⟩
  have a := fun m hm y hy => h3 m hm 0 (by decide) y hy 0 (by decide)
  have := a 0 (by decide) 0 (by decide)
  have := a 1 (by decide) 0 (by decide)
  have := a 2 (by decide) 0 (by decide)
  have := a 0 (by decide) 1 (by decide)
  have := a 1 (by decide) 1 (by decide)
  have := a 2 (by decide) 1 (by decide)
  norm_num [ravel] at *
  simp only [List.range, List.range.loop, List.map_cons, List.map_nil, *]

/-! ## C107 -/

/-- Both interpolations are exact at the points where they have data. -/
structure Interp.Exact (ip : Interp K) : Prop where
  mapCoords : ∀ (a : NdArray K) i, InShape a.shape i → ip.mapCoords a (i.map fun n : ℕ => (n : K)) = a.val i
  griddata : ∀ (pts : List (K × K)) (vals : List K) (n : ℕ) p v, pts.Nodup → pts[n]? = some p →
    vals[n]? = some v → ip.griddata pts vals p = v

theorem planes_flat {nx ny nz k n : ℕ} {a : NdArray K} (hs : a.shape = [nx, ny, nz])
    (hn : n < nz * nx) : ((planes a).row k).flat[n]? = some (a.val [n % nx, k, n / nx]) := by
  have hx : 0 < nx := by
    rcases Nat.eq_zero_or_pos nx with e | e
    · rw [e] at hn; simp at hn
    · exact e
  unfold planes NdArray.flat NdArray.row NdArray.T NdArray.transpose
  have h1 : (List.map (fun j => a.shape.getD j 0) [0, 2, 1]).reverse.tail = [nz, nx] := by
    simp [hs]
  simp only [h1]
  have h2 : n < [nz, nx].prod := by simpa using hn
  rw [List.getElem?_map, List.getElem?_range h2, Option.map_some]
  simp only [unravel, List.prod_cons, List.prod_nil, Nat.mul_one, Nat.div_one, List.reverse_cons,
    List.reverse_nil, List.nil_append, List.cons_append]
  rfl

theorem flat_length {nx ny nz k : ℕ} {a : NdArray K} (hs : a.shape = [nx, ny, nz]) :
    ((planes a).row k).flat.length = nz * nx := by
  unfold planes NdArray.flat NdArray.row NdArray.T NdArray.transpose
  simp [hs]

section Ordered
variable [LinearOrder K] [IsStrictOrderedRing K]

/-- A plane of which the points are the grid points keeps its values. -/
theorem upscalePlane_exact {ip : Interp K} (he : ip.Exact) {nx N nz k : ℕ} {hx hz hf : NdArray K}
    (sx : hx.shape = [nx, N, nz]) (sz : hz.shape = [nx, N, nz]) (sf : hf.shape = [nx, N, nz])
    (vx : ∀ x < nx, ∀ z < nz, hx.val [x, k, z] = (x : K))
    (vz : ∀ x < nx, ∀ z < nz, hz.val [x, k, z] = (z : K)) (x z : ℕ) (hx' : x < nx) (hz' : z < nz) :
    upscalePlane ip hx hz hf k x z = hf.val [x, k, z] := by
  have hpos : ∀ n < nz * nx, n % nx < nx ∧ n / nx < nz := by
    intro n hn
    have : 0 < nx := by omega
    exact ⟨Nat.mod_lt _ this, (Nat.div_lt_iff_lt_mul this).2 hn⟩
  have hpts : ∀ n < nz * nx, (((planes hx).row k).flat.zip ((planes hz).row k).flat)[n]? =
      some (((n % nx : ℕ) : K), ((n / nx : ℕ) : K)) := by
    intro n hn
    obtain ⟨a, b⟩ := hpos n hn
    rw [List.getElem?_zip_eq_some, planes_flat sx hn, planes_flat sz hn, vx _ a _ b, vz _ a _ b]
    exact ⟨rfl, rfl⟩
  have hlen : (((planes hx).row k).flat.zip ((planes hz).row k).flat).length = nz * nx := by
    rw [List.length_zip, flat_length sx, flat_length sz, Nat.min_self]
  have hn : z * nx + x < nz * nx := by
    calc z * nx + x < z * nx + nx := by omega
      _ = (z + 1) * nx := by ring
      _ ≤ nz * nx := Nat.mul_le_mul_right _ hz'
  obtain ⟨d1, d2⟩ := div_mod_pair (a := z) hx'
  unfold upscalePlane
  refine he.griddata _ _ (z * nx + x) _ _ ?_ ?_ ?_
  · rw [List.nodup_iff_injective_get]
    intro i j hij
    have hi : (i : ℕ) < nz * nx := by rw [← hlen]; exact i.2
    have hj : (j : ℕ) < nz * nx := by rw [← hlen]; exact j.2
    have e1 := hpts i hi
    have e2 := hpts j hj
    rw [List.getElem?_eq_getElem i.2, Option.some.injEq] at e1
    rw [List.getElem?_eq_getElem j.2, Option.some.injEq] at e2
    simp only [List.get_eq_getElem] at hij
    rw [e1, e2, Prod.mk.injEq, Nat.cast_inj, Nat.cast_inj] at hij
    apply Fin.ext
    rw [← Nat.div_add_mod (i : ℕ) nx, ← Nat.div_add_mod (j : ℕ) nx, hij.1, hij.2]
  · rw [hpts _ hn, d1, d2]
  · rw [planes_flat sf hn, d1, d2]

/-- The value on a field line at its start. -/
theorem alongLine_start {ip : Interp K} (he : ip.Exact) (factor nx ny nz : ℕ) (hf : 0 < factor)
    (start end_ : ℕ → ℕ → ℕ → K) (x y z : ℕ) (hx : x < nx) (hy : y < ny) (hz : z < nz) :
    (alongLine ip factor nx ny nz (startEnd nx ny nz start end_)).val [0, x, y, z] = start x y z := by
  have h0 : (linspaceOpen (0 : K) 1 factor).getD 0 0 = ((0 : ℕ) : K) := by
    unfold linspaceOpen
    rw [List.getD_eq_getElem?_getD, List.getElem?_map, List.getElem?_range hf]
    simp
  unfold alongLine
  simp only [List.getD_cons_succ, List.getD_cons_zero, h0]
  exact he.mapCoords (startEnd nx ny nz start end_) [0, x, y, z] ⟨by omega, hx, hy, hz, trivial⟩

/-- What `upscale` computes if it returns. -/
theorem upscale_ok {ip : Interp K} {field xt zt r : NdArray K} {factor : ℕ} {quiet : Bool}
    (h : upscale ip field xt zt factor quiet = .ok r) :
    ∃ fld nx ny nz hf hx hz, upscaleField field xt = .ok fld ∧ xt.shape = [nx, ny, nz] ∧ 0 < ny ∧ 0 < factor ∧
      twizzle nx factor ny nz (alongLine ip factor nx ny nz (startEnd nx ny nz (fun x y z => fld.val [x, y, z])
        fun x y z => ip.mapCoords fld [xt.val [x, y, z], (yup ny y : ℕ), zt.val [x, y, z]])) = .ok hf ∧
      twizzle nx factor ny nz (alongLine ip factor nx ny nz (startEnd nx ny nz (fun x _ _ => (x : K))
        fun x y z => xt.val [x, y, z])) = .ok hx ∧
      twizzle nx factor ny nz (alongLine ip factor nx ny nz (startEnd nx ny nz (fun _ _ z => (z : K))
        fun x y z => zt.val [x, y, z])) = .ok hz ∧
      r = ⟨[nx, factor * ny, nz], fun i => upscalePlane ip hx hz hf (i.getD 1 0) (i.getD 0 0) (i.getD 2 0)⟩ := by
  unfold upscale at h
  cases hu : upscaleField field xt with
  | error e => rw [hu] at h; simp [bind, Except.bind] at h
  | ok fld =>
    rw [hu] at h
    simp only [bind, Except.bind] at h
    split at h
    · rename_i nx ny nz hs
      split at h
      · simp at h
      · split at h
        · simp at h
        · rename_i h1 h2
          obtain ⟨hf, f1, _⟩ := twizzle_ok (a := alongLine ip factor nx ny nz (startEnd nx ny nz
            (fun x y z => fld.val [x, y, z])
            fun x y z => ip.mapCoords fld [xt.val [x, y, z], (yup ny y : ℕ), zt.val [x, y, z]])) rfl
          obtain ⟨hx, x1, _⟩ := twizzle_ok (a := alongLine ip factor nx ny nz (startEnd nx ny nz
            (fun x _ _ => (x : K)) fun x y z => xt.val [x, y, z])) rfl
          obtain ⟨hz, z1, _⟩ := twizzle_ok (a := alongLine ip factor nx ny nz (startEnd nx ny nz
            (fun _ _ z => (z : K)) fun x y z => zt.val [x, y, z])) rfl
          simp only [f1, x1, z1] at h
          split at h
          · simp at h
          · simp only [pure, Except.pure, Except.ok.injEq] at h
            exact ⟨fld, nx, ny, nz, hf, hx, hz, rfl, hs, by omega, by omega, f1, x1, z1, h.symm⟩
    · simp at h

/-- **C107.** If both interpolations are exact where they have data, then `upscale` returns
an array with `factor` times as many planes, of which every `factor`-th is a plane of the
field. -/
theorem C107_original_planes (ip : Interp K) (he : ip.Exact) (field xt zt : NdArray K) (factor : ℕ)
    (quiet : Bool) (nx ny nz : ℕ) (hxt : xt.shape = [nx, ny, nz]) (hfs : field.shape = [nx, ny, nz])
    (r : NdArray K) (h : upscale ip field xt zt factor quiet = .ok r) :
    r.shape = [nx, factor * ny, nz] ∧
      ∀ x < nx, ∀ y < ny, ∀ z < nz, r.val [x, y * factor, z] = field.val [x, y, z] := by
  obtain ⟨fld, nx', ny', nz', hf, hx, hz, u, s, _, fpos, f1, x1, z1, e⟩ := upscale_ok h
  rw [hxt] at s
  simp only [List.cons.injEq, and_true] at s
  obtain ⟨rfl, rfl, rfl⟩ := s
  have hfld : fld = field := by
    unfold upscaleField at u
    rw [hxt, hfs] at u
    simp only [ne_eq, not_true_eq_false, if_false, Except.ok.injEq] at u
    exact u.symm
  subst hfld
  subst e
  refine ⟨rfl, ?_⟩
  intro x hx' y hy z hz'
  have key : ∀ (a : NdArray K) (st en : ℕ → ℕ → ℕ → K), twizzle nx factor ny nz
      (alongLine ip factor nx ny nz (startEnd nx ny nz st en)) = .ok a →
      a.shape = [nx, factor * ny, nz] ∧
        ∀ x < nx, ∀ z < nz, a.val [x, y * factor, z] = st x y z := by
    intro a st en ha
    have hs : (alongLine ip factor nx ny nz (startEnd nx ny nz st en)).shape = [factor, nx, ny, nz] := rfl
    obtain ⟨r', q1, q2⟩ := twizzle_ok hs
    rw [ha] at q1
    injection q1 with q1
    subst q1
    refine ⟨q2, ?_⟩
    intro x hx z hz
    have := twizzle_val hs ha 0 x y z fpos hx hy hz
    rw [Nat.add_zero] at this
    rw [this, alongLine_start he factor nx ny nz fpos st en x y z hx hy hz]
  obtain ⟨sf, vf⟩ := key _ _ _ f1
  obtain ⟨sx, vx⟩ := key _ _ _ x1
  obtain ⟨sz, vz⟩ := key _ _ _ z1
  simp only [List.getD_cons_succ, List.getD_cons_zero]
  rw [upscalePlane_exact he sx sz sf vx vz x z hx' hz', vf x hx' z hz']

/-- **C107.** It returns for every grid with at least one plane and every field of its shape
(without progress bar). -/
theorem C107_returns (ip : Interp K) (field xt zt : NdArray K) (factor : ℕ) (nx ny nz : ℕ)
    (hxt : xt.shape = [nx, ny, nz]) (hfs : field.shape = [nx, ny, nz]) (hy : 0 < ny) (hf : 0 < factor) :
    ∃ r, upscale ip field xt zt factor true = .ok r := by
  have hu : upscaleField field xt = .ok field := by
    unfold upscaleField
    rw [hxt, hfs]
    simp
  have hq : ∀ l : List ℕ, ∃ q, l.mapM (upscaleProgress (K := K) true ny) = .ok q := by
    intro l
    induction l with
    | nil => exact ⟨[], rfl⟩
    | cons k t ih =>
      obtain ⟨q, hq⟩ := ih
      exact ⟨none :: q, by rw [List.mapM_cons, hq]; rfl⟩
  obtain ⟨q, hq⟩ := hq (List.range (factor * ny))
  unfold upscale
  rw [hu]
  simp only [bind, Except.bind, hxt]
  rw [if_neg (by omega), if_neg (by omega)]
  obtain ⟨a, f1, _⟩ := twizzle_ok (a := alongLine ip factor nx ny nz (startEnd nx ny nz
    (fun x y z => field.val [x, y, z])
    fun x y z => ip.mapCoords field [xt.val [x, y, z], (yup ny y : ℕ), zt.val [x, y, z]])) rfl
  obtain ⟨b, x1, _⟩ := twizzle_ok (a := alongLine ip factor nx ny nz (startEnd nx ny nz
    (fun x _ _ => (x : K)) fun x y z => xt.val [x, y, z])) rfl
  obtain ⟨c, z1, _⟩ := twizzle_ok (a := alongLine ip factor nx ny nz (startEnd nx ny nz
    (fun _ _ z => (z : K)) fun x y z => zt.val [x, y, z])) rfl
  simp only [f1, x1, z1, hq]
  exact ⟨_, rfl⟩

/-- **C107.** A field with the axes in the opposite order is transposed first. -/
theorem C107_transposed (ip : Interp K) (he : ip.Exact) (field xt zt : NdArray K) (factor : ℕ)
    (quiet : Bool) (nx ny nz : ℕ) (hxt : xt.shape = [nx, ny, nz]) (hfs : field.shape = [nz, ny, nx])
    (hne : nx ≠ nz) (r : NdArray K) (h : upscale ip field xt zt factor quiet = .ok r) :
    ∀ x < nx, ∀ y < ny, ∀ z < nz, r.val [x, y * factor, z] = field.val [z, y, x] := by
  have e : upscaleField field xt =
      .ok ⟨[nx, ny, nz], fun i => field.val (unravel [nz, ny, nx] (ravel [nz, ny, nx] i.reverse))⟩ := by
    unfold upscaleField NdArray.reshape NdArray.T
    simp [hxt, hfs, hne.symm]
  have h' : upscale ip ⟨[nx, ny, nz], fun i => field.val (unravel [nz, ny, nx] (ravel [nz, ny, nx] i.reverse))⟩
      xt zt factor quiet = .ok r := by
    rw [← h]
    unfold upscale
    rw [e]
    have : upscaleField ⟨[nx, ny, nz], fun i => field.val (unravel [nz, ny, nx] (ravel [nz, ny, nx] i.reverse))⟩
        xt = .ok ⟨[nx, ny, nz], fun i => field.val (unravel [nz, ny, nx] (ravel [nz, ny, nx] i.reverse))⟩ := by
      unfold upscaleField
      rw [hxt]
      simp
    rw [this]
  intro x hx y hy z hz
  rw [(C107_original_planes ip he _ xt zt factor quiet nx ny nz hxt rfl r h').2 x hx y hy z hz]
  have hin : InShape [nz, ny, nx] [z, y, x] := ⟨hz, hy, hx, trivial⟩
  simp [unravel_ravel hin]

/-- **C108**, the claim: the progress bar does not change what `upscale` returns. -/
def ProgressHarmless (ip : Interp K) (field xt zt : NdArray K) (factor : ℕ) : Prop :=
  upscale ip field xt zt factor false = upscale ip field xt zt factor true

/-- **C108** for grids with more than one plane.  Missing: grids with a single plane, for
which `C108_fails` shows that it is false. -/
theorem C108_progress_partial (ip : Interp K) (field xt zt : NdArray K) (factor : ℕ) (nx ny nz : ℕ)
    (hxt : xt.shape = [nx, ny, nz]) (hy : ny ≠ 1) : ProgressHarmless ip field xt zt factor := by
  have hq : ∀ (q : Bool) (l : List ℕ), ∃ r, l.mapM (upscaleProgress (K := K) q ny) = .ok r := by
    intro q l
    induction l with
    | nil => exact ⟨[], rfl⟩
    | cons k t ih =>
      obtain ⟨r, hr⟩ := ih
      cases q with
      | true => exact ⟨none :: r, by rw [List.mapM_cons, hr]; rfl⟩
      | false =>
        refine ⟨some ((k : K) / ((ny : K) - 1)) :: r, ?_⟩
        rw [List.mapM_cons, hr]
        unfold upscaleProgress
        rw [if_neg (by simp), if_neg hy]
        rfl
  obtain ⟨r1, h1⟩ := hq true (List.range (factor * ny))
  obtain ⟨r2, h2⟩ := hq false (List.range (factor * ny))
  unfold ProgressHarmless upscale
  simp only [hxt, h1, h2]
  rfl

end Ordered

/-! ### An exact interpolation -/

/-- Nearest smaller index, and exact values at the data points. -/
def exInterp : Interp ℚ :=
  ⟨fun a p => a.val (p.map fun q => ⌊q⌋.toNat), fun pts vals p => vals.getD (pts.idxOf p) 0⟩

theorem exInterp_exact : exInterp.Exact where
  mapCoords a i _ := by
    have : (i.map fun n : ℕ => (n : ℚ)).map (fun q => ⌊q⌋.toNat) = i := by
      rw [List.map_map]
      conv_rhs => rw [← List.map_id i]
      apply List.map_congr_left
      intro n _
      simp
    change a.val _ = _
    rw [this]
  griddata pts vals n p v hn hp hv := by
    obtain ⟨hlt, hp⟩ := List.getElem?_eq_some_iff.1 hp
    change vals.getD (pts.idxOf p) 0 = v
    rw [← hp, List.Nodup.idxOf_getElem hn, List.getD_eq_getElem?_getD, hv]
    rfl

/-- A field on two points by three planes by two points, with moving field lines. -/
def exUpField : NdArray ℚ := ⟨[2, 3, 2], fun i => ravel [2, 3, 2] i⟩

/-- The ends of the field lines. -/
def exUpXt : NdArray ℚ := ⟨[2, 3, 2], fun i => (i.getD 0 0 : ℚ) / 2 + 1 / 4⟩

example : ∃ r, upscale exInterp exUpField exUpXt exUpXt 4 true = .ok r ∧ r.shape = [2, 12, 2] ∧
    r.val [1, 8, 1] = 11 := by
  obtain ⟨r, hr⟩ := C107_returns exInterp exUpField exUpXt exUpXt 4 2 3 2 rfl rfl (by decide) (by decide)
  obtain ⟨h1, h2⟩ := C107_original_planes exInterp exInterp_exact exUpField exUpXt exUpXt 4 true 2 3 2 rfl rfl
    r hr
  refine ⟨r, hr, h1, ?_⟩
  rw [h2 1 (by decide) 2 (by decide) 1 (by decide)]
  norm_num [exUpField, ravel]

example : ProgressHarmless exInterp exUpField exUpXt exUpXt 4 :=
  C108_progress_partial _ _ _ _ _ 2 3 2 rfl (by decide)

/-- **C108** is false: with a single plane the progress bar divides by zero. -/
theorem C108_fails : ∃ (ip : Interp ℚ) (field xt zt : NdArray ℚ) (factor : ℕ),
    ¬ ProgressHarmless ip field xt zt factor := by
  refine ⟨exInterp, ⟨[2, 1, 2], fun _ => 1⟩, ⟨[2, 1, 2], fun _ => 0⟩, ⟨[2, 1, 2], fun _ => 0⟩, 4, ?_⟩
  intro h
  obtain ⟨r, hr⟩ := C107_returns exInterp ⟨[2, 1, 2], fun _ => 1⟩ ⟨[2, 1, 2], fun _ => 0⟩ ⟨[2, 1, 2], fun _ => 0⟩
    4 2 1 2 rfl rfl (by decide) (by decide)
  unfold ProgressHarmless at h
  rw [hr] at h
  have e : (List.range (4 * 1)).mapM (upscaleProgress (K := ℚ) false 1) =
      .error (.runtime "ZeroDivisionError") := rfl
  obtain ⟨fld, nx', ny', nz', hf, hx, hz, u, s, _, fpos, f1, x1, z1, e'⟩ := upscale_ok h
  unfold upscale at h
  simp only [u, e, bind, Except.bind] at h
  simp only [List.cons.injEq, and_true] at s
  obtain ⟨rfl, rfl, rfl⟩ := s
  simp [f1, x1, z1] at h

/-! ## C117 -/

section Between
variable [LinearOrder K] [IsStrictOrderedRing K]

/-- Along the first axis of two entries the interpolation is a blend with the weight `w`, and
it is exact in the other directions.  (Splines are linear in the data, exact at the indices,
and keep constants.) -/
def Interp.Blends (ip : Interp K) (w : K → K) : Prop :=
  ∀ (a : NdArray K) (nx ny nz : ℕ) (t : K) (x y z : ℕ), a.shape = [2, nx, ny, nz] → 0 ≤ t → t < 1 → x < nx →
    y < ny → z < nz →
    ip.mapCoords a [t, (x : K), (y : K), (z : K)] = (1 - w t) * a.val [0, x, y, z] + w t * a.val [1, x, y, z]

/-- A point of a plane that is a grid point keeps its value, if no two points coincide. -/
theorem upscalePlane_point {ip : Interp K} (he : ip.Exact) {nx N nz k : ℕ} {hx hz hf : NdArray K}
    (sx : hx.shape = [nx, N, nz]) (sz : hz.shape = [nx, N, nz]) (sf : hf.shape = [nx, N, nz])
    (inj : ∀ x < nx, ∀ z < nz, ∀ x' < nx, ∀ z' < nz, hx.val [x, k, z] = hx.val [x', k, z'] →
      hz.val [x, k, z] = hz.val [x', k, z'] → x = x' ∧ z = z')
    (x z X Z : ℕ) (hx' : x < nx) (hz' : z < nz) (eX : hx.val [x, k, z] = (X : K)) (eZ : hz.val [x, k, z] = (Z : K)) :
    upscalePlane ip hx hz hf k X Z = hf.val [x, k, z] := by
  have hpos : ∀ n < nz * nx, n % nx < nx ∧ n / nx < nz := by
    intro n hn
    have : 0 < nx := by omega
    exact ⟨Nat.mod_lt _ this, (Nat.div_lt_iff_lt_mul this).2 hn⟩
  have hpts : ∀ n < nz * nx, (((planes hx).row k).flat.zip ((planes hz).row k).flat)[n]? =
      some (hx.val [n % nx, k, n / nx], hz.val [n % nx, k, n / nx]) := by
    intro n hn
    rw [List.getElem?_zip_eq_some, planes_flat sx hn, planes_flat sz hn]
    exact ⟨rfl, rfl⟩
  have hlen : (((planes hx).row k).flat.zip ((planes hz).row k).flat).length = nz * nx := by
    rw [List.length_zip, flat_length sx, flat_length sz, Nat.min_self]
  have hn : z * nx + x < nz * nx := by
    calc z * nx + x < z * nx + nx := by omega
      _ = (z + 1) * nx := by ring
      _ ≤ nz * nx := Nat.mul_le_mul_right _ hz'
  obtain ⟨d1, d2⟩ := div_mod_pair (a := z) hx'
  unfold upscalePlane
  refine he.griddata _ _ (z * nx + x) _ _ ?_ ?_ ?_
  · rw [List.nodup_iff_injective_get]
    intro i j hij
    have hi : (i : ℕ) < nz * nx := by rw [← hlen]; exact i.2
    have hj : (j : ℕ) < nz * nx := by rw [← hlen]; exact j.2
    have e1 := hpts i hi
    have e2 := hpts j hj
    rw [List.getElem?_eq_getElem i.2, Option.some.injEq] at e1
    rw [List.getElem?_eq_getElem j.2, Option.some.injEq] at e2
    simp only [List.get_eq_getElem] at hij
    rw [e1, e2, Prod.mk.injEq] at hij
    obtain ⟨q1, q2⟩ := hpos _ hi
    obtain ⟨q3, q4⟩ := hpos _ hj
    obtain ⟨m1, m2⟩ := inj _ q1 _ q2 _ q3 _ q4 hij.1 hij.2
    apply Fin.ext
    rw [← Nat.div_add_mod (i : ℕ) nx, ← Nat.div_add_mod (j : ℕ) nx, m1, m2]
  · rw [hpts _ hn, d1, d2, eX, eZ]
  · rw [planes_flat sf hn, d1, d2]

/-- The value on a field line at step `m`. -/
theorem alongLine_blend {ip : Interp K} {w : K → K} (hb : ip.Blends w) (factor nx ny nz m : ℕ) (hm : m < factor)
    (start end_ : ℕ → ℕ → ℕ → K) (x y z : ℕ) (hx : x < nx) (hy : y < ny) (hz : z < nz) :
    (alongLine ip factor nx ny nz (startEnd nx ny nz start end_)).val [m, x, y, z] =
      (1 - w ((m : K) / (factor : K))) * start x y z + w ((m : K) / (factor : K)) * end_ x y z := by
  have hf : (0 : K) < (factor : K) := by exact_mod_cast (by omega : 0 < factor)
  have h0 : (linspaceOpen (0 : K) 1 factor).getD m 0 = (m : K) / (factor : K) := by
    unfold linspaceOpen
    rw [List.getD_eq_getElem?_getD, List.getElem?_map, List.getElem?_range hm]
    simp [div_eq_mul_inv]
  unfold alongLine
  simp only [List.getD_cons_succ, List.getD_cons_zero, h0]
  rw [hb (startEnd nx ny nz start end_) nx ny nz _ x y z rfl (by positivity)
    (by rw [div_lt_one hf]; exact_mod_cast hm) hx hy hz]
  rfl

/-- **C117.** Where a field line that starts at `(x, z)` of plane `y` passes through the grid
point `(X, Z)` at step `m`, and no two field lines meet there, the new plane has the blend of
the value at its start and of the field interpolated at its end in the next plane, which is
the first one after the last. -/
theorem C117_along_field_line (ip : Interp K) (he : ip.Exact) (w : K → K) (hb : ip.Blends w)
    (field xt zt : NdArray K) (factor : ℕ) (quiet : Bool) (nx ny nz : ℕ) (hxt : xt.shape = [nx, ny, nz])
    (hfs : field.shape = [nx, ny, nz]) (r : NdArray K) (h : upscale ip field xt zt factor quiet = .ok r)
    (y m : ℕ) (hy : y < ny) (hm : m < factor) (c : K) (hc : c = w ((m : K) / (factor : K)))
    (inj : ∀ x < nx, ∀ z < nz, ∀ x' < nx, ∀ z' < nz,
      (1 - c) * (x : K) + c * xt.val [x, y, z] = (1 - c) * (x' : K) + c * xt.val [x', y, z'] →
      (1 - c) * (z : K) + c * zt.val [x, y, z] = (1 - c) * (z' : K) + c * zt.val [x', y, z'] → x = x' ∧ z = z')
    (x z X Z : ℕ) (hx : x < nx) (hz : z < nz)
    (eX : (1 - c) * (x : K) + c * xt.val [x, y, z] = (X : K))
    (eZ : (1 - c) * (z : K) + c * zt.val [x, y, z] = (Z : K)) :
    r.val [X, y * factor + m, Z] = (1 - c) * field.val [x, y, z] +
      c * ip.mapCoords field [xt.val [x, y, z], (((y + 1) % ny : ℕ) : K), zt.val [x, y, z]] := by
  obtain ⟨fld, nx', ny', nz', hf, hx1, hz1, u, s, _, fpos, f1, x1, z1, e⟩ := upscale_ok h
  rw [hxt] at s
  simp only [List.cons.injEq, and_true] at s
  obtain ⟨rfl, rfl, rfl⟩ := s
  have hfld : fld = field := by
    unfold upscaleField at u
    rw [hxt, hfs] at u
    simp only [ne_eq, not_true_eq_false, if_false, Except.ok.injEq] at u
    exact u.symm
  subst hfld
  subst e
  have key : ∀ (a : NdArray K) (st en : ℕ → ℕ → ℕ → K), twizzle nx factor ny nz
      (alongLine ip factor nx ny nz (startEnd nx ny nz st en)) = .ok a →
      a.shape = [nx, factor * ny, nz] ∧
        ∀ x < nx, ∀ z < nz, a.val [x, y * factor + m, z] = (1 - c) * st x y z + c * en x y z := by
    intro a st en ha
    have hs : (alongLine ip factor nx ny nz (startEnd nx ny nz st en)).shape = [factor, nx, ny, nz] := rfl
    obtain ⟨r', q1, q2⟩ := twizzle_ok hs
    rw [ha] at q1
    injection q1 with q1
    subst q1
    refine ⟨q2, ?_⟩
    intro x hx z hz
    rw [twizzle_val hs ha m x y z hm hx hy hz, alongLine_blend hb factor nx ny nz m hm st en x y z hx hy hz, hc]
  obtain ⟨sf, vf⟩ := key _ _ _ f1
  obtain ⟨sx, vx⟩ := key _ _ _ x1
  obtain ⟨sz, vz⟩ := key _ _ _ z1
  have hyup : yup ny y = (y + 1) % ny := by
    unfold yup
    split
    · rename_i e
      rw [e, Nat.mod_self]
    · rw [Nat.mod_eq_of_lt (by omega)]
  simp only [List.getD_cons_succ, List.getD_cons_zero]
  rw [upscalePlane_point he sx sz sf ?_ x z X Z hx hz (by rw [vx x hx z hz, eX]) (by rw [vz x hx z hz, eZ]),
    vf x hx z hz, hyup]
  intro a ha b hb' a' ha' b' hb''
  rw [vx a ha b hb', vx a' ha' b' hb'', vz a ha b hb', vz a' ha' b' hb'']
  exact inj a ha b hb' a' ha' b' hb''

/-- **C117** for straight field lines: every plane between two planes is a blend of them. -/
theorem C117_straight (ip : Interp K) (he : ip.Exact) (w : K → K) (hb : ip.Blends w)
    (field xt zt : NdArray K) (factor : ℕ) (quiet : Bool) (nx ny nz : ℕ) (hxt : xt.shape = [nx, ny, nz])
    (hfs : field.shape = [nx, ny, nz]) (vx : ∀ x y z, xt.val [x, y, z] = (x : K))
    (vz : ∀ x y z, zt.val [x, y, z] = (z : K)) (r : NdArray K)
    (h : upscale ip field xt zt factor quiet = .ok r)
    (x y z m : ℕ) (hx : x < nx) (hy : y < ny) (hz : z < nz) (hm : m < factor) :
    r.val [x, y * factor + m, z] = (1 - w ((m : K) / (factor : K))) * field.val [x, y, z] +
      w ((m : K) / (factor : K)) * field.val [x, (y + 1) % ny, z] := by
  have hmid : ∀ c a : K, (1 - c) * a + c * a = a := fun c a => by ring
  rw [C117_along_field_line ip he w hb field xt zt factor quiet nx ny nz hxt hfs r h y m hy hm _ rfl
    ?_ x z x z hx hz (by rw [vx, hmid]) (by rw [vz, hmid]), vx, vz]
  · have := he.mapCoords field [x, (y + 1) % ny, z] (by
      rw [hfs]; exact ⟨hx, Nat.mod_lt _ (by omega), hz, trivial⟩)
    simp only [List.map_cons, List.map_nil] at this
    rw [this]
  · intro a _ b _ a' _ b' _
    simp only [vx, vz, hmid, Nat.cast_inj]
    exact fun h1 h2 => ⟨h1, h2⟩

end Between

/-- Linear along the first axis, nearest smaller index along the others. -/
def exLin : Interp ℚ :=
  ⟨fun a p => let q := p.map fun q => ⌊q⌋.toNat
    let f := p.headD 0 - (q.headD 0 : ℕ)
    (1 - f) * a.val q + f * a.val ((q.headD 0 + 1) :: q.tail), fun pts vals p => vals.getD (pts.idxOf p) 0⟩

theorem exLin_exact : exLin.Exact where
  mapCoords a i h := by
    have : (i.map fun n : ℕ => (n : ℚ)).map (fun q => ⌊q⌋.toNat) = i := by
      rw [List.map_map]
      conv_rhs => rw [← List.map_id i]
      apply List.map_congr_left
      intro n _
      simp
    have h0 : (i.map fun n : ℕ => (n : ℚ)).headD 0 - ((i.headD 0 : ℕ) : ℚ) = 0 := by
      cases i <;> simp
    simp only [exLin, this, h0]
    ring
  griddata := exInterp_exact.griddata

theorem exLin_blends : exLin.Blends id := by
  intro a nx ny nz t x y z _ h0 h1 _ _ _
  have : ⌊t⌋ = 0 := by rw [Int.floor_eq_zero_iff]; exact ⟨h0, h1⟩
  simp [exLin, this]

/-- Straight field lines: one of the planes after the last one. -/
example : ∃ r, upscale exLin exUpField ⟨[2, 3, 2], fun i => (i.getD 0 0 : ℕ)⟩
    ⟨[2, 3, 2], fun i => (i.getD 2 0 : ℕ)⟩ 4 true = .ok r ∧ r.val [1, 11, 1] = 8 := by
  obtain ⟨r, hr⟩ := C107_returns exLin exUpField ⟨[2, 3, 2], fun i => (i.getD 0 0 : ℕ)⟩
    ⟨[2, 3, 2], fun i => (i.getD 2 0 : ℕ)⟩ 4 2 3 2 rfl rfl (by decide) (by decide)
  refine ⟨r, hr, ?_⟩
  have := C117_straight exLin exLin_exact id exLin_blends exUpField _ _ 4 true 2 3 2 rfl rfl
    (fun _ _ _ => rfl) (fun _ _ _ => rfl) r hr 1 2 1 3 (by decide) (by decide) (by decide) (by decide)
  norm_num [exUpField, ravel] at this
  exact this

/-- Field lines that move by four grid points are at the next grid point after a quarter of the
way. -/
example : ∃ r, upscale exLin exUpField ⟨[2, 3, 2], fun i => (i.getD 0 0 : ℕ) + 4⟩
    ⟨[2, 3, 2], fun i => (i.getD 2 0 : ℕ)⟩ 4 true = .ok r ∧ r.val [1, 1, 0] =
      3 / 4 * 0 + 1 / 4 * exLin.mapCoords exUpField [4, 1, 0] := by
  obtain ⟨r, hr⟩ := C107_returns exLin exUpField ⟨[2, 3, 2], fun i => (i.getD 0 0 : ℕ) + 4⟩
    ⟨[2, 3, 2], fun i => (i.getD 2 0 : ℕ)⟩ 4 2 3 2 rfl rfl (by decide) (by decide)
  refine ⟨r, hr, ?_⟩
  have := C117_along_field_line exLin exLin_exact id exLin_blends exUpField _ _ 4 true 2 3 2 rfl rfl
    r hr 0 1 (by decide) (by decide) (1 / 4) (by norm_num) ?_ 0 0 1 0 (by decide) (by decide) (by norm_num)
    (by norm_num)
  · norm_num [exUpField, ravel] at this ⊢
    exact this
  · intro a _ b _ a' _ b' _ h1 h2
    simp only [List.getD_cons_zero, List.getD_cons_succ] at h1 h2
    constructor
    · have : (a : ℚ) = (a' : ℚ) := by linarith
      exact_mod_cast this
    · have : (b : ℚ) = (b' : ℚ) := by linarith
      exact_mod_cast this

end Zoidberg
