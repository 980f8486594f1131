import Verif.Props.FieldData
import Verif.Props.FieldMore
import Verif.Props.Spectral
import Verif.Props.SubSamples
import Verif.Props.Reversible
import Verif.Props.Dagp
import Verif.Props.CachingTracer

/-! # Further exact conditions (C34, C70, C87, C94, C132, C140, C180) -/

set_option linter.unusedSectionVars false

namespace Zoidberg

open Real

/-! ## C140 -/

theorem cfunct_add (ms : List VMode) (c d : VMode → ℝ) (t z : ℝ) : cfunct ms (fun k => c k + d k) t z = cfunct ms c t z + cfunct ms d t z := by
  simp only [C140_cos]
  induction ms with
  | nil => simp
  | cons k l ih => simp only [List.map_cons, List.sum_cons, ih]; ring

theorem sfunct_neg (ms : List VMode) (c : VMode → ℝ) (t z : ℝ) : sfunct ms (fun k => -c k) t z = -sfunct ms c t z := by
  simp only [C140_sin]
  induction ms with
  | nil => simp
  | cons k l ih => simp only [List.map_cons, List.sum_cons, ih]; ring

theorem cfunct_neg (ms : List VMode) (c : VMode → ℝ) (t z : ℝ) : cfunct ms (fun k => -c k) t z = -cfunct ms c t z := by
  simp only [C140_cos]
  induction ms with
  | nil => simp
  | cons k l ih => simp only [List.map_cons, List.sum_cons, ih]; ring

/-- **C140.** With `iasym` the field is that of the surface exactly where two sums over the modes vanish: one with `rmnc + rmns` and one with `zmnc`. -/
theorem C140_iff (ms : List VMode) (theta zeta : ℝ) : VmecTangent ms true theta zeta ↔
    cfunct ms (·.bu) theta zeta * cfunct ms (fun k => (k.rmnc + k.rmns) * k.m) theta zeta +
        cfunct ms (·.bv) theta zeta * cfunct ms (fun k => (k.rmnc + k.rmns) * k.n) theta zeta = 0 ∧
      cfunct ms (·.bu) theta zeta * sfunct ms (fun k => k.zmnc * k.m) theta zeta +
        cfunct ms (·.bv) theta zeta * sfunct ms (fun k => k.zmnc * k.n) theta zeta = 0 := by
  have h1 := C140_derivatives ms (·.rmnc) theta zeta
  have h2 := C140_derivatives ms (·.zmns) theta zeta
  have h3 := C140_derivatives ms (·.zmnc) theta zeta
  have dRu := h1.1.add h1.2.2.1
  have dRv := h1.2.1.add h1.2.2.2
  have dZu := h2.2.2.1.add h3.1
  have dZv := h2.2.2.2.add h3.2.1
  have e1 : cfunct ms (fun k => (k.rmnc + k.rmns) * k.m) theta zeta = cfunct ms (fun k => k.rmnc * k.m) theta zeta - cfunct ms (fun k => -k.rmns * k.m) theta zeta := by
    rw [show (fun k : VMode => (k.rmnc + k.rmns) * k.m) = fun k => (fun k : VMode => k.rmnc * k.m) k + (fun k : VMode => -(-k.rmns * k.m)) k by funext k; ring, cfunct_add, cfunct_neg]
    ring
  have e2 : cfunct ms (fun k => (k.rmnc + k.rmns) * k.n) theta zeta = cfunct ms (fun k => k.rmnc * k.n) theta zeta - cfunct ms (fun k => -k.rmns * k.n) theta zeta := by
    rw [show (fun k : VMode => (k.rmnc + k.rmns) * k.n) = fun k => (fun k : VMode => k.rmnc * k.n) k + (fun k : VMode => -(-k.rmns * k.n)) k by funext k; ring, cfunct_add, cfunct_neg]
    ring
  have e3 : sfunct ms (fun k => -k.zmnc * k.m) theta zeta = -sfunct ms (fun k => k.zmnc * k.m) theta zeta := by
    rw [← sfunct_neg]; congr 1; funext k; ring
  have e4 : sfunct ms (fun k => -k.zmnc * k.n) theta zeta = -sfunct ms (fun k => k.zmnc * k.n) theta zeta := by
    rw [← sfunct_neg]; congr 1; funext k; ring
  rw [e3] at dZu
  rw [e4] at dZv
  rw [e1, e2]
  constructor
  · rintro ⟨Ru, Rv, Zu, Zv, g1, g2, g3, g4, g5, g6, -⟩
    have u1 := g1.unique dRu
    have u2 := g2.unique dRv
    have u3 := g3.unique dZu
    have u4 := g4.unique dZv
    rw [u1, u2] at g5
    rw [u3, u4] at g6
    unfold readVmec at g5 g6
    simp only [if_true] at g5 g6
    exact ⟨by linear_combination -g5, by linear_combination g6 / 2⟩
  · rintro ⟨g5, g6⟩
    refine ⟨_, _, _, _, dRu, dRv, dZu, dZv, ?_, ?_, rfl⟩
    · unfold readVmec
      simp only [if_true]
      linear_combination -g5
    · unfold readVmec
      simp only [if_true]
      linear_combination 2 * g6

/-! ## C94 -/

/-- **C94.** The points are distinct exactly if there is at most one. -/
theorem C94_iff (s : SpecLine) (num : Option ℕ) (out : List (ℝ × ℝ)) (h : specSpaced s num = .ok out) : out.Nodup ↔ out.length ≤ 1 := by
  constructor
  · intro hnd
    by_contra hl
    by_cases hn : 2 ≤ specCount s num
    · obtain ⟨h1, h2⟩ := C94_closed s num out h hn
      rw [List.head?_eq_getElem?, List.getLast?_eq_getElem?, List.getElem?_eq_getElem (by omega), List.getElem?_eq_getElem (by omega)] at h2
      have := (List.Nodup.getElem_inj_iff hnd).mp (Option.some.inj h2)
      omega
    · have : out.length = specCount s num := by
        unfold specSpaced at h
        dsimp only at h
        split_ifs at h
        have := mapM_length h
        rw [this]
        change (linspaceClosed (0 : ℝ) (π * 2) (specCount s num)).length = _
        simp [linspaceClosed]
      omega
  · intro hl
    match out, hl with
    | [], _ => exact List.nodup_nil
    | [a], _ => exact List.nodup_singleton a

/-! ## C180 -/

theorem axisNear_turned (phi b : ℝ) (hb : 0 ≤ b) (hb2 : b < π / 2) (h1 : 97 / 100 * phi ≤ b) (h2 : b ≤ 103 / 100 * phi) : axisNear phi (webPoint (b + π) (1, 0)) := by
  have hc : 0 < cos b := cos_pos_of_mem_Ioo ⟨by linarith [pi_pos], hb2⟩
  unfold axisNear axisAngle webPoint
  simp only [cos_add_pi, sin_add_pi, one_mul]
  rw [if_neg (by linarith), neg_div_neg_eq, ← tan_eq_sin_div_cos, arctan_tan (by linarith [pi_pos]) hb2]
  exact ⟨h1, h2⟩

/-- What the statement says for one angle. -/
def AxisRightAt (phi : ℝ) : Prop :=
  ∀ (vs : List (ℝ × ℝ × ℝ)) (r : ℝ × ℝ), magneticAxis vs phi = .ok r →
    ∃ v ∈ vs, ∃ a, v = webPoint a r ∧ 97 / 100 * phi ≤ a ∧ a ≤ 103 / 100 * phi

theorem axisRight_iff : AxisRight ↔ ∀ phi, AxisRightAt phi := ⟨fun h phi vs r hr => h vs phi r hr, fun h vs phi r hr => h phi vs r hr⟩

/-- **C180.** The point is never on the wrong side exactly for the angles for which nothing is found, and for the one whose range begins at a right angle. -/
theorem C180_iff (phi : ℝ) : AxisRightAt phi ↔ phi < 0 ∨ π / 2 ≤ 97 / 100 * phi := by
  have hpi := pi_pos
  constructor
  · intro h
    by_contra hc
    push Not at hc
    obtain ⟨h0, h1⟩ := hc
    obtain ⟨b, hb0, hb1, hb2, hb3⟩ : ∃ b, 0 ≤ b ∧ b < π / 2 ∧ 97 / 100 * phi ≤ b ∧ b ≤ 103 / 100 * phi := ⟨97 / 100 * phi, by linarith, h1, le_refl _, by linarith⟩
    have hn := axisNear_turned phi b hb0 hb1 hb2 hb3
    have hr : magneticAxis [webPoint (b + π) (1, 0)] phi = .ok (1, 0) := by
      unfold magneticAxis
      rw [List.find?_cons_of_pos (by simpa using hn)]
      unfold webPoint
      simp
    obtain ⟨v, hv, a, ha, a1, a2⟩ := h _ _ hr
    rw [List.mem_singleton] at hv
    rw [hv] at ha
    unfold webPoint at ha
    simp only [one_mul, cos_add_pi, sin_add_pi, Prod.mk.injEq, and_true] at ha
    obtain ⟨hc, hs⟩ := ha
    rcases eq_or_lt_of_le h0 with h00 | h00
    · rw [← h00] at a1 a2
      have : a = 0 := by linarith
      have hb : b = 0 := by linarith
      rw [this, hb, cos_zero] at hc
      norm_num at hc
    · have : 0 < sin a := sin_pos_of_pos_of_lt_pi (by linarith) (by linarith)
      have : 0 < sin b := sin_pos_of_pos_of_lt_pi (by linarith) (by linarith)
      linarith
  · rintro (h | h) vs r hr
    · rw [C180_fails_negative vs phi h] at hr
      cases hr
    · obtain ⟨v, hv, hn, rfl⟩ := magneticAxis_ok vs phi r hr
      refine ⟨v, hv, π / 2, ?_⟩
      unfold axisNear at hn
      split at hn
      · exact hn.elim
      · rename_i a ha
        have hle := axisAngle_le v a ha
        have : a = π / 2 := by linarith [hn.1]
        rw [this] at ha hn
        refine ⟨?_, hn.1, hn.2⟩
        unfold axisAngle at ha
        split_ifs at ha with hx hy hy2
        · unfold webPoint
          rw [cos_pi_div_two, sin_pi_div_two, hx]
          simp only [mul_zero, mul_one]
          obtain ⟨v1, v2, v3⟩ := v
          simp only at hx hy ⊢
          rw [hx]
          simp [sqrt_sq hy.le]
        · have := Option.some.inj ha
          linarith
        · have := Option.some.inj ha
          have h2 := arctan_lt_pi_div_two (v.2.1 / v.1)
          linarith

/-- **C180.** The vertex taken is the first one that passes the test. -/
theorem C180_first (vs : List (ℝ × ℝ × ℝ)) (phi : ℝ) (i : ℕ) (v : ℝ × ℝ × ℝ) (hi : vs[i]? = some v) (hn : axisNear phi v) (hb : ∀ j < i, ∀ w, vs[j]? = some w → ¬ axisNear phi w) :
    magneticAxis vs phi = .ok (sqrt (v.1 ^ 2 + v.2.1 ^ 2), v.2.2) := by
  obtain ⟨hl, he⟩ := List.getElem?_eq_some_iff.1 hi
  unfold magneticAxis
  split
  · rename_i h
    have := List.find?_eq_none.1 h v (List.mem_of_getElem? hi)
    exact absurd hn (by simpa using this)
  · rename_i w h
    obtain ⟨h1, k, hk, hw, h2⟩ := List.find?_eq_some_iff_getElem.1 h
    have h1 : axisNear phi w := by simpa using h1
    rcases lt_trichotomy k i with hki | hki | hki
    · exact absurd h1 (hb k hki w (by rw [List.getElem?_eq_getElem hk, hw]))
    · subst hki
      rw [← hw, he]
    · have := h2 i hki
      rw [he] at this
      exact absurd hn (by simpa using this)

/-! ## C34 -/

section
variable {K : Type} [Field K] [LinearOrder K] [IsStrictOrderedRing K] [FloorRing K]

theorem interval_near (n k : ℕ) (t : K) (ht : |t| ≤ 1 / 2) (hk : 1 ≤ k) (hkn : k + 2 ≤ n) : interval n ((k : K) + t) = k ∨ interval n ((k : K) + t) = k - 1 := by
  rw [abs_le] at ht
  unfold interval npClip
  by_cases h0 : 0 ≤ t
  · have : ⌊(k : K) + t⌋ = (k : ℤ) := by
      rw [Int.floor_eq_iff]
      push_cast
      constructor <;> linarith [ht.2]
    rw [this]
    omega
  · have : ⌊(k : K) + t⌋ = (k : ℤ) - 1 := by
      rw [Int.floor_eq_iff]
      push_cast
      push Not at h0
      constructor <;> linarith [ht.1]
    rw [this]
    omega

theorem rgInterp_col (x zo : K) (hz : |zo| ≤ 1 / 2) : rgInterp 3 3 (fun _ j => (j : K)) x (1 + zo) = 1 + zo := by
  have e : 1 + zo + 1 = ((2 : ℕ) : K) + zo := by push_cast; ring
  unfold rgInterp
  simp only
  rw [e]
  rcases interval_near 5 2 zo hz (by norm_num) (by norm_num) with h | h <;> rw [h] <;> norm_num <;> ring

theorem rgInterp_line (z xo : K) (hx : |xo| ≤ 1 / 2) : rgInterp 3 3 (fun i _ => (i : K)) (1 + xo) z = 1 + xo := by
  have e : 1 + xo = ((1 : ℕ) : K) + xo := by push_cast; ring
  unfold rgInterp
  simp only
  rw [e]
  rcases interval_near 3 1 xo hx (by norm_num) (by norm_num) with h | h <;> rw [h] <;> norm_num <;> ring

/-- **C34.** The sample of a node starts where it should, on all grids, exactly if the node is the centre of the cell. -/
theorem C34_iff (xo zo : K) (hx : |xo| ≤ 1 / 2) (hz : |zo| ≤ 1 / 2) :
    (∀ (nx nz : ℕ) (R Z : ℕ → ℕ → K) (x z : ℕ), 2 ≤ nx → x < nx → z < nz →
      (rgInterp nx nz R ((x : K) + xo) (z : K), rgInterp nx nz Z ((x : K) + zo) (z : K)) =
        (rgInterp nx nz R ((x : K) + xo) ((z : K) + zo), rgInterp nx nz Z ((x : K) + xo) ((z : K) + zo))) ↔ xo = 0 ∧ zo = 0 := by
  constructor
  · intro h
    have h1 := h 3 3 (fun _ j => (j : K)) (fun i _ => (i : K)) 1 1 (by norm_num) (by norm_num) (by norm_num)
    simp only [Nat.cast_one, Prod.mk.injEq] at h1
    have h2 := rgInterp_col (1 + xo) (0 : K) (by norm_num)
    rw [add_zero] at h2
    rw [h2, rgInterp_col _ _ hz, rgInterp_line _ _ hx, rgInterp_line _ _ hz] at h1
    exact ⟨by linear_combination -h1.1 - h1.2, by linear_combination -h1.1⟩
  · rintro ⟨rfl, rfl⟩ nx nz R Z x z _ _ _
    simp

/-! ## C70 -/

theorem Affine.delta_none (A : Affine K) {eps y h : K} (he : eps ≠ 0) (hd : A.det y h = 0) (half q : K × K) : deltaAt A.f eps h y half q = none := by
  unfold deltaAt newtonDelta Affine.f
  dsimp only
  rw [if_pos]
  right
  rw [← hd]
  unfold Affine.det
  field_simp
  ring

/-- **C70.** For a field that is affine in the position the iteration ends exactly if the implicit equation is not singular. -/
theorem C70_iff (A : Affine K) (dir : List (K × K) → K → Except Err (List (K × K))) (hdir : Pointwise dir A.f) (rtol eps : K) (hr : 0 < rtol) (he : eps ≠ 0) (h y : K)
    (p : List (K × K)) (hne : p ≠ []) : (∃ fuel p', revStep false revGood dir rtol eps fuel h p y = .ok p') ↔ A.det (y + h) h ≠ 0 := by
  constructor
  · rintro ⟨fuel, p', hp⟩ hd
    unfold revStep at hp
    rw [hdir _ _ hne] at hp
    simp only [Except.bind, revGood, RevBad.check, Bool.false_eq_true, if_false, List.map_map] at hp
    have e := addXZ_map p (fun q => (A.f q y).1 * h) (fun q => (A.f q y).2 * h)
    simp only [Function.comp_def] at hp
    rw [e] at hp
    cases fuel with
    | zero => rw [newtonLoop] at hp; cases hp
    | succ n =>
      rw [newtonLoop, hdir _ _ (by simpa using hne), hdir _ _ (by simpa using hne), hdir _ _ (by simpa using hne)] at hp
      simp only [Except.bind] at hp
      rw [if_neg (by simpa using hne), if_pos] at hp
      · cases hp
      · rw [List.any_eq_true]
        refine ⟨none, ?_, rfl⟩
        rw [List.mem_map]
        have hl : 0 < p.length := List.length_pos_iff.2 hne
        refine ⟨0, by simpa using hl, ?_⟩
        obtain ⟨a, l, rfl⟩ := List.exists_cons_of_ne_nil hne
        exact A.delta_none he hd _ _
  · intro hd
    obtain ⟨p', hp, -⟩ := C70_affine_partial A dir hdir rtol eps hr he h y hd p hne 0
    exact ⟨_, p', hp⟩

/-! ## C87 -/

/-- **C87.** The volume of a cell does not depend on the memory exactly if the cell is not in the first or the last row. -/
theorem C87_iff (n : ℕ) (slab : Bool) (g : DagpPol K) (x k : ℕ) (hx : x < g.nx) :
    (∀ mem mem' : ℕ → ℕ → K, dagpVolume n slab g mem x k = dagpVolume n slab g mem' x k) ↔ 1 ≤ x ∧ x + 1 < g.nx := by
  constructor
  · intro h
    have h1 := h (fun _ _ => 0) (fun _ _ => 1)
    by_contra hc
    rcases (by omega : x = 0 ∨ x = g.nx - 1) with rfl | rfl
    · rw [(C87_rows n slab g _ k).1, (C87_rows n slab g _ k).1] at h1
      exact zero_ne_one h1
    · rw [(C87_rows n slab g _ k).2, (C87_rows n slab g _ k).2] at h1
      exact zero_ne_one h1
  · rintro ⟨h1, h2⟩ mem mem'
    exact C87_inside_partial n slab g mem mem' x k h1 h2

end

/-! ## C132 -/

/-- **C132 (refutation).** The shapes are not in the text: arrays with the same numbers in the same order have the same text, for all ways to write numbers. -/
theorem C132_fails_shapes {K : Type} (str : K → String) (a b : TraceArgs K) (hx : a.x.data = b.x.data) (hz : a.z.data = b.z.data) (hy : a.y.data = b.y.data) :
    hashInput str a = hashInput str b := by
  unfold hashInput
  simp only [List.flatMap_cons, List.flatMap_nil, hx, hz, hy]

-- A column and a row.
example : hashInput (K := ℕ) toString ⟨⟨[2, 1], [1, 2]⟩, ⟨[2, 1], [3, 4]⟩, ⟨[2], [0, 1]⟩⟩ = hashInput toString ⟨⟨[1, 2], [1, 2]⟩, ⟨[1, 2], [3, 4]⟩, ⟨[2], [0, 1]⟩⟩ ∧
    (⟨⟨[2, 1], [1, 2]⟩, ⟨[2, 1], [3, 4]⟩, ⟨[2], [0, 1]⟩⟩ : TraceArgs ℕ) ≠ ⟨⟨[1, 2], [1, 2]⟩, ⟨[1, 2], [3, 4]⟩, ⟨[2], [0, 1]⟩⟩ :=
  ⟨C132_fails_shapes toString _ _ rfl rfl rfl, by decide⟩

/-! ## Examples -/

-- C70: a growing field with a step of one, and a smaller one.
example : ¬ ∃ fuel p', revStep false revGood (fun p y => .ok (p.map fun q => growing.f q y)) (1 / 10 ^ 8) (1 / 10 ^ 5) fuel 1 [(1, 0)] 0 = .ok p' := by
  rw [C70_iff growing _ (fun _ _ _ => rfl) _ _ (by norm_num) (by norm_num) _ _ _ (by simp)]
  simp [Affine.det, growing]

example : ∃ fuel p', revStep false revGood (fun p y => .ok (p.map fun q => growing.f q y)) (1 / 10 ^ 8) (1 / 10 ^ 5) fuel (1 / 2) [(1, 0)] 0 = .ok p' := by
  rw [C70_iff growing _ (fun _ _ _ => rfl) _ _ (by norm_num) (by norm_num) _ _ _ (by simp)]
  norm_num [Affine.det, growing]

-- C34: the node at a quarter.
example : ¬ ∀ (nx nz : ℕ) (R Z : ℕ → ℕ → ℚ) (x z : ℕ), 2 ≤ nx → x < nx → z < nz →
    (rgInterp nx nz R ((x : ℚ) + 1 / 4) (z : ℚ), rgInterp nx nz Z ((x : ℚ) + 0) (z : ℚ)) =
      (rgInterp nx nz R ((x : ℚ) + 1 / 4) ((z : ℚ) + 0), rgInterp nx nz Z ((x : ℚ) + 1 / 4) ((z : ℚ) + 0)) := by
  rw [C34_iff (1 / 4) 0 (by rw [abs_of_pos] <;> norm_num) (by norm_num)]
  norm_num

-- C94: a circle.
example : ∃ out, specSpaced exCircle none = .ok out ∧ ¬ out.Nodup := by
  obtain ⟨out, h⟩ := exCircle_spaced
  refine ⟨out, h, ?_⟩
  rw [C94_iff _ _ _ h, (C94_closed exCircle none out h (by decide)).1]
  decide

-- C140: a mode whose two coefficients cancel.
example (theta zeta : ℝ) : VmecTangent [⟨1, 2, 3, 4, -3, 0, 5, 6⟩] true theta zeta := by
  rw [C140_iff]
  simp [cfunct, sfunct]

-- C180: the second vertex is on the other side.
example : magneticAxis [(0, 0, 0), (-2, 0, 7), (1, 0, 3)] 0 = .ok (2, 7) := by
  rw [C180_first _ 0 1 (-2, 0, 7) rfl ((C180_zero _).2 (by norm_num)) (by
    intro j hj w hw
    have : j = 0 := by omega
    subst this
    simp only [List.getElem?_cons_zero, Option.some.injEq] at hw
    rw [← hw, C180_zero]
    norm_num)]
  have : sqrt ((-2 : ℝ) ^ 2 + 0 ^ 2) = 2 := by
    rw [show ((-2 : ℝ) ^ 2 + 0 ^ 2) = 2 ^ 2 by norm_num]
    exact sqrt_sq (by norm_num)
  rw [this]

end Zoidberg
