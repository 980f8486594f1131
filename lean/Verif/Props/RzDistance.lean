import Verif.Props.RzClosest

/-!
# C56, C119, C120: `distance` and `equallySpaced`
-/

set_option linter.unusedSectionVars false

namespace Zoidberg

variable {K : Type} [Field K] [LinearOrder K] [IsStrictOrderedRing K] [FloorRing K]

/-! ## Linear interpolation -/

theorem pairwise_getD {xs : List K} (hp : xs.Pairwise (· < ·)) {i j : ℕ} (hij : i < j) (hj : j < xs.length) :
    xs.getD i 0 < xs.getD j 0 := by
  rw [List.getD_eq_getElem _ _ (hij.trans hj), List.getD_eq_getElem _ _ hj]
  exact List.pairwise_iff_getElem.1 hp i j _ _ hij

theorem countP_lt_iff : ∀ {xs : List K}, xs.Pairwise (· < ·) → ∀ (x : K) (i : ℕ), i < xs.length →
    (xs.getD i 0 < x ↔ i < xs.countP fun a => decide (a < x))
  | a :: l, hp, x, i, hi => by
    rw [List.pairwise_cons] at hp
    by_cases ha : a < x
    · rw [List.countP_cons_of_pos (by simpa using ha)]
      cases i with
      | zero => simpa using ha
      | succ i =>
        rw [List.getD_cons_succ, countP_lt_iff hp.2 x i (by simpa using hi)]
        omega
    · have h0 : (l.countP fun a => decide (a < x)) = 0 := by
        rw [List.countP_eq_zero]
        intro b hb
        have := hp.1 b hb
        simp only [decide_eq_true_eq, not_lt]
        exact (not_lt.1 ha).trans this.le
      rw [List.countP_cons_of_neg (by simpa using ha), h0]
      constructor
      · intro h
        exfalso
        apply ha
        cases i with
        | zero => simpa using h
        | succ i =>
          have hi' : i < l.length := by simpa using hi
          rw [List.getD_cons_succ, List.getD_eq_getElem _ _ hi'] at h
          exact (hp.1 _ (List.getElem_mem hi')).trans h
      · intro h; omega

/-- The value at `x` on the straight line between entries `i` and `i + 1`. -/
def linAt (xs ys : List K) (i : ℕ) (x : K) : K :=
  ys.getD i 0 + (ys.getD (i + 1) 0 - ys.getD i 0) * ((x - xs.getD i 0) / (xs.getD (i + 1) 0 - xs.getD i 0))

theorem interp1_spec {xs : List K} (hp : xs.Pairwise (· < ·)) (hl : 2 ≤ xs.length) (ys : List K) (x : K)
    (h0 : xs.getD 0 0 ≤ x) (h1 : x ≤ xs.getD (xs.length - 1) 0) :
    ∃ i, i + 1 < xs.length ∧ xs.getD i 0 ≤ x ∧ x ≤ xs.getD (i + 1) 0 ∧ interp1 xs ys x = .ok (linAt xs ys i x) := by
  set c := xs.countP fun a => decide (a < x) with hc
  have hcl : c < xs.length := by
    by_contra hcon
    have := (countP_lt_iff hp x (xs.length - 1) (by omega)).2 (by omega)
    exact absurd h1 (not_le.2 this)
  refine ⟨min (max c 1) (xs.length - 1) - 1, by omega, ?_, ?_, ?_⟩
  · rcases Nat.eq_zero_or_pos c with h | h
    · have : min (max c 1) (xs.length - 1) - 1 = 0 := by omega
      rw [this]; exact h0
    · have : min (max c 1) (xs.length - 1) - 1 = c - 1 := by omega
      rw [this]
      exact ((countP_lt_iff hp x (c - 1) (by omega)).2 (by omega)).le
  · have h2 : ¬ xs.getD c 0 < x := by
      rw [countP_lt_iff hp x c hcl]; omega
    rcases Nat.eq_zero_or_pos c with h | h
    · have : min (max c 1) (xs.length - 1) - 1 + 1 = 1 := by omega
      rw [this]
      rw [h] at h2
      exact (not_lt.1 h2).trans (pairwise_getD hp (by omega) (by omega)).le
    · have : min (max c 1) (xs.length - 1) - 1 + 1 = c := by omega
      rw [this]
      exact not_lt.1 h2
  · unfold interp1
    rw [if_neg (by push Not; exact ⟨h0, h1⟩)]
    dsimp only
    rw [← hc]
    have e : min (max c 1) (xs.length - 1) = min (max c 1) (xs.length - 1) - 1 + 1 := by omega
    unfold linAt
    rw [← e]
    congr 1
    ring

theorem linAt_left {xs ys : List K} {i : ℕ} : linAt xs ys i (xs.getD i 0) = ys.getD i 0 := by
  unfold linAt; simp

theorem linAt_right {xs ys : List K} {i : ℕ} (h : xs.getD i 0 < xs.getD (i + 1) 0) :
    linAt xs ys i (xs.getD (i + 1) 0) = ys.getD (i + 1) 0 := by
  unfold linAt
  rw [div_self (by linarith)]
  ring

/-- The value does not depend on which of the intervals that contain `x` is taken. -/
theorem interp1_at {xs : List K} (hp : xs.Pairwise (· < ·)) (ys : List K) (x : K) (i : ℕ) (hi : i + 1 < xs.length)
    (h0 : xs.getD i 0 ≤ x) (h1 : x ≤ xs.getD (i + 1) 0) : interp1 xs ys x = .ok (linAt xs ys i x) := by
  have mono : ∀ a b : ℕ, a ≤ b → b < xs.length → xs.getD a 0 ≤ xs.getD b 0 := by
    intro a b hab hb
    rcases Nat.eq_or_lt_of_le hab with h | h
    · rw [h]
    · exact (pairwise_getD hp h hb).le
  obtain ⟨j, hj, a, b, e⟩ := interp1_spec hp (by omega) ys x ((mono 0 i (by omega) (by omega)).trans h0)
    (h1.trans (mono (i + 1) _ (by omega) (by omega)))
  rw [e]
  congr 1
  rcases Nat.lt_trichotomy i j with h | h | h
  · -- i + 1 ≤ j, so x = xs_{i+1} = xs_j
    have hx : x = xs.getD (i + 1) 0 := le_antisymm h1 ((mono (i + 1) j h (by omega)).trans a)
    have hij : j = i + 1 := by
      by_contra hne
      have := pairwise_getD hp (show i + 1 < j by omega) (by omega)
      rw [← hx] at this
      exact absurd a (not_le.2 this)
    subst hij
    rw [hx, linAt_left, linAt_right (pairwise_getD hp (by omega) hi)]
  · rw [h]
  · have hx : x = xs.getD i 0 := le_antisymm (b.trans (mono (j + 1) i h (by omega))) h0
    have hij : i = j + 1 := by
      by_contra hne
      have := pairwise_getD hp (show j + 1 < i by omega) (by omega)
      rw [← hx] at this
      exact absurd b (not_le.2 this)
    subst hij
    rw [hx, linAt_left, linAt_right (pairwise_getD hp (by omega) hj)]

/-! ## Cumulative sums -/

theorem cumSums_length (s : K) (l : List K) : (cumSums s l).length = l.length + 1 := by
  induction l generalizing s with
  | nil => rfl
  | cons a l ih => simp [cumSums, ih]

theorem cumSums_getD (s : K) (l : List K) (i : ℕ) (h : i ≤ l.length) :
    (cumSums s l).getD i 0 = s + ∑ j ∈ Finset.range i, l.getD j 0 := by
  induction l generalizing s i with
  | nil => simp only [List.length_nil, Nat.le_zero] at h; subst h; simp [cumSums]
  | cons a l ih =>
    cases i with
    | zero => simp [cumSums]
    | succ i =>
      rw [cumSums, List.getD_cons_succ, ih (s + a) i (by simpa using h), Finset.sum_range_succ']
      simp only [List.getD_cons_succ, List.getD_cons_zero]
      ring

theorem mapM_ok_get {α β : Type} (f : α → Except Err β) (g : α → β) : ∀ l : List α, (∀ a ∈ l, f a = .ok (g a)) →
    l.mapM f = .ok (l.map g)
  | [], _ => rfl
  | a :: l, h => by
    rw [List.mapM_cons, h a (by simp), mapM_ok_get f g l fun b hb => h b (by simp [hb])]
    rfl

/-! ## C56 -/

/-- The weight at the fraction `f` of the line (`0 ≤ f < 1`): linear between the given weights,
which are equally spaced, and periodic. -/
def weightAt (w : List K) (f : K) : K :=
  let q := f * (w.length : K)
  (1 - Int.fract q) * w.getD ⌊q⌋.toNat 0 + Int.fract q * w.getD ((⌊q⌋.toNat + 1) % w.length) 0

theorem linspaceClosed01 {m i : ℕ} (hm : 0 < m) (h : i ≤ m) :
    (linspaceClosed (0 : K) 1 (m + 1)).getD i 0 = (i : K) / (m : K) := by
  unfold linspaceClosed
  rw [List.getD_eq_getElem?_getD, List.getElem?_map, List.getElem?_range (by omega)]
  simp only [Option.map_some, Option.getD_some]
  rw [if_neg (by omega)]
  push_cast
  ring

theorem linspaceClosed01_pairwise {m : ℕ} (hm : 0 < m) : (linspaceClosed (0 : K) 1 (m + 1)).Pairwise (· < ·) := by
  rw [List.pairwise_iff_getElem]
  intro i j hi hj hij
  rw [← List.getD_eq_getElem _ 0, ← List.getD_eq_getElem _ 0]
  have hl : (linspaceClosed (0 : K) 1 (m + 1)).length = m + 1 := by simp [linspaceClosed]
  rw [hl] at hi hj
  rw [linspaceClosed01 hm (by omega), linspaceClosed01 hm (by omega)]
  have hm' : (0 : K) < (m : K) := by exact_mod_cast hm
  have : (i : K) < (j : K) := by exact_mod_cast hij
  exact div_lt_div_of_pos_right this hm'

theorem interpClosed_eq (w : List K) (hw : w ≠ []) (n : ℕ) :
    interpClosed w n = .ok ((List.range n).map fun i : ℕ => weightAt w ((i : K) / (n : K))) := by
  have hm : 0 < w.length := List.length_pos_iff.2 hw
  have hm' : (0 : K) < (w.length : K) := by exact_mod_cast hm
  unfold interpClosed
  rw [if_neg hw]
  have e : (List.range n).map (fun i : ℕ => weightAt w ((i : K) / (n : K))) = (linspaceOpen 0 1 n).map (weightAt w) := by
    unfold linspaceOpen
    rw [List.map_map]
    apply List.map_congr_left
    intro i _
    simp only [Function.comp]
    congr 1
    ring
  rw [e]
  apply mapM_ok_get
  intro x hx
  unfold linspaceOpen at hx
  rw [List.mem_map] at hx
  obtain ⟨i, hi, rfl⟩ := hx
  rw [List.mem_range] at hi
  have hn : (0 : K) < (n : K) := by exact_mod_cast (by omega : 0 < n)
  set x : K := 0 + (i : K) * ((1 - 0) / (n : K)) with hxd
  have hx0 : 0 ≤ x := by rw [hxd]; simp only [zero_add, sub_zero]; positivity
  have hx1 : x < 1 := by
    rw [hxd, zero_add, sub_zero, mul_one_div, div_lt_one hn]; exact_mod_cast hi
  have hq0 : 0 ≤ x * (w.length : K) := by positivity
  have hf := Int.floor_nonneg.2 hq0
  have hk : ((⌊x * (w.length : K)⌋.toNat : ℕ) : K) = ((⌊x * (w.length : K)⌋ : ℤ) : K) := by
    exact_mod_cast congrArg (Int.cast : ℤ → K) (Int.toNat_of_nonneg hf)
  set k := ⌊x * (w.length : K)⌋.toNat with hkd
  have hfr : x * (w.length : K) = (k : K) + Int.fract (x * (w.length : K)) := by
    rw [hk, Int.floor_add_fract]
  have hf0 := Int.fract_nonneg (x * (w.length : K))
  have hf1 := Int.fract_lt_one (x * (w.length : K))
  have hkm : k < w.length := by
    have : (k : K) < (w.length : K) := by nlinarith
    exact_mod_cast this
  have hlen : (linspaceClosed (0 : K) 1 (w.length + 1)).length = w.length + 1 := by simp [linspaceClosed]
  have g1 : (w ++ [w.getD 0 0]).getD k 0 = w.getD k 0 := by
    rw [List.getD_append _ _ _ _ hkm]
  have g2 : (w ++ [w.getD 0 0]).getD (k + 1) 0 = w.getD ((k + 1) % w.length) 0 := by
    rcases Nat.lt_or_ge (k + 1) w.length with h | h
    · rw [List.getD_append _ _ _ _ h, Nat.mod_eq_of_lt h]
    · have : k + 1 = w.length := by omega
      rw [this, List.getD_append_right _ _ _ _ le_rfl, Nat.sub_self, Nat.mod_self]
      rfl
  rw [interp1_at (linspaceClosed01_pairwise hm) _ x k (by rw [hlen]; omega)]
  · unfold linAt weightAt
    dsimp only
    rw [← hkd, linspaceClosed01 hm (by omega), linspaceClosed01 hm (by omega), g1, g2]
    congr 1
    have : (x - (k : K) / (w.length : K)) / (((k + 1 : ℕ) : K) / (w.length : K) - (k : K) / (w.length : K)) =
        Int.fract (x * (w.length : K)) := by
      have : (((k + 1 : ℕ) : K) / (w.length : K) - (k : K) / (w.length : K)) = 1 / (w.length : K) := by
        push_cast; ring
      rw [this]
      field_simp
      linear_combination hfr
    rw [this]
    ring
  · rw [linspaceClosed01 hm (by omega), div_le_iff₀ hm']; linarith
  · rw [linspaceClosed01 hm (by omega), le_div_iff₀ hm']; push_cast; linarith

/-- The weight at the fraction `f`, 1 without weights. -/
def weightOf : Option (List K) → K → K
  | none, _ => 1
  | some w, f => weightAt w f

theorem lineWeights_eq (w : Option (List K)) (hw : ∀ v, w = some v → v ≠ []) (n : ℕ) :
    lineWeights w n = .ok ((List.range n).map fun i : ℕ => weightOf w ((i : K) / (n : K))) := by
  cases w with
  | none =>
    unfold lineWeights weightOf
    simp only [Except.ok.injEq]
    rw [List.map_const', List.length_range]
  | some v => exact interpClosed_eq v (hw v rfl) n

theorem zipWith_map_range (f g : ℕ → K) (n : ℕ) :
    List.zipWith (· * ·) ((List.range n).map f) ((List.range n).map g) = (List.range n).map fun i => f i * g i := by
  rw [List.zipWith_map]
  simp [List.zipWith_self]

theorem getD_map_range' (f : ℕ → K) {n i : ℕ} (h : i < n) : ((List.range n).map f).getD i 0 = f i := by
  rw [List.getD_eq_getElem?_getD, List.getElem?_map, List.getElem?_range h]
  rfl

/-- Cumulative sums of a list given by a function. -/
theorem cumSums_range (f : ℕ → K) (n i : ℕ) (h : i ≤ n) :
    (cumSums 0 ((List.range n).map f)).getD i 0 = ∑ j ∈ Finset.range i, f j := by
  rw [cumSums_getD _ _ _ (by simpa using h), zero_add]
  apply Finset.sum_congr rfl
  intro j hj
  rw [Finset.mem_range] at hj
  exact getD_map_range' f (by omega)

/-- **C56.** With straight segments `distance` has one entry more than the line, starts with 0,
increases from each point to the next by the (weighted) length of the segment and ends with the
(weighted) perimeter. -/
theorem C56_polygon (e : RzEnv K) (l : RZLine K) (ho : l.order = 1) (sample : ℕ) (w : Option (List K))
    (hw : ∀ v, w = some v → v ≠ []) :
    ∃ d, l.distance e sample w = .ok d ∧ d.length = l.pts.length + 1 ∧ d.getD 0 0 = 0 ∧
      (∀ i < l.pts.length, d.getD (i + 1) 0 - d.getD i 0 =
        e.sqrt (((ptAt l.pts i).1 - (ptAt l.pts (i + 1)).1) ^ 2 + ((ptAt l.pts i).2 - (ptAt l.pts (i + 1)).2) ^ 2) *
          weightOf w ((i : K) / (l.pts.length : K))) ∧
      d.getD l.pts.length 0 = ∑ i ∈ Finset.range l.pts.length,
        e.sqrt (((ptAt l.pts i).1 - (ptAt l.pts (i + 1)).1) ^ 2 + ((ptAt l.pts i).2 - (ptAt l.pts (i + 1)).2) ^ 2) *
          weightOf w ((i : K) / (l.pts.length : K)) := by
  unfold RZLine.distance distancePoly
  rw [if_pos ho, lineWeights_eq w hw, Except.map]
  refine ⟨_, rfl, ?_, ?_, ?_, ?_⟩
  · rw [cumSums_length, zipWith_map_range]; simp
  · rw [zipWith_map_range, cumSums_range _ _ _ (by omega)]; simp
  · intro i hi
    rw [zipWith_map_range, cumSums_range _ _ _ (by omega), cumSums_range _ _ _ (by omega), Finset.sum_range_succ]
    unfold segLen
    ring
  · rw [zipWith_map_range, cumSums_range _ _ _ le_rfl]
    rfl

/-- **C56.** If there is one weight for each point, these are the weights of the segments. -/
theorem C56_weights (w : List K) (i : ℕ) (h : i < w.length) : weightAt w ((i : K) / (w.length : K)) = w.getD i 0 := by
  have hm : (w.length : K) ≠ 0 := by exact_mod_cast (by omega : w.length ≠ 0)
  unfold weightAt
  rw [div_mul_cancel₀ _ hm]
  simp

theorem weightOf_nonneg (w : Option (List K)) (hw : ∀ v, w = some v → ∀ x ∈ v, 0 ≤ x) (f : K) : 0 ≤ weightOf w f := by
  cases w with
  | none => exact zero_le_one
  | some v =>
    have hv : ∀ i, 0 ≤ v.getD i 0 := by
      intro i
      rcases Nat.lt_or_ge i v.length with h | h
      · rw [List.getD_eq_getElem _ _ h]; exact hw v rfl _ (List.getElem_mem h)
      · rw [List.getD_eq_default _ _ h]
    unfold weightOf weightAt
    have h0 := Int.fract_nonneg (f * (v.length : K))
    have h1 := Int.fract_lt_one (f * (v.length : K))
    have h2 := hv ⌊f * (v.length : K)⌋.toNat
    have h3 := hv ((⌊f * (v.length : K)⌋.toNat + 1) % v.length)
    have : 0 ≤ 1 - Int.fract (f * (v.length : K)) := by linarith
    dsimp only
    positivity

theorem linspaceClosed_step (a b : K) {m i : ℕ} (hm : 0 < m) (h : i ≤ m) :
    (linspaceClosed a b (m + 1)).getD i 0 = a + (i : K) * ((b - a) / (m : K)) := by
  unfold linspaceClosed
  rw [List.getD_eq_getElem?_getD, List.getElem?_map, List.getElem?_range (by omega)]
  simp only [Option.map_some, Option.getD_some]
  rw [if_neg (by omega)]
  push_cast
  ring

/-- **C56.** With splines `distance` has one entry more than the line, starts with 0 and
increases from each point to the next by the trapezoidal sum of the (weighted) speed over
`sample` steps. -/
theorem C56_spline (e : RzEnv K) (l : RZLine K) (ho : l.order ≠ 1) (hn : 0 < l.pts.length) (sample : ℕ)
    (hs : 1 ≤ sample) (w : Option (List K)) (hw : ∀ v, w = some v → v ≠ []) (v : ℕ → K)
    (hv : ∀ j, v j = e.sqrt ((l.value e.pi ((j : K) * (2 * e.pi / ((sample * l.pts.length : ℕ) : K))) 1).1 ^ 2 +
      (l.value e.pi ((j : K) * (2 * e.pi / ((sample * l.pts.length : ℕ) : K))) 1).2 ^ 2) *
        weightOf w ((j : K) / ((sample * l.pts.length + 1 : ℕ) : K))) :
    ∃ d, l.distance e sample w = .ok d ∧ d.length = l.pts.length + 1 ∧ d.getD 0 0 = 0 ∧
      ∀ i < l.pts.length, d.getD (i + 1) 0 - d.getD i 0 = ∑ j ∈ Finset.range sample,
        2 * e.pi / ((sample * l.pts.length : ℕ) : K) * (v (i * sample + j + 1) + v (i * sample + j)) / 2 := by
  set n := l.pts.length with hnd
  have hsn : 0 < sample * n := Nat.mul_pos (by omega) hn
  have hlen : (linspaceClosed 0 (2 * e.pi) (sample * n + 1)).length = sample * n + 1 := by simp [linspaceClosed]
  have hvals : List.zipWith (· * ·) ((linspaceClosed 0 (2 * e.pi) (sample * n + 1)).map (l.speed e))
      ((List.range (sample * n + 1)).map fun i : ℕ => weightOf w ((i : K) / ((sample * n + 1 : ℕ) : K))) =
      (List.range (sample * n + 1)).map v := by
    have : (linspaceClosed 0 (2 * e.pi) (sample * n + 1)).map (l.speed e) =
        (List.range (sample * n + 1)).map fun j : ℕ => l.speed e ((j : K) * (2 * e.pi / ((sample * n : ℕ) : K))) := by
      unfold linspaceClosed
      rw [List.map_map]
      apply List.map_congr_left
      intro j _
      simp only [Function.comp]
      rw [if_neg (by omega)]
      congr 1
      push_cast
      ring
    rw [this, zipWith_map_range]
    apply List.map_congr_left
    intro j _
    rw [hv]
    rfl
  set inc : ℕ → K := fun i => 2 * e.pi / ((sample * n : ℕ) : K) * (v (i + 1) + v i) / 2 with hinc
  have htr : cumtrapz ((List.range (sample * n + 1)).map v) (linspaceClosed 0 (2 * e.pi) (sample * n + 1)) =
      cumSums 0 ((List.range (sample * n)).map inc) := by
    unfold cumtrapz
    rw [hlen, Nat.add_sub_cancel]
    congr 1
    apply List.map_congr_left
    intro i hi
    rw [List.mem_range] at hi
    rw [linspaceClosed_step _ _ hsn (by omega), linspaceClosed_step _ _ hsn (by omega), getD_map_range' v (by omega),
      getD_map_range' v (by omega), hinc]
    push_cast
    ring
  have hcl : (cumSums 0 ((List.range (sample * n)).map inc)).length = sample * n + 1 := by
    rw [cumSums_length]; simp
  have hcnt : (sample * n + 1 + sample - 1) / sample = n + 1 := by
    have : sample * n + 1 + sample - 1 = sample * (n + 1) := by rw [Nat.mul_add]; omega
    rw [this, Nat.mul_div_cancel_left _ (by omega)]
  have hget : ∀ i ≤ n, (everyNth (cumSums 0 ((List.range (sample * n)).map inc)) sample).getD i 0 =
      ∑ j ∈ Finset.range (i * sample), inc j := by
    intro i hi
    unfold everyNth
    rw [hcl, hcnt, getD_map_range' _ (by omega), cumSums_range]
    rw [Nat.mul_comm sample n]
    exact Nat.mul_le_mul_right _ hi
  unfold RZLine.distance RZLine.distanceSpl
  rw [if_neg ho, if_neg (by omega)]
  dsimp only
  rw [← hnd, hlen, lineWeights_eq w hw, Except.map, hvals, htr]
  refine ⟨_, rfl, ?_, ?_, ?_⟩
  · unfold everyNth; rw [hcl, hcnt]; simp
  · rw [hget 0 (by omega)]; simp
  · intro i hi
    rw [hget (i + 1) (by omega), hget i (by omega), Nat.add_mul, Nat.one_mul, Finset.sum_range_add]
    simp only [hinc]
    ring

/-- **C56.** `distance` never decreases, for every spline order and weights that are not
negative. -/
theorem C56_nondecreasing (e : RzEnv K) (hsqrt : ∀ x, 0 ≤ e.sqrt x) (hpi : 0 ≤ e.pi) (l : RZLine K)
    (hn : 0 < l.pts.length) (sample : ℕ) (w : Option (List K)) (hw : ∀ v, w = some v → v ≠ [])
    (hw0 : ∀ v, w = some v → ∀ x ∈ v, 0 ≤ x) (d : List K) (h : l.distance e sample w = .ok d) :
    d.length = l.pts.length + 1 ∧ d.getD 0 0 = 0 ∧ ∀ i < l.pts.length, d.getD i 0 ≤ d.getD (i + 1) 0 := by
  by_cases ho : l.order = 1
  · obtain ⟨d', h1, h2, h3, h4, -⟩ := C56_polygon e l ho sample w hw
    rw [h] at h1
    injection h1 with h1
    subst h1
    refine ⟨h2, h3, fun i hi => ?_⟩
    have := h4 i hi
    have hp := mul_nonneg (hsqrt (((ptAt l.pts i).1 - (ptAt l.pts (i + 1)).1) ^ 2 +
      ((ptAt l.pts i).2 - (ptAt l.pts (i + 1)).2) ^ 2)) (weightOf_nonneg w hw0 ((i : K) / (l.pts.length : K)))
    linarith
  · by_cases hs : 1 ≤ sample
    · obtain ⟨d', h1, h2, h3, h4⟩ := C56_spline e l ho hn sample hs w hw (fun j => _) (fun j => rfl)
      rw [h] at h1
      injection h1 with h1
      subst h1
      refine ⟨h2, h3, fun i hi => ?_⟩
      have := h4 i hi
      rw [← sub_nonneg, this]
      apply Finset.sum_nonneg
      intro j _
      have hv : ∀ j : ℕ, 0 ≤ e.sqrt ((l.value e.pi ((j : K) * (2 * e.pi / ((sample * l.pts.length : ℕ) : K))) 1).1 ^ 2 +
          (l.value e.pi ((j : K) * (2 * e.pi / ((sample * l.pts.length : ℕ) : K))) 1).2 ^ 2) *
            weightOf w ((j : K) / ((sample * l.pts.length + 1 : ℕ) : K)) := fun j =>
        mul_nonneg (hsqrt _) (weightOf_nonneg w hw0 _)
      have ha := hv (i * sample + j + 1)
      have hb := hv (i * sample + j)
      have hstep : 0 ≤ 2 * e.pi / ((sample * l.pts.length : ℕ) : K) := by positivity
      have hsum := add_nonneg ha hb
      have := mul_nonneg hstep hsum
      exact div_nonneg this (by norm_num)
    · unfold RZLine.distance RZLine.distanceSpl at h
      rw [if_neg ho, if_pos hs] at h
      cases h

/-- A square with straight sides and a weight of two on the last two of them. -/
example : ((⟨[((0 : ℚ), (0 : ℚ)), (1, 0), (1, 1), (0, 1)], 1, fun _ _ => 0, fun _ _ => 0⟩ : RZLine ℚ).distance
    exRzEnv 20 (some [1, 1, 2, 2])).toOption = some [0, 1, 2, 4, 6] := by decide +kernel

/-- A spline with the speed 2 and the same weights on half of the way. -/
example : ((⟨[((0 : ℚ), (0 : ℚ)), (1, 0), (1, 1), (0, 1)], 3, fun _ _ => 1, fun _ _ => 1⟩ : RZLine ℚ).distance
    exRzEnv 2 none).toOption = some [0, 3, 6, 9, 12] := by decide +kernel

/-! ## C119 -/

/-- The interpolation from distances to angles. -/
theorem interp_theta (pi : K) (n : ℕ) (hn : 0 < n) (d : List K) (hlen : d.length = n + 1)
    (hinc : d.Pairwise (· < ·)) (x : K) (h0 : d.getD 0 0 ≤ x) (h1 : x < d.getD n 0) :
    ∃ (k : ℕ) (f : K), k < n ∧ 0 ≤ f ∧ f < 1 ∧ (1 - f) * d.getD k 0 + f * d.getD (k + 1) 0 = x ∧
      interp1 d (rzTheta pi n ++ [2 * pi]) x = .ok (((k : K) + f) * (2 * pi / (n : K))) := by
  have hn' : (n : K) ≠ 0 := by exact_mod_cast hn.ne'
  have hth : ∀ i ≤ n, (rzTheta pi n ++ [2 * pi]).getD i 0 = (i : K) * (2 * pi / (n : K)) := by
    intro i hi
    have hl : (rzTheta pi n).length = n := by simp [rzTheta, linspaceOpen]
    rcases Nat.lt_or_ge i n with h | h
    · rw [List.getD_append _ _ _ _ (by rw [hl]; exact h), rzTheta_getD pi h]
    · have : i = n := by omega
      subst this
      rw [List.getD_append_right _ _ _ _ (by rw [hl]), hl, Nat.sub_self]
      simp only [List.getD_cons_zero]
      field_simp
  obtain ⟨i, hi, a, b, -⟩ := interp1_spec hinc (by omega) [] x h0 (by
    have : d.length - 1 = n := by omega
    rw [this]; exact h1.le)
  have main : ∀ k, k < n → d.getD k 0 ≤ x → x < d.getD (k + 1) 0 → ∃ (k : ℕ) (f : K), k < n ∧ 0 ≤ f ∧ f < 1 ∧
      (1 - f) * d.getD k 0 + f * d.getD (k + 1) 0 = x ∧
      interp1 d (rzTheta pi n ++ [2 * pi]) x = .ok (((k : K) + f) * (2 * pi / (n : K))) := by
    intro k hk hk0 hk1
    have hpos : 0 < d.getD (k + 1) 0 - d.getD k 0 := by linarith
    refine ⟨k, (x - d.getD k 0) / (d.getD (k + 1) 0 - d.getD k 0), hk, div_nonneg (by linarith) hpos.le,
      (div_lt_one hpos).2 (by linarith), ?_, ?_⟩
    · field_simp; ring
    · rw [interp1_at hinc _ x k (by omega) hk0 hk1.le]
      unfold linAt
      rw [hth k (by omega), hth (k + 1) (by omega)]
      congr 1
      push_cast
      ring
  rcases lt_or_eq_of_le b with hb | hb
  · exact main i (by omega) a hb
  · have hin : i + 1 < n := by
      by_contra hc
      have : i + 1 = n := by omega
      rw [this] at hb
      exact absurd hb h1.ne
    exact main (i + 1) hin hb.ge (by rw [hb]; exact pairwise_getD hinc (by omega) (by omega))

/-- **C119.** If no two neighbouring points coincide (the distances increase), `equallySpaced` takes the
line at increasing angles in `[0, 2 pi)` at which the distance, taken linearly between
the control points, is equally spaced: the new point `i` of `m` is at `i / m` of the whole
distance. -/
theorem C119_uniform (e : RzEnv K) (hpi : 0 < e.pi) (l : RZLine K) (hn : 0 < l.pts.length) (n : Option ℕ)
    (w : Option (List K)) (d : List K) (hd : l.distance e 20 w = .ok d) (hlen : d.length = l.pts.length + 1)
    (h0 : d.getD 0 0 = 0) (hinc : d.Pairwise (· < ·)) :
    ∃ ts : List K, l.equallySpaced e n w = RZLine.ofPts e (ts.map fun t => l.value e.pi t 0) true none none ∧
      ts.length = n.getD l.pts.length ∧ ts.Pairwise (· < ·) ∧
      ∀ i < ts.length, ∃ (k : ℕ) (f : K), k < l.pts.length ∧ 0 ≤ f ∧ f < 1 ∧
        ts.getD i 0 = ((k : K) + f) * (2 * e.pi / (l.pts.length : K)) ∧
        (1 - f) * d.getD k 0 + f * d.getD (k + 1) 0 = (i : K) / (ts.length : K) * d.getD l.pts.length 0 := by
  set N := l.pts.length with hN
  set m := n.getD N with hm
  have htot : 0 < d.getD N 0 := by
    have := pairwise_getD hinc (i := 0) (j := N) hn (by omega)
    rwa [h0] at this
  have hstep : (0 : K) < 2 * e.pi / (N : K) := by
    have : (0 : K) < (N : K) := by exact_mod_cast hn
    positivity
  have hex : ∀ i : ℕ, ∃ kf : ℕ × K, i < m → kf.1 < N ∧ 0 ≤ kf.2 ∧ kf.2 < 1 ∧
      (1 - kf.2) * d.getD kf.1 0 + kf.2 * d.getD (kf.1 + 1) 0 = (i : K) / (m : K) * d.getD N 0 ∧
      interp1 d (rzTheta e.pi N ++ [2 * e.pi]) ((i : K) / (m : K) * d.getD N 0) =
        .ok (((kf.1 : K) + kf.2) * (2 * e.pi / (N : K))) := by
    intro i
    by_cases hi : i < m
    · have hm' : (0 : K) < (m : K) := by exact_mod_cast (by omega : 0 < m)
      have hi' : (i : K) < (m : K) := by exact_mod_cast hi
      obtain ⟨k, f, a, b, c, g, q⟩ := interp_theta e.pi N hn d hlen hinc ((i : K) / (m : K) * d.getD N 0)
        (by rw [h0]; positivity) (by
          calc (i : K) / (m : K) * d.getD N 0 < 1 * d.getD N 0 :=
                mul_lt_mul_of_pos_right ((div_lt_one hm').2 hi') htot
            _ = d.getD N 0 := one_mul _)
      exact ⟨(k, f), fun _ => ⟨a, b, c, g, q⟩⟩
    · exact ⟨(0, 0), fun h => absurd h hi⟩
  choose kf hkf using hex
  set g : ℕ → K := fun i => (((kf i).1 : K) + (kf i).2) * (2 * e.pi / (N : K)) with hg
  have hts : l.equalTheta e n w = .ok ((List.range m).map g) := by
    unfold RZLine.equalTheta
    rw [hd]
    simp only [Except.bind]
    rw [← hN, ← hm, h0]
    have hl : d.length - 1 = N := by omega
    rw [hl]
    unfold linspaceOpen
    have : ∀ (x : List ℕ), (∀ i ∈ x, i < m) → (x.map fun i : ℕ => (0 : K) + (i : K) * ((d.getD N 0 - 0) / (m : K))).mapM
        (interp1 d (rzTheta e.pi N ++ [2 * e.pi])) = .ok (x.map g) := by
      intro x
      induction x with
      | nil => intro _; rfl
      | cons a x ih =>
        intro hx
        have ha := (hkf a (hx a (by simp))).2.2.2.2
        have e1 : (0 : K) + (a : K) * ((d.getD N 0 - 0) / (m : K)) = (a : K) / (m : K) * d.getD N 0 := by ring
        rw [List.map_cons, List.mapM_cons, e1, ha, ih fun i hi => hx i (by simp [hi])]
        rfl
    exact this _ fun i hi => List.mem_range.1 hi
  refine ⟨(List.range m).map g, ?_, by simp, ?_, ?_⟩
  · unfold RZLine.equallySpaced
    rw [hts]
    rfl
  · rw [List.pairwise_map]
    refine List.Pairwise.imp_of_mem ?_ (List.pairwise_lt_range (n := m))
    intro i j hi hj hij
    rw [List.mem_range] at hi hj
    obtain ⟨a1, b1, c1, v1, -⟩ := hkf i hi
    obtain ⟨a2, b2, c2, v2, -⟩ := hkf j hj
    have hm' : (0 : K) < (m : K) := by exact_mod_cast (by omega : 0 < m)
    have hij' : (i : K) < (j : K) := by exact_mod_cast hij
    have hv : (i : K) / (m : K) * d.getD N 0 < (j : K) / (m : K) * d.getD N 0 :=
      mul_lt_mul_of_pos_right (div_lt_div_of_pos_right hij' hm') htot
    rw [← v1, ← v2] at hv
    rw [hg]
    apply mul_lt_mul_of_pos_right _ hstep
    by_contra hcon
    have hcon : ((kf j).1 : K) + (kf j).2 ≤ ((kf i).1 : K) + (kf i).2 := not_lt.1 hcon
    have s1 := pairwise_getD hinc (i := (kf i).1) (j := (kf i).1 + 1) (by omega) (by omega)
    have s2 := pairwise_getD hinc (i := (kf j).1) (j := (kf j).1 + 1) (by omega) (by omega)
    rcases Nat.lt_trichotomy (kf j).1 (kf i).1 with h | h | h
    · have s3 : d.getD ((kf j).1 + 1) 0 ≤ d.getD (kf i).1 0 := by
        rcases Nat.eq_or_lt_of_le (show (kf j).1 + 1 ≤ (kf i).1 from h) with h' | h'
        · rw [h']
        · exact (pairwise_getD hinc h' (by omega)).le
      nlinarith
    · rw [h] at hcon hv s2
      have : (kf j).2 ≤ (kf i).2 := by linarith
      nlinarith
    · have : ((kf i).1 : K) + 1 ≤ ((kf j).1 : K) := by exact_mod_cast h
      linarith
  · intro i hi
    rw [List.length_map, List.length_range] at hi ⊢
    obtain ⟨a1, b1, c1, v1, -⟩ := hkf i hi
    exact ⟨(kf i).1, (kf i).2, a1, b1, c1, getD_map_range' g hi, v1⟩

/-- A square as eight points; the distances meet the hypotheses. -/
example : ((⟨[((0 : ℚ), (0 : ℚ)), (1, 0), (1, 1), (0, 1)], 1, fun _ _ => 0, fun _ _ => 0⟩ : RZLine ℚ).equalTheta
    exRzEnv (some 8) none).toOption = some [0, 3 / 4, 3 / 2, 9 / 4, 3, 15 / 4, 9 / 2, 21 / 4] := by decide +kernel

example : [(0 : ℚ), 1, 2, 3, 4].Pairwise (· < ·) := by decide +kernel

/-! ## C120 -/

/-- **C120**, the claim: the new line has the spline order of the old one. -/
def KeepsOrder (e : RzEnv K) (l : RZLine K) (n : Option ℕ) (w : Option (List K)) : Prop :=
  ∀ r, l.equallySpaced e n w = .ok r → r.order = l.order

theorem build_order {e : RzEnv K} {p : List (K × K)} {order smooth : Option ℕ} {l : RZLine K}
    (h : RZLine.build e p order smooth = .ok l) : l.order = splineOrder order ∧ l.pts = p := by
  unfold RZLine.build at h
  dsimp only at h
  split at h
  · cases h
  · simp only [Except.bind] at h
    split at h
    · cases h
    · split at h
      · cases h
      · injection h with h; rw [← h]; exact ⟨rfl, rfl⟩

theorem ofPts_order {e : RzEnv K} {p : List (K × K)} {a : Bool} {order smooth : Option ℕ} {l : RZLine K}
    (h : RZLine.ofPts e p a order smooth = .ok l) : l.order = splineOrder order := by
  unfold RZLine.ofPts at h
  dsimp only at h
  split_ifs at h <;> exact (build_order h).1

/-- The new line always has the order 3. -/
theorem equallySpaced_order {e : RzEnv K} {l r : RZLine K} {n : Option ℕ} {w : Option (List K)}
    (h : l.equallySpaced e n w = .ok r) : r.order = 3 := by
  unfold RZLine.equallySpaced at h
  simp only [Except.bind] at h
  split at h
  · cases h
  · exact ofPts_order h

/-- **C120** for lines of the order 3.  Missing: all other orders, for which it is false. -/
theorem C120_cubic_partial (e : RzEnv K) (l : RZLine K) (h : l.order = 3) (n : Option ℕ) (w : Option (List K)) :
    KeepsOrder e l n w := fun _ hr => by rw [equallySpaced_order hr, h]

/-- A spline that joins the values by straight lines. -/
def exLinEnv : RzEnv ℚ := ⟨3, fun x => x, fun _ _ v => .ok fun d t =>
  if d = 0 then let q := t * (v.length : ℚ) / 6
    (1 - Int.fract q) * v.getD (⌊q⌋.toNat % v.length) 0 + Int.fract q * v.getD ((⌊q⌋.toNat + 1) % v.length) 0 else 1⟩

/-- A square with straight sides. -/
def exSquare (e : RzEnv ℚ) : Except Err (RZLine ℚ) :=
  RZLine.ofPts e [((0 : ℚ), (0 : ℚ)), (1, 0), (1, 1), (0, 1)] true (some 1) none

/-- **C120** is false for straight sides. -/
theorem C120_fails : ∃ (e : RzEnv ℚ) (l : RZLine ℚ), l.order = 1 ∧ ¬ KeepsOrder e l none none := by
  have h1 : ((exSquare exLinEnv).bind fun l => l.equallySpaced exLinEnv none none).toBool = true := by decide +kernel
  cases hl : exSquare exLinEnv with
  | error x => rw [hl] at h1; simp [Except.bind, Except.toBool] at h1
  | ok l =>
    have ho : l.order = 1 := ofPts_order hl
    refine ⟨exLinEnv, l, ho, fun hk => ?_⟩
    rw [hl] at h1
    simp only [Except.bind] at h1
    cases hr : l.equallySpaced exLinEnv none none with
    | error x => rw [hr] at h1; simp [Except.toBool] at h1
    | ok r =>
      have := hk r hr
      rw [equallySpaced_order hr, ho] at this
      omega

end Zoidberg
