import Verif.Props.FieldTracer
import Mathlib.Data.List.Sort

/-!
# C72, C129: `trace_poincare`
-/

set_option linter.unusedSectionVars false

namespace Zoidberg

variable {K : Type} [Field K] [LinearOrder K] [IsStrictOrderedRing K]

theorem poincareYs_eq (T : K) (s : List K) (revs : ℕ) (h : 1 ≤ revs) :
    poincareYs T s revs = ((List.range revs).map fun n : ℕ => s.map fun a => (n : K) * T + a).flatten := by
  induction revs with
  | zero => omega
  | succ n ih =>
    rcases Nat.eq_zero_or_pos n with h0 | h0
    · subst h0
      simp [poincareYs, pyRange]
    · have ih := ih h0
      unfold poincareYs pyRange at ih ⊢
      rw [show n + 1 - 1 = (n - 1) + 1 by omega, List.range'_concat, List.foldl_append, List.foldl_cons, List.foldl_nil, ih,
        List.range_succ, List.map_append, List.flatten_append]
      congr 1
      rw [show 1 + 1 * (n - 1) = n by omega]
      have : ((List.range n).map fun m : ℕ => s.map fun a => (m : K) * T + a).flatten.take s.length = s := by
        obtain ⟨k, rfl⟩ : ∃ k, n = k + 1 := ⟨n - 1, by omega⟩
        rw [List.range_succ_eq_map, List.map_cons, List.flatten_cons]
        rw [List.take_left' (by simp)]
        simp
      rw [this]
      simp

theorem poincareYs_length (T : K) (s : List K) (revs : ℕ) (h : 1 ≤ revs) : (poincareYs T s revs).length = revs * s.length := by
  rw [poincareYs_eq T s revs h, flatten_length s.length _ (by intro i; simp)]

theorem poincareYs_getD (T : K) (s : List K) (revs : ℕ) {r p : ℕ} (hr : r < revs) (hp : p < s.length) :
    (poincareYs T s revs).getD (r * s.length + p) 0 = (r : K) * T + s.getD p 0 := by
  rw [poincareYs_eq T s revs (by omega), flatten_getD 0 s.length _ (by intro i; simp) _ _ _ hr hp]
  rw [List.getD_eq_getElem _ _ (by simpa using hp), List.getD_eq_getElem _ _ hp]
  simp

theorem overSample_length (ys : List K) (nover : ℕ) : (overSample ys nover).length = ys.length * nover - (nover - 1) := by
  simp [overSample]

theorem overSample_getD (ys : List K) {nover m : ℕ} (hn : 0 < nover) (hm : m < ys.length * nover - (nover - 1)) :
    (overSample ys nover).getD m 0 = ys.getD (m / nover) 0 +
      ((m % nover : ℕ) : K) / (nover : K) * (ys.getD (m / nover + 1) 0 - ys.getD (m / nover) 0) := by
  have hn' : (nover : K) ≠ 0 := Nat.cast_ne_zero.2 (by omega)
  have hl := Nat.mod_lt m hn
  rw [List.getD_eq_getElem _ _ (by rw [overSample_length]; exact hm)]
  simp only [overSample, List.getElem_map, List.getElem_range]
  split_ifs with h
  · rw [h]; simp
  · rw [Nat.cast_sub hl.le]
    field_simp
    ring

/-- The values over which the tracer goes do not decrease. -/
theorem overSample_mono (ys : List K) {nover : ℕ} (hn : 0 < nover) (hy : ∀ k, k + 1 < ys.length → ys.getD k 0 ≤ ys.getD (k + 1) 0)
    (m : ℕ) (hm : m + 1 < ys.length * nover - (nover - 1)) : (overSample ys nover).getD m 0 ≤ (overSample ys nover).getD (m + 1) 0 := by
  have hn' : (0 : K) < (nover : K) := Nat.cast_pos.2 hn
  have hdm := Nat.div_add_mod m nover
  have hl := Nat.mod_lt m hn
  have hk : m / nover + 1 < ys.length := by
    by_contra hc
    have h1 : (ys.length - 1) * nover ≤ m / nover * nover := Nat.mul_le_mul_right _ (Nat.sub_le_of_le_add (not_lt.1 hc))
    have h2 : ys.length * nover - nover ≤ m := by
      rw [Nat.sub_mul, one_mul, mul_comm (m / nover)] at h1; omega
    omega
  rw [overSample_getD ys hn (by omega), overSample_getD ys hn hm]
  have hs := sub_nonneg.2 (hy _ hk)
  rcases Nat.lt_or_ge (m % nover + 1) nover with h | h
  · have e1 : (m + 1) / nover = m / nover := by
      rw [← hdm, Nat.add_assoc, Nat.mul_add_div hn, Nat.mul_add_div hn, Nat.div_eq_of_lt h, Nat.div_eq_of_lt hl]
    have e2 : (m + 1) % nover = m % nover + 1 := by
      rw [← hdm, Nat.add_assoc, Nat.mul_add_mod, Nat.mul_add_mod, Nat.mod_mod, Nat.mod_eq_of_lt h]
    rw [e1, e2]
    gcongr
    linarith
  · have e0 : m % nover = nover - 1 := by omega
    have e : m + 1 = nover * (m / nover + 1) := by rw [Nat.mul_add, mul_one]; omega
    have e1 : (m + 1) / nover = m / nover + 1 := by rw [e, Nat.mul_div_cancel_left _ hn]
    have e2 : (m + 1) % nover = 0 := by rw [e, Nat.mul_mod_right]
    rw [e1, e2]
    have : ((m % nover : ℕ) : K) / (nover : K) ≤ 1 := by
      rw [div_le_one hn']; exact_mod_cast hl.le
    have := mul_le_mul_of_nonneg_right this hs
    simp only [Nat.cast_zero, zero_div, zero_mul, add_zero]
    linarith

theorem filterMap_range {α : Type} (f : ℕ → Option α) : ∀ N : ℕ, (∀ i < N, (f i).isSome) →
    ((List.range N).filterMap f).length = N ∧ ∀ k < N, ((List.range N).filterMap f)[k]? = f k
  | 0, _ => by simp
  | N + 1, h => by
    obtain ⟨h1, h2⟩ := filterMap_range f N fun i hi => h i (by omega)
    obtain ⟨a, ha⟩ := Option.isSome_iff_exists.1 (h N (by omega))
    rw [List.range_succ, List.filterMap_append]
    have e : [N].filterMap f = [a] := by simp [ha]
    rw [e]
    refine ⟨by simp [h1], ?_⟩
    intro k hk
    rcases Nat.lt_or_ge k N with hk' | hk'
    · rw [List.getElem?_append_left (by omega), h2 k hk']
    · have : k = N := by omega
      subst this
      rw [List.getElem?_append_right (by omega), h1, ha]
      simp

theorem strided_spec {α : Type} (l : List α) {N n : ℕ} (hn : 0 < n) (hN : 0 < N) (hl : l.length = N * n - (n - 1)) :
    (strided l n).length = N ∧ ∀ k < N, (strided l n)[k]? = l[k * n]? := by
  have hN' : n ≤ N * n := Nat.le_mul_of_pos_left n hN
  have hc : (l.length + n - 1) / n = N := by
    rw [hl, show N * n - (n - 1) + n - 1 = N * n by omega, Nat.mul_div_cancel _ hn]
  have hlt : ∀ k < N, k * n < l.length := by
    intro k hk
    have : (k + 1) * n ≤ N * n := Nat.mul_le_mul_right _ hk
    rw [Nat.add_mul, one_mul] at this
    omega
  unfold strided
  rw [hc]
  exact filterMap_range (fun i => l[i * n]?) N fun i hi => by simp [hlt i hi]

/-- The slices: what was given in increasing order, or equally spaced. -/
def IsSlices (T : K) (nplot : Option ℕ) (slices : Option (List K)) (s : List K) : Prop :=
  (∀ y, slices = some y → s.Perm y ∧ s.Pairwise (· ≤ ·)) ∧
    ∀ n, slices = none → nplot = some n → s.length = n ∧ ∀ p < n, s.getD p 0 = (p : K) * T / (n : K)

theorem poincareSlices_spec {T : K} {nplot : Option ℕ} {slices : Option (List K)} {s : List K}
    (h : poincareSlices T nplot slices = .ok s) : IsSlices T nplot slices s := by
  unfold poincareSlices at h
  rcases slices with _ | y
  · rcases nplot with _ | n
    · cases h
    · injection h with h
      subst h
      refine ⟨by simp, ?_⟩
      rintro n' - e
      injection e with e
      subst e
      refine ⟨by simp [linspaceOpen], ?_⟩
      intro p hp
      rw [List.getD_eq_getElem _ _ (by simpa [linspaceOpen] using hp)]
      simp [linspaceOpen, mul_div_assoc]
  · dsimp only at h
    split_ifs at h
    injection h with h
    subst h
    refine ⟨?_, by simp⟩
    intro y' e
    injection e with e
    subst e
    exact ⟨List.perm_insertionSort _ _, List.pairwise_insertionSort _ _⟩

/-- **C72.** The result is row `(r * nplot + p) * nover` of the tracer, which belongs to `y_slices[p] + r * yperiod`;
the other rows are between and dropped. -/
theorem C72_rows {α : Type} (follow : List K → Except Err (List α)) (hf : ∀ ys rows, follow ys = .ok rows → rows.length = ys.length)
    (T : K) (nplot : Option ℕ) (slices : Option (List K)) (revs nover : ℕ) (res : List (List α)) (s : List K)
    (h : tracePoincare follow T nplot slices revs nover = .ok (res, s)) :
    IsSlices T nplot slices s ∧ res.length = revs ∧ (∀ q ∈ res, q.length = s.length) ∧
      ∃ ys rows, follow ys = .ok rows ∧ ys.length = revs * s.length * nover - (nover - 1) ∧
        ∀ r < revs, ∀ p < s.length,
          ys[(r * s.length + p) * nover]? = some (s.getD p 0 + (r : K) * T) ∧
          (res[r]?.bind fun q => q[p]?) = rows[(r * s.length + p) * nover]? ∧ (res[r]?.bind fun q => q[p]?).isSome := by
  unfold tracePoincare at h
  cases hs : poincareSlices T nplot slices with
  | error e => rw [hs] at h; cases h
  | ok s' =>
    rw [hs] at h
    simp only [Except.bind] at h
    split_ifs at h with h0
    push Not at h0
    obtain ⟨hn, hr, hne⟩ := h0
    have hn : 0 < nover := Nat.pos_of_ne_zero hn
    cases hfo : follow (overSample (poincareYs T s' revs) nover) with
    | error e => rw [hfo] at h; cases h
    | ok rows =>
      rw [hfo] at h
      simp only at h
      split_ifs at h with hl
      injection h with h
      injection h with h1 h2
      subst h2
      have hlen : rows.length = revs * s'.length * nover - (nover - 1) := by
        rw [hf _ _ hfo, overSample_length, poincareYs_length T s' revs (by omega)]
      have hpos : 0 < revs * s'.length := Nat.mul_pos (by omega) (List.length_pos_iff.2 hne)
      obtain ⟨hsl, hsk⟩ := strided_spec rows hn hpos hlen
      have hblock : ∀ r < revs, (r + 1) * s'.length ≤ revs * s'.length := fun r hr => Nat.mul_le_mul_right _ hr
      refine ⟨poincareSlices_spec hs, by rw [← h1]; simp, ?_, _, rows, hfo, ?_, ?_⟩
      · intro q hq
        rw [← h1, List.mem_map] at hq
        obtain ⟨r, hr, rfl⟩ := hq
        have := hblock r (List.mem_range.1 hr)
        rw [Nat.add_mul, one_mul] at this
        rw [List.length_take, List.length_drop, hsl]
        omega
      · rw [overSample_length, poincareYs_length T s' revs (by omega)]
      · intro r hr p hp
        have hb := hblock r hr
        rw [Nat.add_mul, one_mul] at hb
        have hk : r * s'.length + p < revs * s'.length := by omega
        have hm : (r * s'.length + p) * nover < revs * s'.length * nover - (nover - 1) := by
          have : (r * s'.length + p + 1) * nover ≤ revs * s'.length * nover := Nat.mul_le_mul_right _ hk
          rw [Nat.add_mul, one_mul] at this
          omega
        refine ⟨?_, ?_⟩
        · have hlo : (r * s'.length + p) * nover < (overSample (poincareYs T s' revs) nover).length := by
            rw [overSample_length, poincareYs_length T s' revs (by omega)]; exact hm
          rw [List.getElem?_eq_getElem hlo, ← List.getD_eq_getElem _ 0 hlo,
            overSample_getD _ hn (by rw [poincareYs_length T s' revs (by omega)]; exact hm),
            Nat.mul_div_cancel _ hn, Nat.mul_mod_left, poincareYs_getD T s' revs hr hp]
          simp [add_comm]
        · have e : (res[r]?.bind fun q => q[p]?) = rows[(r * s'.length + p) * nover]? := by
            rw [← hsk _ hk, ← h1, List.getElem?_map, List.getElem?_range hr]
            simp [hp]
          rw [e]
          refine ⟨rfl, ?_⟩
          rw [List.getElem?_eq_getElem (by rw [hlen]; exact hm)]
          rfl

/-- The tracer goes through increasing values of `y`. -/
theorem C72_increasing {α : Type} (follow : List K → Except Err (List α)) (T : K) (hT : 0 ≤ T) (nplot : Option ℕ)
    (slices : Option (List K)) (revs nover : ℕ) (follow' : List K → Except Err (List α))
    (h : ∀ ys, (∀ m, m + 1 < ys.length → ys.getD m 0 ≤ ys.getD (m + 1) 0) → follow ys = follow' ys) :
    tracePoincare follow T nplot slices revs nover = tracePoincare follow' T nplot slices revs nover := by
  unfold tracePoincare
  cases hs : poincareSlices T nplot slices with
  | error e => rfl
  | ok s =>
    simp only [Except.bind]
    split_ifs with h0
    · rfl
    push Not at h0
    obtain ⟨hn, hr, hne⟩ := h0
    have hsp := poincareSlices_spec hs
    -- the slices increase and are within a period
    have hrange : ∀ p < s.length, 0 ≤ s.getD p 0 ∧ s.getD p 0 ≤ T := by
      intro p hp
      rcases slices with _ | y
      · rcases nplot with _ | n
        · cases hs
        · obtain ⟨h1, h2⟩ := hsp.2 n rfl rfl
          rw [h2 p (by omega)]
          have hn' : (0 : K) < (n : K) := Nat.cast_pos.2 (by omega)
          have hpn : (p : K) ≤ (n : K) := by exact_mod_cast (by omega : p ≤ n)
          refine ⟨by positivity, ?_⟩
          rw [div_le_iff₀ hn', mul_comm T]
          exact mul_le_mul_of_nonneg_right hpn hT
      · have hperm := (hsp.1 y rfl).1
        have hm : s.getD p 0 ∈ y := by
          rw [List.getD_eq_getElem _ _ hp]; exact hperm.mem_iff.1 (List.getElem_mem _)
        unfold poincareSlices at hs
        dsimp only at hs
        split_ifs at hs with h1 h2
        simp only [Bool.or_eq_true, List.any_eq_true, decide_eq_true_eq, not_or, not_exists, not_and, not_lt] at h2
        exact ⟨h2.1 _ hm, h2.2 _ hm⟩
    have hmono : ∀ p, p + 1 < s.length → s.getD p 0 ≤ s.getD (p + 1) 0 := by
      intro p hp
      rcases slices with _ | y
      · rcases nplot with _ | n
        · cases hs
        · obtain ⟨h1, h2⟩ := hsp.2 n rfl rfl
          rw [h2 p (by omega), h2 (p + 1) (by omega)]
          push_cast
          gcongr
          linarith
      · have hpw := (hsp.1 y rfl).2
        rw [List.getD_eq_getElem _ _ (by omega), List.getD_eq_getElem _ _ hp]
        exact List.pairwise_iff_getElem.1 hpw p (p + 1) (by omega) hp (by omega)
    rw [h]
    intro m hm
    rw [overSample_length] at hm
    refine overSample_mono _ (Nat.pos_of_ne_zero hn) ?_ m hm
    intro k hk
    rw [poincareYs_length T s revs (by omega)] at hk
    have hsl : 0 < s.length := List.length_pos_iff.2 hne
    have hk1 : k / s.length < revs := Nat.div_lt_of_lt_mul (by rw [mul_comm]; omega)
    have hk2 := Nat.mod_lt k hsl
    have hkd := Nat.div_add_mod k s.length
    have e1 : k = k / s.length * s.length + k % s.length := by rw [mul_comm]; omega
    rcases Nat.lt_or_ge (k % s.length + 1) s.length with h3 | h3
    · have e2 : k + 1 = k / s.length * s.length + (k % s.length + 1) := by omega
      rw [e2, poincareYs_getD T s revs hk1 h3]
      conv_lhs => rw [e1]
      rw [poincareYs_getD T s revs hk1 hk2]
      have := hmono _ h3
      linarith
    · have e2 : k + 1 = (k / s.length + 1) * s.length + 0 := by rw [Nat.add_mul]; omega
      have hk3 : k / s.length + 1 < revs := by
        by_contra hc
        have : revs * s.length ≤ (k / s.length + 1) * s.length := Nat.mul_le_mul_right _ (not_lt.1 hc)
        omega
      rw [e2, poincareYs_getD T s revs hk3 hsl]
      conv_lhs => rw [e1]
      rw [poincareYs_getD T s revs hk1 hk2]
      have a := (hrange _ hk2).2
      have b := (hrange 0 hsl).1
      push_cast
      linarith

/-- **C72 (partial).** With a tracer that gives the position at every `y` if there are at least two, `result[r, p]` is the
position at `y_slices[p] + r * yperiod`; the slices come back sorted.  Missing: one slice and one revolution without any
other plane (`C72_fails`). -/
theorem C72_positions_partial {α : Type} (follow : List K → Except Err (List α)) (pos : K → K → α)
    (hf : ∀ ys, 2 ≤ ys.length → follow ys = .ok (ys.map (pos (ys.getD 0 0))))
    (T : K) (nplot : Option ℕ) (slices : Option (List K)) (revs nover : ℕ) (hrev : 1 ≤ revs) (hnov : 1 ≤ nover) (s : List K)
    (hs : poincareSlices T nplot slices = .ok s) (hne : 2 ≤ revs * s.length) :
    ∃ res, tracePoincare follow T nplot slices revs nover = .ok (res, s) ∧ IsSlices T nplot slices s ∧ res.length = revs ∧
      (∀ q ∈ res, q.length = s.length) ∧
      ∀ r < revs, ∀ p < s.length, (res[r]?.bind fun q => q[p]?) = some (pos (s.getD 0 0) (s.getD p 0 + (r : K) * T)) := by
  have hs0 : s ≠ [] := by rintro rfl; simp at hne
  have hsl : 0 < s.length := List.length_pos_iff.2 hs0
  have hpos : 0 < revs * s.length := by omega
  have hnm : nover ≤ revs * s.length * nover := Nat.le_mul_of_pos_left _ hpos
  have hlen : (overSample (poincareYs T s revs) nover).length = revs * s.length * nover - (nover - 1) := by
    rw [overSample_length, poincareYs_length T s revs hrev]
  have hlen2 : 2 ≤ (overSample (poincareYs T s revs) nover).length := by
    rw [hlen]
    have : 2 * nover ≤ revs * s.length * nover := Nat.mul_le_mul_right _ hne
    omega
  have hfo := hf _ hlen2
  have hh : (overSample (poincareYs T s revs) nover).getD 0 0 = s.getD 0 0 := by
    rw [overSample_getD _ (by omega) (by rw [poincareYs_length T s revs hrev]; omega), Nat.zero_div, Nat.zero_mod]
    have := poincareYs_getD T s revs (r := 0) (p := 0) (by omega) hsl
    rw [Nat.zero_mul, Nat.zero_add] at this
    rw [this]
    simp
  obtain ⟨hst, hsk⟩ := strided_spec ((overSample (poincareYs T s revs) nover).map (pos (s.getD 0 0))) (by omega : 0 < nover) hpos
    (by rw [List.length_map, hlen])
  rw [hh] at hfo
  obtain ⟨res, hres⟩ : ∃ res, tracePoincare follow T nplot slices revs nover = .ok (res, s) := by
    unfold tracePoincare
    rw [hs]
    simp only [Except.bind]
    rw [if_neg (by push Not; exact ⟨by omega, by omega, hs0⟩), hfo]
    simp only
    rw [if_neg (by rw [hst]; simp)]
    exact ⟨_, rfl⟩
  -- a tracer that always gives one row for each `y`
  let follow' : List K → Except Err (List α) := fun ys => if 2 ≤ ys.length then follow ys else .error (.value "")
  have hres' : tracePoincare follow' T nplot slices revs nover = .ok (res, s) := by
    rw [← hres]
    unfold tracePoincare
    rw [hs]
    simp only [Except.bind, follow']
    rw [if_pos hlen2]
  obtain ⟨h1, h2, h3, ys, rows, h4, h5, h6⟩ := C72_rows follow' (by
    intro ys rows hy
    simp only [follow'] at hy
    split_ifs at hy with hy2
    rw [hf ys hy2] at hy
    injection hy with hy
    rw [← hy, List.length_map]) T nplot slices revs nover res s hres'
  refine ⟨res, hres, h1, h2, h3, ?_⟩
  intro r hr p hp
  obtain ⟨a, b, c⟩ := h6 r hr p hp
  rw [b]
  simp only [follow'] at h4
  split_ifs at h4 with hy2
  rw [hf ys hy2] at h4
  injection h4 with h4
  have hy0 : ys.getD 0 0 = s.getD 0 0 := by
    have := (h6 0 (by omega) 0 hsl).1
    rw [Nat.zero_mul, Nat.zero_add, Nat.zero_mul] at this
    rw [List.getD_eq_getElem?_getD, this]
    simp
  rw [← h4, List.getElem?_map, a, hy0]
  rfl

/-- What the statement says, for the tracer of the code and an integrator that works. -/
def PoincareWorks (K : Type) [Field K] [LinearOrder K] : Prop :=
  ∀ (ode : List K → List K → Except Err (List (List K))) (line : K × K → List K → ℕ → K × K), LineWise ode line →
    ∀ (x z : FArr K) (T : K) (nplot revs nover : ℕ), x.Ok → z.Ok → shape1 x = shape1 z → 1 ≤ nplot → 1 ≤ revs → 1 ≤ nover →
      (tracePoincare (poincareFollow ode x z) T (some nplot) none revs nover).toBool = true

/-- **C72 (refutation).** One plane and one revolution raise a `ValueError`. -/
theorem C72_fails : ¬ PoincareWorks ℚ := by
  intro h
  have := h stillOde _ stillOde_lineWise ⟨[1], [0]⟩ ⟨[1], [0]⟩ 1 1 1 20 rfl rfl rfl le_rfl le_rfl (by norm_num)
  revert this
  decide +kernel

/-- Slices in any order, three revolutions. -/
example : (tracePoincare (fun ys : List ℚ => Except.ok ys) 1 none (some [3 / 4, 1 / 4]) 3 4).toOption =
    some ([[1 / 4, 3 / 4], [5 / 4, 7 / 4], [9 / 4, 11 / 4]], [1 / 4, 3 / 4]) := by decide +kernel

/-- **C129 (partial).** A list, slices in increasing order and slices that are refused are left as they are.  Missing: arrays in another
order (`C129_fails`). -/
theorem C129_unchanged_partial (isArray : Bool) (T : K) (s : List K) (h : isArray = false ∨ s.Pairwise (· ≤ ·) ∨ ∃ a ∈ s, a < 0 ∨ a > T) :
    slicesAfter isArray T s = s := by
  unfold slicesAfter
  cases hs : poincareSlices T none (some s) with
  | error e => rfl
  | ok t =>
    rcases h with h | h | ⟨a, ha, h⟩
    · simp [h]
    · have ht := poincareSlices_spec hs
      obtain ⟨h1, h2⟩ := ht.1 s rfl
      have : t = s := List.Perm.eq_of_pairwise (fun a b _ _ h1 h2 => le_antisymm h1 h2) h2 h h1
      simp [this]
    · exfalso
      unfold poincareSlices at hs
      dsimp only at hs
      split_ifs at hs with h1 h2
      simp only [Bool.or_eq_true, List.any_eq_true, decide_eq_true_eq, not_or, not_exists, not_and, not_lt] at h2
      rcases h with h | h
      · exact absurd h (not_lt.2 (h2.1 a ha))
      · exact absurd h (not_lt.2 (h2.2 a ha))

/-- **C129 (refutation).** The array of the caller is sorted. -/
theorem C129_fails : ¬ ∀ (isArray : Bool) (T : ℚ) (s : List ℚ), slicesAfter isArray T s = s := by
  intro h
  have := h true 1 [1 / 2, 0]
  revert this
  decide +kernel

end Zoidberg
