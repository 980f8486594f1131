import Verif.Props.LineFromPoints
import Verif.Props.RzCircle
import Mathlib.Tactic.Linarith
import Mathlib.Tactic.LinearCombination
import Mathlib.Tactic.IntervalCases

/-!
# C228: `line_from_points` finds the order of the points again
-/

set_option linter.unusedSectionVars false

namespace Zoidberg

variable {K : Type} [Field K] [LinearOrder K] [IsStrictOrderedRing K] [FloorRing K]

/-- Point `k` of a closed line, for any integer. -/
def cyc (p : List (K × K)) (k : ℤ) : K × K := p.getD (k % p.length).toNat (0, 0)

/-- At every point both neighbours are nearer than all other points. -/
def NeighboursNearest (p : List (K × K)) : Prop :=
  ∀ a b : ℤ, ¬ (p.length : ℤ) ∣ b - a → ¬ (p.length : ℤ) ∣ b - (a + 1) → ¬ (p.length : ℤ) ∣ b - (a - 1) →
    dist2 (cyc p a) (cyc p (a + 1)) < dist2 (cyc p a) (cyc p b) ∧ dist2 (cyc p a) (cyc p (a - 1)) < dist2 (cyc p a) (cyc p b)

theorem cyc_nat (p : List (K × K)) {i : ℕ} (h : i < p.length) : cyc p (i : ℤ) = p.getD i (0, 0) := by
  unfold cyc
  rw [Int.emod_eq_of_lt (by omega) (by omega), Int.toNat_natCast]

theorem cyc_congr (p : List (K × K)) {a b : ℤ} (h : (p.length : ℤ) ∣ a - b) : cyc p a = cyc p b := by
  unfold cyc
  rw [Int.emod_eq_emod_iff_emod_sub_eq_zero.2 (Int.emod_eq_zero_of_dvd h)]

theorem cyc_inj {p : List (K × K)} (hp : p.Nodup) (h0 : 0 < p.length) {a b : ℤ} (h : cyc p a = cyc p b) : (p.length : ℤ) ∣ a - b := by
  unfold cyc at h
  have hn : (p.length : ℤ) ≠ 0 := by omega
  have la : (a % p.length).toNat < p.length := by
    have := Int.emod_lt_of_pos a (by omega : (0 : ℤ) < p.length)
    have := Int.emod_nonneg a hn
    omega
  have lb : (b % p.length).toNat < p.length := by
    have := Int.emod_lt_of_pos b (by omega : (0 : ℤ) < p.length)
    have := Int.emod_nonneg b hn
    omega
  rw [List.getD_eq_getElem _ _ la, List.getD_eq_getElem _ _ lb, hp.getElem_inj_iff] at h
  have ha := Int.emod_nonneg a hn
  have hb := Int.emod_nonneg b hn
  apply Int.dvd_of_emod_eq_zero
  rw [← Int.emod_eq_emod_iff_emod_sub_eq_zero]
  omega

theorem mem_cyc {p : List (K × K)} {q : K × K} (h : q ∈ p) : ∃ i : ℕ, i < p.length ∧ cyc p (i : ℤ) = q := by
  obtain ⟨i, hi, e⟩ := List.mem_iff_getElem.1 h
  exact ⟨i, hi, by rw [cyc_nat p hi, List.getD_eq_getElem _ _ hi, e]⟩

theorem cyc_mem {p : List (K × K)} (h0 : 0 < p.length) (a : ℤ) : cyc p a ∈ p := by
  have la : (a % p.length).toNat < p.length := by
    have := Int.emod_lt_of_pos a (by omega : (0 : ℤ) < p.length)
    have := Int.emod_nonneg a (by omega : (p.length : ℤ) ≠ 0)
    omega
  unfold cyc
  rw [List.getD_eq_getElem _ _ la]
  exact List.getElem_mem _

/-- A tour that goes to the nearest remaining point goes on to a neighbour, if there is one left. -/
theorem tour_step {p t : List (K × K)} (hd : p.Nodup) (hn : NeighboursNearest p) (hp : t.Perm p) (hN : NearestNeighbour t) {i : ℕ} (hi : i + 1 < t.length)
    {a c : ℤ} (ha : t.getD i (0, 0) = cyc p a) (hc : c = a + 1 ∨ c = a - 1) (hleft : ∀ k ≤ i, t.getD k (0, 0) ≠ cyc p c) :
    t.getD (i + 1) (0, 0) = cyc p (a + 1) ∨ t.getD (i + 1) (0, 0) = cyc p (a - 1) := by
  have hl := hp.length_eq
  have h0 : 0 < p.length := by omega
  have td : t.Nodup := hp.nodup_iff.2 hd
  have hmem : t.getD (i + 1) (0, 0) ∈ p := by
    rw [List.getD_eq_getElem _ _ hi]
    exact hp.subset (List.getElem_mem _)
  obtain ⟨b, hb, eb⟩ := mem_cyc hmem
  obtain ⟨j, hj, ej⟩ := List.mem_iff_getElem.1 (hp.symm.subset (cyc_mem h0 c))
  have ej' : t.getD j (0, 0) = cyc p c := by rw [List.getD_eq_getElem _ _ hj, ej]
  have hij : i < j := by
    by_contra hcon
    exact hleft j (by omega) ej'
  have hle := hN i j hij hj
  rw [ej', ha, ← eb] at hle
  by_contra hcon
  push Not at hcon
  have n1 : ¬ (p.length : ℤ) ∣ b - (a + 1) := fun h => hcon.1 (by rw [← eb]; exact cyc_congr p h)
  have n2 : ¬ (p.length : ℤ) ∣ b - (a - 1) := fun h => hcon.2 (by rw [← eb]; exact cyc_congr p h)
  have n0 : ¬ (p.length : ℤ) ∣ b - a := by
    intro h
    have e := cyc_congr p h
    rw [eb, ← ha, List.getD_eq_getElem _ _ hi, List.getD_eq_getElem _ _ (by omega : i < t.length), td.getElem_inj_iff] at e
    omega
  obtain ⟨l1, l2⟩ := hn a b n0 n1 n2
  rcases hc with rfl | rfl
  · exact absurd hle (not_le.2 l1)
  · exact absurd hle (not_le.2 l2)

/-- A tour that has begun in one direction keeps it. -/
theorem tour_direction {p t : List (K × K)} (hd : p.Nodup) (hn : NeighboursNearest p) (hp : t.Perm p) (hN : NearestNeighbour t) {s d : ℤ} (hdir : d = 1 ∨ d = -1)
    (e0 : t.getD 0 (0, 0) = cyc p s) (e1 : t.getD 1 (0, 0) = cyc p (s + d)) : ∀ i : ℕ, i < t.length → t.getD i (0, 0) = cyc p (s + i * d) := by
  have hl := hp.length_eq
  have td : t.Nodup := hp.nodup_iff.2 hd
  intro i
  induction i using Nat.strong_induction_on with
  | _ i ih =>
    intro hi
    match i with
    | 0 => simpa using e0
    | 1 => simpa using e1
    | k + 2 =>
      have h0 : 0 < p.length := by omega
      have prev := ih (k + 1) (by omega) (by omega)
      have before := ih k (by omega) (by omega)
      have hgo : ∀ m ≤ k + 1, t.getD m (0, 0) ≠ cyc p (s + (k + 1 : ℕ) * d + d) := by
        intro m hm e
        rw [ih m (by omega) (by omega)] at e
        have := cyc_inj hd h0 e
        have h3 : (p.length : ℤ) ∣ ((k : ℤ) + 2 - m) := by
          rcases hdir with rfl | rfl
          · rw [← Int.dvd_neg]
            convert this using 1
            push_cast
            ring
          · convert this using 1
            push_cast
            ring
        have := Int.le_of_dvd (by omega) h3
        omega
      have st := tour_step hd hn hp hN (i := k + 1) (by omega) prev (c := s + (k + 1 : ℕ) * d + d) (by rcases hdir with rfl | rfl <;> simp [sub_eq_add_neg]) hgo
      have hback : t.getD (k + 1 + 1) (0, 0) ≠ cyc p (s + k * d) := by
        rw [← before, List.getD_eq_getElem _ _ hi, List.getD_eq_getElem _ _ (by omega : k < t.length), Ne, td.getElem_inj_iff]
        omega
      rcases hdir with rfl | rfl
      · rcases st with st | st
        · rw [st]
          congr 1
          push_cast
          ring
        · exfalso
          apply hback
          rw [st]
          congr 1
          push_cast
          ring
      · rcases st with st | st
        · exfalso
          apply hback
          rw [st]
          congr 1
          push_cast
          ring
        · rw [st]
          congr 1
          push_cast
          ring

theorem cyc_rotate (p : List (K × K)) (k : ℕ) (h0 : 0 < p.length) (a : ℤ) : cyc (p.rotate k) a = cyc p (a + k) := by
  have la : (a % p.length).toNat < p.length := by
    have := Int.emod_lt_of_pos a (by omega : (0 : ℤ) < p.length)
    have := Int.emod_nonneg a (by omega : (p.length : ℤ) ≠ 0)
    omega
  have lb : ((a + k) % p.length).toNat < p.length := by
    have := Int.emod_lt_of_pos (a + k) (by omega : (0 : ℤ) < p.length)
    have := Int.emod_nonneg (a + k) (by omega : (p.length : ℤ) ≠ 0)
    omega
  unfold cyc
  rw [List.length_rotate, List.getD_eq_getElem _ _ (by rw [List.length_rotate]; exact la), List.getElem_rotate, List.getD_eq_getElem _ _ lb]
  congr 1
  have h1 := Int.emod_nonneg a (by omega : (p.length : ℤ) ≠ 0)
  have h2 := Int.emod_nonneg (a + k) (by omega : (p.length : ℤ) ≠ 0)
  zify
  rw [Int.toNat_of_nonneg h1, Int.toNat_of_nonneg h2]
  simp

theorem cyc_reverse (p : List (K × K)) (h0 : 0 < p.length) (a : ℤ) : cyc p.reverse a = cyc p (-1 - a) := by
  have la : (a % p.length).toNat < p.length := by
    have := Int.emod_lt_of_pos a (by omega : (0 : ℤ) < p.length)
    have := Int.emod_nonneg a (by omega : (p.length : ℤ) ≠ 0)
    omega
  have key : ((-1 - a) % p.length) = p.length - 1 - a % p.length := by
    have h1 := Int.emod_nonneg a (by omega : (p.length : ℤ) ≠ 0)
    have h2 := Int.emod_lt_of_pos a (by omega : (0 : ℤ) < p.length)
    have h3 : (-1 - a) = (p.length - 1 - a % p.length) + p.length * (-1 - a / p.length) := by
      have := Int.emod_add_mul_ediv a p.length
      linear_combination this
    rw [h3, Int.add_mul_emod_self_left, Int.emod_eq_of_lt (by omega) (by omega)]
  unfold cyc
  rw [List.length_reverse, key, List.getD_eq_getElem?_getD, List.getElem?_reverse la, ← List.getD_eq_getElem?_getD]
  congr 1
  have h1 := Int.emod_nonneg a (by omega : (p.length : ℤ) ≠ 0)
  generalize a % (p.length : ℤ) = m at *
  omega

theorem cyc_ext {p q : List (K × K)} (hl : p.length = q.length) (h : ∀ i : ℕ, i < p.length → cyc p (i : ℤ) = cyc q (i : ℤ)) : p = q := by
  apply List.ext_getElem hl
  intro i h1 h2
  have := h i h1
  rwa [cyc_nat p h1, cyc_nat q h2, List.getD_eq_getElem _ _ h1, List.getD_eq_getElem _ _ h2] at this

/-- Every nearest-neighbour tour goes round the line. -/
theorem tour_rotated {p t : List (K × K)} (h3 : 3 ≤ p.length) (hd : p.Nodup) (hn : NeighboursNearest p) (hp : t.Perm p) (hN : NearestNeighbour t) :
    t ~r p ∨ t ~r p.reverse := by
  have hl := hp.length_eq
  have h0 : 0 < p.length := by omega
  have td : t.Nodup := hp.nodup_iff.2 hd
  have hm : t.getD 0 (0, 0) ∈ p := by
    rw [List.getD_eq_getElem _ _ (by omega)]
    exact hp.subset (List.getElem_mem _)
  obtain ⟨s, hs, e0⟩ := mem_cyc hm
  have st := tour_step hd hn hp hN (i := 0) (by omega) e0.symm (c := (s : ℤ) + 1) (Or.inl rfl) (by
    intro k hk e
    obtain rfl : k = 0 := by omega
    rw [← e0] at e
    have := cyc_inj hd h0 e
    rw [show (s : ℤ) - (s + 1) = -1 by ring, Int.dvd_neg] at this
    have := Int.le_of_dvd one_pos this
    omega)
  rw [zero_add] at st
  rcases st with st | st
  · left
    have all := tour_direction hd hn hp hN (d := 1) (Or.inl rfl) e0.symm st
    refine List.IsRotated.symm ⟨s, ?_⟩
    apply cyc_ext (by rw [List.length_rotate, hl])
    intro i hi
    rw [List.length_rotate] at hi
    rw [cyc_rotate p s h0, cyc_nat t (by omega), all i (by omega)]
    congr 1
    ring
  · right
    rw [sub_eq_add_neg] at st
    have all := tour_direction hd hn hp hN (d := -1) (Or.inr rfl) e0.symm st
    refine List.IsRotated.symm ⟨p.length - 1 - s, ?_⟩
    apply cyc_ext (by rw [List.length_rotate, List.length_reverse, hl])
    intro i hi
    rw [List.length_rotate, List.length_reverse] at hi
    rw [cyc_rotate _ _ (by rw [List.length_reverse]; exact h0), cyc_reverse p h0, cyc_nat t (by omega), all i (by omega)]
    apply cyc_congr
    rw [Nat.cast_sub (by omega), Nat.cast_sub (by omega)]
    refine ⟨-1, ?_⟩
    push_cast
    ring

theorem signedArea_rotate (p : List (K × K)) (k : ℕ) : signedArea (p.rotate k) = signedArea p := by
  rcases Nat.eq_zero_or_pos p.length with h0 | h0
  · rw [List.length_eq_zero_iff.1 h0]; simp
  have ha : ∀ q : List (K × K), 0 < q.length → ∀ i, ptAt (q.rotate 1) i = ptAt q (i + 1) := by
    intro q hq i
    unfold ptAt
    rw [List.length_rotate, List.getD_eq_getElem?_getD, List.getElem?_rotate (Nat.mod_lt _ hq), List.getD_eq_getElem?_getD, Nat.mod_add_mod]
  induction k with
  | zero => simp
  | succ k ih =>
    rw [← List.rotate_rotate, ← ih]
    have hq : 0 < (p.rotate k).length := by rw [List.length_rotate]; exact h0
    generalize p.rotate k = q at hq
    rw [signedArea_eq, signedArea_eq, List.length_rotate]
    congr 1
    simp only [ha q hq]
    exact sum_shift (fun i => (ptAt q i).1 * (ptAt q (i + 1)).2 - (ptAt q (i + 1)).1 * (ptAt q i).2) q.length (fun i => by
      have : i + q.length + 1 = i + 1 + q.length := by omega
      simp only [this, ptAt_add])

/-- **C228.** If at every point of an anticlockwise line both neighbours are nearer than all other points, `line_from_points` finds the line again from its points in
any order; only the first point may be another one. -/
theorem C228_partial (e : RzEnv K) (p : List (K × K)) (h3 : 3 ≤ p.length) (hd : p.Nodup) (hn : NeighboursNearest p) (ha : 0 < signedArea p)
    (pts : List (K × K)) (hp : pts.Perm p) (order smooth : Option ℕ) (l : RZLine K) (h : lineFromPoints e pts order smooth false = .ok (some l)) :
    ∃ k, l.pts = p.rotate k := by
  obtain ⟨l', len, k, e1, _, hc, _⟩ := C57_shortest e pts order smooth _ (by rw [hp.length_eq]; omega) h
  obtain rfl : l = l' := Option.some.inj e1
  obtain ⟨t, tp, tN, _, tl⟩ := hc.tour
  obtain ⟨harea, hor⟩ := C54_anticlockwise e t order smooth l tl
  have hr := tour_rotated h3 hd hn (tp.trans hp) tN
  have hl : l.pts ~r p ∨ l.pts ~r p.reverse := by
    rcases hor with h1 | h1 <;> rw [h1]
    · exact hr
    · rcases hr with h2 | h2
      · exact Or.inr h2.reverse
      · exact Or.inl (by simpa using h2.reverse)
  rcases hl with h2 | h2
  · obtain ⟨k, hk⟩ := h2.symm
    exact ⟨k, hk.symm⟩
  · obtain ⟨k, hk⟩ := h2.symm
    rw [← hk, signedArea_rotate, signedArea_reverse] at harea
    linarith

/-- `splrep` never fails. -/
def SplrepTotal (e : RzEnv K) : Prop := ∀ k kn v, ∃ f, e.splrep k kn v = .ok f

theorem ofPts_ok {e : RzEnv K} (he : SplrepTotal e) {p : List (K × K)} (ha : signedArea p ≠ 0) (order smooth : Option ℕ) :
    ∃ l, RZLine.ofPts e p true order smooth = .ok l := by
  rw [C54_direction e p order smooth ha]
  have hne : (if 0 < signedArea p then p else p.reverse) ≠ [] := by
    intro h
    have : p = [] := by
      split_ifs at h
      · exact h
      · simpa using h
    rw [this] at ha
    simp [signedArea] at ha
  generalize (if 0 < signedArea p then p else p.reverse) = q at hne
  unfold RZLine.build
  dsimp only
  rw [if_neg hne]
  obtain ⟨f, hf⟩ := he (splineOrder order) (smooth.map (rzKnots e.pi q.length)) (q.map Prod.fst)
  obtain ⟨g, hg⟩ := he (splineOrder order) (smooth.map (rzKnots e.pi q.length)) (q.map Prod.snd)
  rw [hf, hg]
  exact ⟨_, rfl⟩

theorem distance_ok (e : RzEnv K) (l : RZLine K) : ∃ d, l.distance e 20 none = .ok d := by
  unfold RZLine.distance distancePoly RZLine.distanceSpl
  split_ifs <;> first | omega | exact ⟨_, rfl⟩

theorem bestLine_total {e : RzEnv K} {pts : List (K × K)} {order smooth : Option ℕ} : ∀ (ss : List ℕ) (best : Option (RZLine K × K)),
    (∀ s ∈ ss, ∃ c, lineCandidate e pts order smooth s = .ok c) → ∃ r, bestLine e pts order smooth ss best = .ok r
  | [], best, _ => ⟨best, rfl⟩
  | s :: ss, best, h => by
    obtain ⟨c, hc⟩ := h s (by simp)
    rw [bestLine, hc]
    exact bestLine_total ss _ fun s' hs' => h s' (by simp [hs'])

/-- **C228.** If no spline fails, there is such a line. -/
theorem C228_exists_partial (e : RzEnv K) (he : SplrepTotal e) (p : List (K × K)) (h3 : 3 ≤ p.length) (hd : p.Nodup) (hn : NeighboursNearest p)
    (ha : 0 < signedArea p) (pts : List (K × K)) (hp : pts.Perm p) (order smooth : Option ℕ) :
    ∃ l k, lineFromPoints e pts order smooth false = .ok (some l) ∧ l.pts = p.rotate k := by
  have hl := hp.length_eq
  have hb : ∃ r, bestLine e pts order smooth (List.range pts.length) none = .ok r := by
    apply bestLine_total
    intro s _
    obtain ⟨t, ht⟩ := nnTour_ok (pts := pts) (by omega) s
    obtain ⟨tp, tN, _⟩ := nnTour_spec ht
    have harea : signedArea t ≠ 0 := by
      rcases tour_rotated h3 hd hn (tp.trans hp) tN with h | h
      · obtain ⟨k, hk⟩ := h.symm
        rw [← hk, signedArea_rotate]
        exact ha.ne'
      · obtain ⟨k, hk⟩ := h.symm
        rw [← hk, signedArea_rotate, signedArea_reverse]
        exact neg_ne_zero.2 ha.ne'
    obtain ⟨l, hl⟩ := ofPts_ok he harea order smooth
    obtain ⟨d, hdd⟩ := distance_ok e l
    unfold lineCandidate
    rw [ht]
    simp only [Except.bind]
    rw [hl]
    simp only
    rw [hdd]
    exact ⟨_, rfl⟩
  obtain ⟨r, hr⟩ := hb
  have hf : lineFromPoints e pts order smooth false = .ok (r.map Prod.fst) := by
    unfold lineFromPoints
    rw [if_neg (by simp), hr]
    rfl
  obtain ⟨l, _, _, e1, _⟩ := C57_shortest e pts order smooth _ (by omega) hf
  rw [e1] at hf
  obtain ⟨k, hk⟩ := C228_partial e p h3 hd hn ha pts hp order smooth l hf
  exact ⟨l, k, hf, hk⟩

/-! ## Circles -/

open Real

theorem cyc_circle (R0 r : ℝ) {n : ℕ} (hn : n ≠ 0) (a : ℤ) :
    cyc (circlePts π cos sin R0 r n) a = (R0 + r * cos (2 * π * a / n), r * sin (2 * π * a / n)) := by
  have hn' : (n : ℝ) ≠ 0 := by exact_mod_cast hn
  have h1 := Int.emod_nonneg a (by omega : (n : ℤ) ≠ 0)
  have h2 := Int.emod_lt_of_pos a (by omega : (0 : ℤ) < n)
  unfold cyc
  rw [circlePts_length, circlePts_getD R0 r (by omega)]
  have e : (((a % (n : ℤ)).toNat : ℕ) : ℝ) = a - n * ((a / n : ℤ) : ℝ) := by
    have : (((a % (n : ℤ)).toNat : ℕ) : ℤ) = a - n * (a / n) := by
      rw [Int.toNat_of_nonneg h1, Int.emod_def]
    exact_mod_cast congrArg (Int.cast : ℤ → ℝ) this
  have e2 : 2 * π * (((a % (n : ℤ)).toNat : ℕ) : ℝ) / n = 2 * π * a / n - ((a / n : ℤ) : ℝ) * (2 * π) := by
    rw [e]
    field_simp
  unfold onCircle
  rw [e2, cos_sub_int_mul_two_pi, sin_sub_int_mul_two_pi]

theorem dist_circle (R0 r : ℝ) {n : ℕ} (hn : n ≠ 0) (a b : ℤ) :
    dist2 (cyc (circlePts π cos sin R0 r n) a) (cyc (circlePts π cos sin R0 r n) b) = 2 * r ^ 2 * (1 - cos (2 * π * (b - a : ℤ) / n)) := by
  rw [cyc_circle R0 r hn, cyc_circle R0 r hn]
  have e : 2 * π * ((b - a : ℤ) : ℝ) / n = 2 * π * b / n - 2 * π * a / n := by
    push_cast
    ring
  unfold dist2
  rw [e, cos_sub]
  dsimp only
  linear_combination r ^ 2 * sin_sq_add_cos_sq (2 * π * a / n) + r ^ 2 * sin_sq_add_cos_sq (2 * π * b / n)

/-- The cosine of a whole multiple of the angle between the points. -/
theorem cos_step {n : ℕ} (hn : 3 ≤ n) {m : ℤ} (h0 : ¬ (n : ℤ) ∣ m) (h1 : ¬ (n : ℤ) ∣ m - 1) (h2 : ¬ (n : ℤ) ∣ m + 1) :
    cos (2 * π * m / n) < cos (2 * π / n) := by
  have hn' : (0 : ℝ) < n := by exact_mod_cast (by omega)
  have g1 := Int.emod_nonneg m (by omega : (n : ℤ) ≠ 0)
  have g2 := Int.emod_lt_of_pos m (by omega : (0 : ℤ) < n)
  obtain ⟨k, hk⟩ : ∃ k : ℕ, (k : ℤ) = m % n := ⟨(m % n).toNat, Int.toNat_of_nonneg g1⟩
  have hm : m = k + n * (m / n) := by
    rw [hk]
    exact (Int.emod_add_mul_ediv m n).symm
  have k0 : k ≠ 0 := by
    rintro rfl
    exact h0 ⟨m / n, by simpa using hm⟩
  have k1 : k ≠ 1 := by
    rintro rfl
    exact h1 ⟨m / n, by push_cast at hm; linarith⟩
  have k2 : k + 1 ≠ n := by
    intro e
    refine h2 ⟨m / n + 1, ?_⟩
    have : (n : ℤ) = k + 1 := by omega
    linear_combination hm - this
  have kn : k < n := by omega
  have e : 2 * π * (m : ℝ) / n = 2 * π * k / n + ((m / n : ℤ) : ℝ) * (2 * π) := by
    have : (m : ℝ) = k + n * ((m / n : ℤ) : ℝ) := by exact_mod_cast congrArg (Int.cast : ℤ → ℝ) hm
    conv_lhs => rw [this]
    field_simp
  rw [e, cos_add_int_mul_two_pi]
  have hpi := pi_pos
  have key : ∀ j : ℕ, 2 ≤ j → 2 * j ≤ n → cos (2 * π * j / n) < cos (2 * π / n) := by
    intro j hj hj2
    have c1 : (2 : ℝ) ≤ j := by exact_mod_cast hj
    have c2 : (2 : ℝ) * j ≤ n := by exact_mod_cast hj2
    apply cos_lt_cos_of_nonneg_of_le_pi
    · positivity
    · rw [div_le_iff₀ hn']
      nlinarith
    · apply div_lt_div_of_pos_right _ hn'
      nlinarith
  by_cases hk2 : 2 * k ≤ n
  · exact key k (by omega) hk2
  · have := key (n - k) (by omega) (by omega)
    rw [Nat.cast_sub kn.le] at this
    have e2 : 2 * π * ((n : ℝ) - k) / n = 2 * π - 2 * π * k / n := by field_simp
    rwa [e2, cos_two_pi_sub] at this

theorem circle_nearest (R0 r : ℝ) (hr : r ≠ 0) {n : ℕ} (hn : 3 ≤ n) : NeighboursNearest (circlePts π cos sin R0 r n) := by
  intro a b n0 n1 n2
  rw [circlePts_length] at n0 n1 n2
  have hn0 : n ≠ 0 := by omega
  rw [dist_circle R0 r hn0, dist_circle R0 r hn0, dist_circle R0 r hn0]
  have hc := cos_step hn (m := b - a) n0 (by rwa [sub_sub]) (by rwa [sub_sub_eq_add_sub, add_sub_right_comm] at n2)
  have r2 : 0 < r ^ 2 := by positivity
  rw [add_sub_cancel_left, sub_sub_cancel_left]
  have e : cos (2 * π * ((-1 : ℤ) : ℝ) / n) = cos (2 * π / n) := by
    rw [show 2 * π * ((-1 : ℤ) : ℝ) / n = -(2 * π / n) by push_cast; ring, cos_neg]
  rw [e, Int.cast_one, mul_one]
  constructor <;> nlinarith

theorem circle_nodup (R0 r : ℝ) (hr : r ≠ 0) {n : ℕ} (hn : 3 ≤ n) : (circlePts π cos sin R0 r n).Nodup := by
  have hn0 : n ≠ 0 := by omega
  have hn' : (0 : ℝ) < n := by exact_mod_cast (by omega)
  rw [List.nodup_iff_injective_get]
  intro i j hij
  have hi : (i : ℕ) < n := i.2.trans_eq (circlePts_length R0 r n)
  have hj : (j : ℕ) < n := j.2.trans_eq (circlePts_length R0 r n)
  rw [List.get_eq_getElem, List.get_eq_getElem] at hij
  have e : dist2 (cyc (circlePts π cos sin R0 r n) (i : ℕ)) (cyc (circlePts π cos sin R0 r n) (j : ℕ)) = 0 := by
    rw [cyc_nat _ i.2, cyc_nat _ j.2, List.getD_eq_getElem _ _ i.2, List.getD_eq_getElem _ _ j.2,
      hij]
    simp [dist2]
  rw [dist_circle R0 r hn0] at e
  have r2 : 0 < r ^ 2 := by positivity
  have c1 : cos (2 * π * (((j : ℕ) - (i : ℕ) : ℤ) : ℝ) / n) = 1 := by
    rcases mul_eq_zero.1 e with h | h
    · nlinarith
    · linarith
  have hi' : ((i : ℕ) : ℝ) < n := by exact_mod_cast hi
  have hj' : ((j : ℕ) : ℝ) < n := by exact_mod_cast hj
  have hi0 : (0 : ℝ) ≤ ((i : ℕ) : ℝ) := by positivity
  have hj0 : (0 : ℝ) ≤ ((j : ℕ) : ℝ) := by positivity
  have hpi := pi_pos
  rw [cos_eq_one_iff_of_lt_of_lt (by
    rw [lt_div_iff₀ hn']
    push_cast
    nlinarith) (by
    rw [div_lt_iff₀ hn']
    push_cast
    nlinarith)] at c1
  have c2 : (((j : ℕ) - (i : ℕ) : ℤ) : ℝ) = 0 := by
    rcases div_eq_zero_iff.1 c1 with h | h
    · rcases mul_eq_zero.1 h with h | h
      · linarith
      · exact h
    · linarith
  have c3 : ((j : ℕ) - (i : ℕ) : ℤ) = 0 := by exact_mod_cast c2
  exact Fin.ext (by omega)

/-- **C228.** Circles are found again. -/
theorem C228_circle_partial (e : RzEnv ℝ) (he : SplrepTotal e) (R0 r : ℝ) (hr : r ≠ 0) (n : ℕ) (hn : 3 ≤ n) (pts : List (ℝ × ℝ))
    (hp : pts.Perm (circlePts π cos sin R0 r n)) (order smooth : Option ℕ) :
    ∃ l k, lineFromPoints e pts order smooth false = .ok (some l) ∧ l.pts = (circlePts π cos sin R0 r n).rotate k := by
  refine C228_exists_partial e he _ (by rw [circlePts_length]; exact hn) (circle_nodup R0 r hr hn) (circle_nearest R0 r hr hn) ?_ pts hp order smooth
  rw [circlePts_area R0 r n (by omega)]
  have hn' : (0 : ℝ) < n := by exact_mod_cast (by omega : 0 < n)
  have hs : 0 < sin (2 * π / n) := by
    apply sin_pos_of_pos_of_lt_pi
    · have := pi_pos; positivity
    · rw [div_lt_iff₀ hn']
      have : (3 : ℝ) ≤ n := by exact_mod_cast hn
      nlinarith [pi_pos]
  positivity

/-! ## An elongated line -/

/-- The claim of `test_line_from_points`, for all shaped lines and all orders of the points. -/
def ReconstructsAll : Prop := ∀ (e : RzEnv ℝ), e.pi = π → SplrepTotal e → ∀ (R0 a elong triang indent : ℝ) (n : ℕ), 3 ≤ n → ∀ l0,
  shapedLine e cos sin R0 a elong triang indent n = .ok l0 → ∀ pts : List (ℝ × ℝ), pts.Perm l0.pts →
    ∃ l k, lineFromPoints e pts none none false = .ok (some l) ∧ l.pts = l0.pts.rotate k

/-- Four points of a line with the elongation 1 (semi-axes 1 and 2). -/
def fourPts : List (ℝ × ℝ) := [(4, 0), (3, 2), (2, 0), (3, -2)]

theorem shaped_four : shapedPts π cos sin 3 1 1 0 0 4 = fourPts := by
  have e1 : (2 * π / 4 : ℝ) = π / 2 := by ring
  have e2 : (2 * (π / 2) : ℝ) = π := by ring
  have e3 : (3 * (π / 2) : ℝ) = π / 2 + π := by ring
  simp [shapedPts, linspaceOpen, List.range_succ, fourPts, e1]
  rw [e2, e3, cos_add, sin_add]
  simp
  norm_num

/-- No nearest-neighbour tour goes round these points. -/
theorem four_no_tour {t : List (ℝ × ℝ)} (hN : NearestNeighbour t) (k : ℕ) : t ≠ fourPts.rotate k ∧ t ≠ (fourPts.rotate k).reverse := by
  have hk : fourPts.rotate k = fourPts.rotate (k % 4) := (List.rotate_mod fourPts k).symm
  rw [hk]
  have h4 : k % 4 < 4 := Nat.mod_lt _ (by norm_num)
  generalize k % 4 = m at h4
  have go : ∀ a b c d : ℝ × ℝ, (dist2 a c < dist2 a b ∨ dist2 b d < dist2 b c) → t ≠ [a, b, c, d] := by
    rintro a b c d h rfl
    have h1 := hN 0 2 (by norm_num) (by norm_num)
    have h2 := hN 1 3 (by norm_num) (by norm_num)
    simp only [List.getD_cons_zero, List.getD_cons_succ, Nat.reduceAdd, zero_add] at h1 h2
    rcases h with h | h <;> linarith
  interval_cases m <;> constructor <;> refine go _ _ _ _ ?_ <;> norm_num [dist2]

theorem fourPts_area : signedArea fourPts = 4 := by
  norm_num [signedArea, fourPts, Finset.sum_range_succ]

/-- **C228 (refutation).** -/
theorem C228_fails : ¬ ReconstructsAll := by
  intro h
  have he : SplrepTotal (⟨π, Real.sqrt, fun _ _ _ => .ok fun _ _ => 0⟩ : RzEnv ℝ) := fun _ _ _ => ⟨_, rfl⟩
  obtain ⟨l0, hl0⟩ := ofPts_ok he (p := fourPts) (by rw [fourPts_area]; norm_num) none none
  have hsh : shapedLine (⟨π, Real.sqrt, fun _ _ _ => .ok fun _ _ => 0⟩ : RzEnv ℝ) cos sin 3 1 1 0 0 4 = .ok l0 := by
    unfold shapedLine
    rw [shaped_four]
    exact hl0
  have hp0 : l0.pts = fourPts := by
    obtain ⟨h1, h2 | h2⟩ := C54_anticlockwise _ _ _ _ _ hl0
    · exact h2
    · rw [h2, signedArea_reverse, fourPts_area] at h1
      norm_num at h1
  obtain ⟨l, k, hl, hk⟩ := h _ rfl he 3 1 1 0 0 4 (by norm_num) l0 hsh l0.pts (List.Perm.refl _)
  obtain ⟨l', _, _, e1, _, hc, _⟩ := C57_shortest _ _ _ _ _ (by rw [hp0]; simp [fourPts]) hl
  obtain rfl : l = l' := Option.some.inj e1
  obtain ⟨t, _, tN, _, tl⟩ := hc.tour
  rw [hp0] at hk
  have hno := four_no_tour tN k
  obtain ⟨_, h2 | h2⟩ := C54_anticlockwise _ _ _ _ _ tl
  · exact hno.1 (h2.symm.trans hk)
  · apply hno.2
    rw [← hk, h2, List.reverse_reverse]

/-- Seven points on a circle, taken in steps of three. -/
example (e : RzEnv ℝ) (he : SplrepTotal e) : ∃ l k, lineFromPoints e ((List.range 7).map fun i => onCircle 2 1 7 (3 * i % 7)) none none false = .ok (some l) ∧
    l.pts = (circlePts π cos sin 2 1 7).rotate k := by
  refine C228_circle_partial e he 2 1 one_ne_zero 7 (by norm_num) _ ?_ none none
  have hc : circlePts π cos sin 2 1 7 = (List.range 7).map fun i => onCircle 2 1 7 i := by
    apply List.ext_getElem (by rw [circlePts_length]; simp)
    intro i h1 h2
    rw [circlePts_length] at h1
    have := circlePts_getD 2 1 h1
    rw [List.getD_eq_getElem _ _ (by rw [circlePts_length]; exact h1)] at this
    rw [this]
    simp
  rw [hc]
  have hperm : ((List.range 7).map fun i => 3 * i % 7).Perm (List.range 7) := by decide
  have := hperm.map fun i => onCircle 2 1 7 i
  rwa [List.map_map] at this

end Zoidberg
