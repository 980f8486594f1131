import Verif.Props.LineFromPoints

/-!
# C122: clockwise points
-/

set_option linter.unusedSectionVars false

namespace Zoidberg

variable {K : Type} [Field K] [LinearOrder K] [IsStrictOrderedRing K] [FloorRing K]

theorem ptAt_inj {l : List (K × K)} (hn : l.Nodup) {a b : ℕ} (ha : a < l.length) (hb : b < l.length) : ptAt l a = ptAt l b ↔ a = b := by
  unfold ptAt
  rw [Nat.mod_eq_of_lt ha, Nat.mod_eq_of_lt hb, List.getD_eq_getElem _ _ ha, List.getD_eq_getElem _ _ hb]
  exact hn.getElem_inj_iff

/-- The neighbours of a point that was put in after point `k`. -/
theorem between_insert {B : List (K × K)} {p a b : K × K} {k : ℕ} (hk : k < B.length) (hn : (p :: B).Nodup) :
    Between (B.take (k + 1) ++ p :: B.drop (k + 1)) a p b ↔ ptAt B k = a ∧ ptAt B (k + 1) = b ∨ ptAt B k = b ∧ ptAt B (k + 1) = a := by
  set L := B.take (k + 1) ++ p :: B.drop (k + 1) with hL
  have hlen : L.length = B.length + 1 := by rw [hL]; simp; omega
  have hperm : L.Perm (p :: B) := by
    rw [hL]
    refine List.perm_middle.trans ?_
    rw [List.take_append_drop]
  have hnL : L.Nodup := hperm.nodup_iff.2 hn
  have hm : min (k + 1) B.length = k + 1 := Nat.min_eq_left (by omega)
  have e1 : ptAt L (k + 1) = p := by
    unfold ptAt
    rw [hlen, Nat.mod_eq_of_lt (by omega), hL, List.getD_append_right _ _ _ _ (by simp)]
    simp [hm]
  have e0 : ptAt L k = ptAt B k := by
    unfold ptAt
    rw [hlen, Nat.mod_eq_of_lt (by omega), Nat.mod_eq_of_lt hk, hL, List.getD_append _ _ _ _ (by simp; omega),
      List.getD_eq_getElem _ _ (by simp; omega), List.getD_eq_getElem _ _ hk]
    simp
  have e2 : ptAt L (k + 2) = ptAt B (k + 1) := by
    unfold ptAt
    rw [hlen]
    rcases Nat.lt_or_ge (k + 1) B.length with h | h
    · rw [Nat.mod_eq_of_lt (by omega), Nat.mod_eq_of_lt h, hL, List.getD_append_right _ _ _ _ (by simp), List.length_take, hm,
        show k + 2 - (k + 1) = 0 + 1 by omega, List.getD_cons_succ, List.getD_eq_getElem _ _ (by simp; omega), List.getD_eq_getElem _ _ h]
      simp
    · have hki : k + 1 = B.length := by omega
      rw [show k + 2 = B.length + 1 by omega, hki, Nat.mod_self, Nat.mod_self, hL, List.getD_append _ _ _ _ (by simp; omega),
        List.getD_eq_getElem _ _ (by simp; omega), List.getD_eq_getElem _ _ (by omega)]
      simp
  constructor
  · rintro ⟨m, hm1, hm2, hm3⟩
    have hmk : m = k := by
      rw [← e1] at hm2
      rcases Nat.lt_or_ge (m + 1) L.length with h | h
      · have := (ptAt_inj hnL h (by omega)).1 hm2
        omega
      · have : m + 1 = L.length := by omega
        rw [this, ← ptAt_mod, Nat.mod_self] at hm2
        have := (ptAt_inj hnL (by omega) (by omega)).1 hm2
        omega
    subst hmk
    rwa [e0, e2] at hm3
  · intro h
    exact ⟨k, by omega, e1, by rwa [e0, e2]⟩

/-- **C122, the exact condition for clockwise points.** If the points so far are clockwise and all points are different, the new point comes to the edge of `closestPoint` exactly
if that is the last one or, for an even number of points, the one opposite to it. -/
theorem C122_clockwise_iff (e : RzEnv K) (hpi : 0 < e.pi) (closest : RZLine K → K × K → Except Err K)
    (hc : InRange e.pi closest) (pts : List (K × K)) (order : Option ℕ) (buf : List (K × K)) (i : ℕ) (h0 : 3 ≤ i)
    (hi : i < buf.length) (ha : signedArea (buf.take i) < 0) (hn : (pts.getD i (0, 0) :: buf.take i).Nodup)
    (line : RZLine K) (theta : K) (buf' : List (K × K)) (hl : RZLine.ofPts e (buf.take i) true order none = .ok line)
    (ht : closest line (pts.getD i (0, 0)) = .ok theta) (hst : polyStep e closest pts order buf i = .ok buf') (k : ℕ)
    (hk : k = ⌊theta / (2 * e.pi / (line.pts.length : K))⌋.toNat) :
    Between (buf'.take (i + 1)) (ptAt line.pts k) (pts.getD i (0, 0)) (ptAt line.pts (k + 1)) ↔ k + 1 = i ∨ 2 * k + 2 = i := by
  have hlp : line.pts = (buf.take i).reverse := by
    obtain ⟨h1, h2⟩ := C54_anticlockwise e _ _ _ _ hl
    rcases h2 with h2 | h2
    · rw [h2] at h1
      linarith
    · exact h2
  unfold polyStep at hst
  rw [hl] at hst
  simp only [Except.bind] at hst
  rw [ht] at hst
  simp only [Except.ok.injEq] at hst
  have hBl : (buf.take i).length = i := by rw [List.length_take, Nat.min_eq_left (by omega)]
  have hlen : line.pts.length = i := by rw [hlp, List.length_reverse, hBl]
  have hi' : (i : K) ≠ 0 := by exact_mod_cast (by omega : i ≠ 0)
  have hk' : k = polyIndex e.pi i theta := by
    rw [hk]
    unfold polyIndex
    rw [hlen]
    congr 2
    field_simp
  rw [← hst, ← hk']
  have hlt : k < i := by rw [hk']; exact polyIndex_lt hpi (hc _ _ _ ht) (by omega)
  set p := pts.getD i (0, 0)
  have heq := polyInsert_eq (p := p) hi hlt
  have htake : (polyInsert buf i k p).take (i + 1) = (buf.take i).take (k + 1) ++ p :: (buf.take i).drop (k + 1) := by
    rw [heq, List.take_append_of_le_length (by simp; omega), List.take_of_length_le (by simp; omega), List.take_take, Nat.min_eq_left (by omega)]
  rw [htake, between_insert (by omega) hn, hlp]
  set B := buf.take i
  have hnB : B.Nodup := (List.nodup_cons.1 hn).2
  rw [ptAt_reverse B (by omega)]
  rcases Nat.lt_or_ge (k + 1) i with h | h
  · rw [ptAt_reverse B (by omega), ptAt_inj hnB (by omega) (by omega), ptAt_inj hnB (by omega) (by omega), ptAt_inj hnB (by omega) (by omega),
      ptAt_inj hnB (by omega) (by omega)]
    omega
  · have hki : k + 1 = B.length := by omega
    have e1 : ptAt B (k + 1) = ptAt B 0 := by rw [hki, ← ptAt_mod, Nat.mod_self]
    have e2 : ptAt B.reverse (k + 1) = ptAt B (B.length - 1 - 0) := by
      rw [← ptAt_reverse B (by omega), hki, ← ptAt_mod, List.length_reverse, Nat.mod_self]
    rw [e1, e2, ptAt_inj hnB (by omega) (by omega), ptAt_inj hnB (by omega) (by omega), ptAt_inj hnB (by omega) (by omega),
      ptAt_inj hnB (by omega) (by omega)]
    omega

/-- A case: the three clockwise points of `C122_fails`, with a fourth one. -/
example : signedArea (exClockwise.take 3) < 0 ∧ (exClockwise.getD 3 (0, 0) :: exClockwise.take 3).Nodup ∧
    (RZLine.ofPts exRzEnv (exClockwise.take 3) true (some 1) none).toBool = true := by decide +kernel

end Zoidberg
