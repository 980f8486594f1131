import Verif.Model.LineFromPoints
import Verif.Props.RzDistance
import Mathlib.Data.List.Perm.Basic
import Mathlib.Data.List.Rotate

/-!
# C57, C58, C59, C121: lines through given points
-/

set_option linter.unusedSectionVars false

namespace Zoidberg

variable {K : Type} [Field K] [LinearOrder K] [IsStrictOrderedRing K] [FloorRing K]

/-! ## C57 -/

/-- Every point is followed by the nearest one of those that come after it. -/
def NearestNeighbour (t : List (K × K)) : Prop :=
  ∀ i j, i < j → j < t.length → dist2 (t.getD i (0, 0)) (t.getD (i + 1) (0, 0)) ≤ dist2 (t.getD i (0, 0)) (t.getD j (0, 0))

theorem nn_index_lt {rest : List (K × K)} (h : 0 < rest.length) (last : K × K) :
    argmin (rest.map fun q => (last.1 - q.1) ^ 2 + (last.2 - q.2) ^ 2) < rest.length := by
  have := argmin_lt (l := rest.map fun q => (last.1 - q.1) ^ 2 + (last.2 - q.2) ^ 2) (by
    intro h0; rw [List.map_eq_nil_iff] at h0; rw [h0] at h; simp at h)
  simpa using this

theorem nnRest_perm : ∀ (k : ℕ) (last : K × K) (rest : List (K × K)), (nnRest k last rest).Perm rest
  | 0, _, _ => List.Perm.refl _
  | k + 1, last, rest => by
    rw [nnRest]
    split
    · rename_i h
      have hlt := nn_index_lt (by omega : 0 < rest.length) last
      dsimp only
      rw [List.getD_eq_getElem _ _ hlt]
      exact ((nnRest_perm k _ _).cons _).trans (List.getElem_cons_eraseIdx_perm hlt)
    · exact List.Perm.refl _

theorem nnRest_nearest : ∀ (k : ℕ) (last : K × K) (rest : List (K × K)), rest.length ≤ k + 1 →
    NearestNeighbour (last :: nnRest k last rest)
  | 0, last, rest, h => by
    intro i j hij hj
    rw [nnRest] at hj ⊢
    simp only [List.length_cons] at hj
    have : i = 0 ∧ j = 1 := by omega
    rw [this.1, this.2]
  | k + 1, last, rest, h => by
    rw [nnRest]
    split
    · rename_i hl
      have hlt := nn_index_lt (by omega : 0 < rest.length) last
      dsimp only
      set ind := argmin (rest.map fun q => (last.1 - q.1) ^ 2 + (last.2 - q.2) ^ 2) with hind
      set q := rest.getD ind (0, 0) with hq
      have ih := nnRest_nearest k q (rest.eraseIdx ind) (by rw [List.length_eraseIdx_of_lt hlt]; omega)
      intro i j hij hj
      cases i with
      | zero =>
        simp only [List.getD_cons_zero, List.getD_cons_succ]
        -- the point `j` is one of the rest
        have hmem : (last :: q :: nnRest k q (rest.eraseIdx ind)).getD j (0, 0) ∈ rest := by
          cases j with
          | zero => omega
          | succ j =>
            rw [List.getD_cons_succ, List.getD_eq_getElem _ _ (by simpa using hj)]
            have hp : (q :: nnRest k q (rest.eraseIdx ind)).Perm rest := by
              rw [hq, List.getD_eq_getElem _ _ hlt]
              exact ((nnRest_perm k _ _).cons _).trans (List.getElem_cons_eraseIdx_perm hlt)
            exact hp.subset (List.getElem_mem _)
        obtain ⟨m, hm, he⟩ := List.mem_iff_getElem.1 hmem
        have := argmin_le (l := rest.map fun q => (last.1 - q.1) ^ 2 + (last.2 - q.2) ^ 2) m (by simpa using hm)
        rw [← hind] at this
        have hg : ∀ x (hx : x < rest.length), (rest.map fun q => (last.1 - q.1) ^ 2 + (last.2 - q.2) ^ 2).getD x 0 =
            dist2 last rest[x] := by
          intro x hx
          rw [List.getD_eq_getElem?_getD, List.getElem?_map, List.getElem?_eq_getElem hx]
          rfl
        rw [hg ind hlt, hg m hm] at this
        rw [← he, hq, List.getD_eq_getElem _ _ hlt]
        exact this
      | succ i =>
        cases j with
        | zero => omega
        | succ j =>
          simp only [List.getD_cons_succ]
          exact ih i j (by omega) (by simpa using hj)
    · intro i j hij hj
      simp only [List.length_cons] at hj
      have : i = 0 ∧ j = 1 := by omega
      rw [this.1, this.2]

/-- A candidate: a nearest-neighbour tour through all points. -/
theorem nnTour_spec {pts t : List (K × K)} {s : ℕ} (h : nnTour pts s = .ok t) :
    t.Perm pts ∧ NearestNeighbour t ∧ t.getD 0 (0, 0) = ptAt pts (pts.length - s) := by
  unfold nnTour at h
  split at h
  · cases h
  · cases h
  · rename_i a b rest e
    injection h with h
    subst h
    have hp : (a :: b :: rest).Perm pts := by rw [← e]; exact List.rotate_perm _ _
    refine ⟨((nnRest_perm _ _ _).cons a).trans hp, nnRest_nearest _ _ _ (by omega), ?_⟩
    rw [List.getD_cons_zero]
    have hl : 0 < pts.length := by rw [← hp.length_eq]; simp
    have h0 : (npRoll pts s)[0]? = some a := by rw [e]; rfl
    unfold npRoll at h0
    rw [List.getElem?_rotate hl, Nat.zero_add] at h0
    unfold ptAt
    rw [List.getD_eq_getElem?_getD, h0]
    rfl

theorem nnTour_ok {pts : List (K × K)} (h : 2 ≤ pts.length) (s : ℕ) : ∃ t, nnTour pts s = .ok t := by
  have hl : (npRoll pts s).length = pts.length := by unfold npRoll; simp
  unfold nnTour
  cases e : npRoll pts s with
  | nil => rw [e] at hl; simp at hl; omega
  | cons a l =>
    cases l with
    | nil => rw [e] at hl; simp at hl; omega
    | cons b l => exact ⟨_, rfl⟩

theorem bestLine_spec (e : RzEnv K) (pts : List (K × K)) (order smooth : Option ℕ) :
    ∀ (ss : List ℕ) (best r : Option (RZLine K × K)), bestLine e pts order smooth ss best = .ok r →
      (∀ s ∈ ss, ∃ c, lineCandidate e pts order smooth s = .ok c ∧ ∃ b, r = some b ∧ b.2 ≤ c.2) ∧
      (∀ b, best = some b → ∃ b', r = some b' ∧ b'.2 ≤ b.2) ∧
      (r = best ∨ ∃ s ∈ ss, ∃ c, lineCandidate e pts order smooth s = .ok c ∧ r = some c)
  | [], best, r, h => by
    rw [bestLine] at h
    injection h with h
    subst h
    exact ⟨fun s hs => absurd hs (by simp), fun b hb => ⟨b, hb, le_rfl⟩, Or.inl rfl⟩
  | s :: ss, best, r, h => by
    rw [bestLine] at h
    cases hc : lineCandidate e pts order smooth s with
    | error x => rw [hc] at h; cases h
    | ok c =>
      rw [hc] at h
      obtain ⟨h1, h2, h3⟩ := bestLine_spec e pts order smooth ss _ r h
      have hkb : ∃ k, keepBest best c = some k ∧ k.2 ≤ c.2 ∧ (∀ b, best = some b → k.2 ≤ b.2) ∧
          (keepBest best c = best ∨ k = c) := by
        cases best with
        | none => exact ⟨c, rfl, le_rfl, fun b hb => (by cases hb), Or.inr rfl⟩
        | some b =>
          unfold keepBest
          dsimp only
          split
          · rename_i hlt
            exact ⟨c, rfl, le_rfl, fun b' hb' => by injection hb' with hb'; rw [← hb']; exact hlt.le, Or.inr rfl⟩
          · rename_i hlt
            exact ⟨b, rfl, not_lt.1 hlt, fun b' hb' => by injection hb' with hb'; rw [hb'], Or.inl rfl⟩
      obtain ⟨k, k1, k2, k3, k4⟩ := hkb
      obtain ⟨b', r1, r2⟩ := h2 k k1
      refine ⟨?_, ?_, ?_⟩
      · intro s' hs'
        rcases List.mem_cons.1 hs' with rfl | hs'
        · exact ⟨c, hc, b', r1, r2.trans k2⟩
        · exact h1 s' hs'
      · intro b hb
        exact ⟨b', r1, r2.trans (k3 b hb)⟩
      · rcases h3 with h3 | ⟨s', hs', c', q1, q2⟩
        · rcases k4 with k4 | k4
          · exact Or.inl (by rw [h3, k4])
          · exact Or.inr ⟨s, by simp, c, hc, by rw [h3, k1, k4]⟩
        · exact Or.inr ⟨s', by simp [hs'], c', q1, q2⟩

/-- A candidate line through the points, from point `k`: a nearest-neighbour tour through all points, in
the anticlockwise direction, and its length. -/
structure Candidate (e : RzEnv K) (pts : List (K × K)) (order smooth : Option ℕ) (k : ℕ) (l : RZLine K) (len : K) :
    Prop where
  tour : ∃ t : List (K × K), t.Perm pts ∧ NearestNeighbour t ∧ t.getD 0 (0, 0) = ptAt pts k ∧
    RZLine.ofPts e t true order smooth = .ok l
  length : ∃ d, l.distance e 20 none = .ok d ∧ len = d.getD (d.length - 1) 0

theorem lineCandidate_spec {e : RzEnv K} {pts : List (K × K)} {order smooth : Option ℕ} {s : ℕ}
    {c : RZLine K × K} (h : lineCandidate e pts order smooth s = .ok c) :
    Candidate e pts order smooth (pts.length - s) c.1 c.2 := by
  unfold lineCandidate at h
  cases ht : nnTour pts s with
  | error x => rw [ht] at h; cases h
  | ok t =>
    rw [ht] at h
    simp only [Except.bind] at h
    split at h
    · cases h
    · rename_i l hl
      split at h
      · cases h
      · rename_i d hd
        injection h with h
        subst h
        obtain ⟨a, b, q⟩ := nnTour_spec ht
        exact ⟨⟨t, a, b, q, hl⟩, ⟨d, hd, rfl⟩⟩

/-- **C57.** The line that `line_from_points` returns is a candidate from one of the points, every
point has a candidate, and none of them is shorter. -/
theorem C57_shortest (e : RzEnv K) (pts : List (K × K)) (order smooth : Option ℕ) (r : Option (RZLine K))
    (hn : 2 ≤ pts.length) (h : lineFromPoints e pts order smooth false = .ok r) :
    ∃ l len k, r = some l ∧ k < pts.length ∧ Candidate e pts order smooth k l len ∧
      ∀ k < pts.length, ∃ l' len', Candidate e pts order smooth k l' len' ∧ len ≤ len' := by
  unfold lineFromPoints at h
  rw [if_neg (by simp)] at h
  cases hb : bestLine e pts order smooth (List.range pts.length) none with
  | error x => rw [hb] at h; cases h
  | ok b =>
    rw [hb] at h
    simp only [Except.map, Except.ok.injEq] at h
    obtain ⟨h1, -, h3⟩ := bestLine_spec e pts order smooth _ _ _ hb
    have toLt : ∀ s < pts.length, ∀ l len, Candidate e pts order smooth (pts.length - s) l len →
        Candidate e pts order smooth ((pts.length - s) % pts.length) l len := by
      intro s _ l len hc
      obtain ⟨⟨t, a, b, c, d⟩, g⟩ := hc
      exact ⟨⟨t, a, b, by rw [c, ptAt_mod], d⟩, g⟩
    rcases h3 with h3 | ⟨s, hs, c, hc, hbc⟩
    · exfalso
      obtain ⟨c, -, b', hb', -⟩ := h1 0 (List.mem_range.2 (by omega))
      rw [h3] at hb'
      cases hb'
    · have hs' := List.mem_range.1 hs
      refine ⟨c.1, c.2, (pts.length - s) % pts.length, ?_, Nat.mod_lt _ (by omega),
        toLt s hs' _ _ (lineCandidate_spec hc), ?_⟩
      · rw [← h, hbc]; rfl
      · intro k hk
        obtain ⟨c', hc', b', hb', hle⟩ := h1 ((pts.length - k) % pts.length)
          (List.mem_range.2 (Nat.mod_lt _ (by omega)))
        rw [hbc] at hb'
        injection hb' with hb'
        subst hb'
        refine ⟨c'.1, c'.2, ?_, hle⟩
        have := toLt _ (Nat.mod_lt _ (by omega)) _ _ (lineCandidate_spec hc')
        rcases Nat.eq_zero_or_pos k with h0 | h0
        · subst h0
          simpa using this
        · have e1 : (pts.length - k) % pts.length = pts.length - k := Nat.mod_eq_of_lt (by omega)
          rw [e1] at this
          have e2 : (pts.length - (pts.length - k)) % pts.length = k := by
            rw [Nat.mod_eq_of_lt (by omega)]; omega
          rwa [e2] at this

/-- **C57.** The line uses every point exactly once. -/
theorem C57_permutation (e : RzEnv K) (pts : List (K × K)) (order smooth : Option ℕ) (sorted : Bool)
    (l : RZLine K) (h : lineFromPoints e pts order smooth sorted = .ok (some l)) : l.pts.Perm pts := by
  have key : ∀ t, RZLine.ofPts e t true order smooth = .ok l → l.pts.Perm t := by
    intro t ht
    rcases (C54_anticlockwise e t order smooth l ht).2 with h1 | h1
    · rw [h1]
    · rw [h1]; exact List.reverse_perm t
  cases sorted with
  | true =>
    unfold lineFromPoints at h
    rw [if_pos rfl] at h
    cases hl : RZLine.ofPts e pts true order smooth with
    | error x => rw [hl] at h; cases h
    | ok l' =>
      rw [hl] at h
      simp only [Except.map, Except.ok.injEq, Option.some.injEq] at h
      exact key pts (by rw [hl, h])
  | false =>
    rcases Nat.lt_or_ge pts.length 2 with hn | hn
    · -- no line for fewer than two points
      unfold lineFromPoints at h
      rw [if_neg (by simp)] at h
      cases hb : bestLine e pts order smooth (List.range pts.length) none with
      | error x => rw [hb] at h; cases h
      | ok b =>
        rw [hb] at h
        simp only [Except.map, Except.ok.injEq] at h
        obtain ⟨-, -, h3⟩ := bestLine_spec e pts order smooth _ _ _ hb
        rcases h3 with h3 | ⟨s, hs, c, hc, hbc⟩
        · rw [h3] at h; cases h
        · have hs' := List.mem_range.1 hs
          obtain ⟨⟨t, a, -, -, d⟩, -⟩ := lineCandidate_spec hc
          rw [hbc] at h
          simp only [Option.map_some, Option.some.injEq] at h
          rw [h] at d
          exact (key t d).trans a
    · obtain ⟨l', len, k, e1, -, ⟨⟨t, a, -, -, d⟩, -⟩, -⟩ := C57_shortest e pts order smooth _ hn h
      injection e1 with e1
      subst e1
      exact (key t d).trans a

/-- **C57.** Without points there is no line, and a single point is an `IndexError`. -/
theorem C57_small (e : RzEnv K) (order smooth : Option ℕ) (p : K × K) :
    lineFromPoints e [] order smooth false = .ok none ∧
      lineFromPoints e [p] order smooth false = .error (.index "rarr[0]") := by
  refine ⟨rfl, ?_⟩
  have h : npRoll [p] 0 = [p] := by simp [npRoll]
  simp [lineFromPoints, bestLine, lineCandidate, nnTour, h, Except.bind, Except.map]

/-- Five points: the result exists, and the theorem applies. -/
example : ((lineFromPoints exRzEnv [((0 : ℚ), (0 : ℚ)), (3, 0), (0, 2), (3, 2), (1, -1/2)] (some 1) none
    false).toOption.bind fun l => l.map RZLine.pts) = some [(0, 0), (1, -1/2), (3, 0), (3, 2), (0, 2)] := by
  decide +kernel

/-! ## C121 -/

/-- **C121**, the claim: if one of the starting points gives a line, so does `line_from_points`. -/
def LineIfAnyCandidate (e : RzEnv K) (pts : List (K × K)) (order smooth : Option ℕ) : Prop :=
  (∃ s < pts.length, (lineCandidate e pts order smooth s).toBool = true) →
    ∃ l, lineFromPoints e pts order smooth false = .ok (some l)

theorem bestLine_ok (e : RzEnv K) (pts : List (K × K)) (order smooth : Option ℕ) :
    ∀ (ss : List ℕ) (best : Option (RZLine K × K)),
      (∀ s ∈ ss, ∃ c, lineCandidate e pts order smooth s = .ok c) → ∃ r, bestLine e pts order smooth ss best = .ok r
  | [], best, _ => ⟨best, rfl⟩
  | s :: ss, best, h => by
    obtain ⟨c, hc⟩ := h s (by simp)
    rw [bestLine, hc]
    exact bestLine_ok e pts order smooth ss _ fun s hs => h s (by simp [hs])

/-- **C121** if every starting point gives a line. -/
theorem C121_all_candidates_partial (e : RzEnv K) (pts : List (K × K)) (order smooth : Option ℕ)
    (h : ∀ s < pts.length, (lineCandidate e pts order smooth s).toBool = true) : LineIfAnyCandidate e pts order smooth := by
  rintro ⟨s0, hs0, -⟩
  have hall : ∀ s ∈ List.range pts.length, ∃ c, lineCandidate e pts order smooth s = .ok c := by
    intro s hs
    have := h s (List.mem_range.1 hs)
    cases hc : lineCandidate e pts order smooth s with
    | error x => rw [hc] at this; cases this
    | ok c => exact ⟨c, rfl⟩
  obtain ⟨r, hr⟩ := bestLine_ok e pts order smooth _ none hall
  obtain ⟨h1, -, -⟩ := bestLine_spec e pts order smooth _ _ _ hr
  obtain ⟨c, -, b, hb, -⟩ := h1 s0 (List.mem_range.2 hs0)
  refine ⟨b.1, ?_⟩
  unfold lineFromPoints
  rw [if_neg (by simp), hr, hb]
  rfl

/-- **C121** is false: four of the five starting points give a line, but the tour from `(1, 0)` crosses
itself and has the area zero, which is an `AssertionError`. -/
theorem C121_fails : ∃ (e : RzEnv ℚ) (pts : List (ℚ × ℚ)), ¬ LineIfAnyCandidate e pts (some 1) none := by
  refine ⟨exRzEnv, [(0, 0), (2, 0), (0, 1), (2, 2), (1, 0)], fun h => ?_⟩
  obtain ⟨l, hl⟩ := h ⟨0, by decide, by decide +kernel⟩
  have h2 : (lineFromPoints exRzEnv [((0 : ℚ), (0 : ℚ)), (2, 0), (0, 1), (2, 2), (1, 0)] (some 1) none false).toBool =
    false := by decide +kernel
  rw [hl] at h2
  cases h2

/-! ## C58 -/

theorem polyInsert_eq {buf : List (K × K)} {i ind : ℕ} {p : K × K} (hi : i < buf.length) (hind : ind < i) :
    polyInsert buf i ind p = buf.take (ind + 1) ++ p :: (buf.take i).drop (ind + 1) ++ buf.drop (i + 1) := by
  apply List.ext_getElem
  · simp [polyInsert]; omega
  · intro j h1 h2
    have hj : j < buf.length := by simpa [polyInsert] using h1
    simp only [polyInsert, List.getElem_map, List.getElem_range]
    rcases Nat.lt_trichotomy j (ind + 1) with h | h | h
    · rw [if_neg (by omega), if_neg (by omega), List.getD_eq_getElem _ _ hj]
      rw [List.getElem_append_left (by simp; omega), List.getElem_append_left (by simp; omega), List.getElem_take]
    · subst h
      rw [if_pos rfl, List.getElem_append_left (by simp; omega), List.getElem_append_right (by simp)]
      simp [Nat.min_eq_left (by omega : ind + 1 ≤ buf.length)]
    · rw [if_neg (by omega)]
      by_cases h3 : j < i + 1
      · rw [if_pos (by omega), List.getD_eq_getElem _ _ (by omega), List.getElem_append_left (by simp; omega),
          List.getElem_append_right (by simp; omega)]
        have hm : min (ind + 1) buf.length = ind + 1 := Nat.min_eq_left (by omega)
        simp only [List.length_take, hm]
        obtain ⟨m, rfl⟩ : ∃ m, j = ind + 1 + (m + 1) := ⟨j - ind - 2, by omega⟩
        have : ind + 1 + (m + 1) - (ind + 1) = m + 1 := by omega
        simp only [this, List.getElem_cons_succ, List.getElem_drop, List.getElem_take]
        rfl
      · rw [if_neg (by omega), List.getD_eq_getElem _ _ hj, List.getElem_append_right (by simp; omega)]
        simp only [List.getElem_drop]
        congr 1
        simp
        omega

/-- The points so far are those of the input in some order, and the rest is untouched. -/
structure PolyState (pts buf : List (K × K)) (i : ℕ) : Prop where
  len : buf.length = pts.length
  perm : (buf.take i).Perm (pts.take i)
  rest : buf.drop i = pts.drop i

theorem PolyState.insert {pts buf : List (K × K)} {i ind : ℕ} (h : PolyState pts buf i) (hi : i < pts.length)
    (hind : ind < i) : PolyState pts (polyInsert buf i ind (pts.getD i (0, 0))) (i + 1) := by
  obtain ⟨h1, h2, h3⟩ := h
  have hib : i < buf.length := by omega
  have heq := polyInsert_eq (p := pts.getD i (0, 0)) hib hind
  have hlen : (buf.take (ind + 1) ++ pts.getD i (0, 0) :: (buf.take i).drop (ind + 1)).length = i + 1 := by
    simp; omega
  refine ⟨by simp [polyInsert, h1], ?_, ?_⟩
  · rw [heq, List.take_append_of_le_length (by omega), List.take_of_length_le (by omega)]
    rw [List.take_succ_eq_append_getElem hi, List.getD_eq_getElem _ _ hi]
    refine List.Perm.trans List.perm_middle ?_
    refine List.Perm.trans ?_ (List.perm_append_comm)
    have : buf.take (ind + 1) = (buf.take i).take (ind + 1) := by
      rw [List.take_take, Nat.min_eq_left (by omega)]
    rw [this, List.take_append_drop]
    exact h2.cons _
  · rw [heq]
    rw [List.drop_append_of_le_length (by omega), List.drop_of_length_le (by omega), List.nil_append]
    have := congrArg (List.drop 1) h3
    rwa [List.drop_drop, List.drop_drop] at this

theorem polyIndex_lt {pi theta : K} {i : ℕ} (hpi : 0 < pi) (h : 0 ≤ theta ∧ theta < 2 * pi) (hi : 0 < i) :
    polyIndex pi i theta < i := by
  have hi' : (0 : K) < i := by exact_mod_cast hi
  have h2 : (i : K) * theta / (2 * pi) < i := by
    rw [div_lt_iff₀ (by linarith)]
    exact mul_lt_mul_of_pos_left h.2 hi'
  have h3 : ⌊(i : K) * theta / (2 * pi)⌋ < (i : ℤ) := by
    rw [Int.floor_lt]; exact_mod_cast h2
  unfold polyIndex
  omega

/-- `closest` gives angles from 0 to `2π`. -/
def InRange (pi : K) (closest : RZLine K → K × K → Except Err K) : Prop :=
  ∀ l p t, closest l p = .ok t → 0 ≤ t ∧ t < 2 * pi

theorem polyLoop_state (e : RzEnv K) (hpi : 0 < e.pi) (closest : RZLine K → K × K → Except Err K)
    (hc : InRange e.pi closest) (pts : List (K × K)) (order : Option ℕ) :
    ∀ (m i : ℕ) (buf r : List (K × K)), 0 < i → i + m ≤ pts.length → PolyState pts buf i →
      polyLoop e closest pts order (List.range' i m) buf = .ok r → PolyState pts r (i + m)
  | 0, i, buf, r, _, _, hs, h => by
    simp only [List.range'_zero, polyLoop, Except.ok.injEq] at h
    subst h
    exact hs
  | m + 1, i, buf, r, hi, hm, hs, h => by
    rw [List.range'_succ, polyLoop] at h
    cases hst : polyStep e closest pts order buf i with
    | error x => rw [hst] at h; cases h
    | ok b =>
      rw [hst] at h
      have hb : PolyState pts b (i + 1) := by
        unfold polyStep at hst
        cases hl : RZLine.ofPts e (buf.take i) true order none with
        | error x => rw [hl] at hst; cases hst
        | ok l =>
          rw [hl] at hst
          simp only [Except.bind] at hst
          cases ht : closest l (pts.getD i (0, 0)) with
          | error x => rw [ht] at hst; cases hst
          | ok t =>
            rw [ht] at hst
            simp only [Except.ok.injEq] at hst
            subst hst
            exact hs.insert (by omega) (polyIndex_lt hpi (hc _ _ _ ht) hi)
      have := polyLoop_state e hpi closest hc pts order m (i + 1) b r (by omega) (by omega) hb h
      rwa [show i + 1 + m = i + (m + 1) by omega] at this

/-- **C58.** `line_from_points_poly` uses every point exactly once, whatever `closestPoint` says within
its range. -/
theorem C58_permutation (e : RzEnv K) (hpi : 0 < e.pi) (closest : RZLine K → K × K → Except Err K)
    (hc : InRange e.pi closest) (pts : List (K × K)) (order : Option ℕ) (l : RZLine K)
    (h : lineFromPointsPoly e closest pts order = .ok l) : l.pts.Perm pts ∧ 0 < signedArea l.pts := by
  unfold lineFromPointsPoly at h
  split_ifs at h with hn
  cases hb : polyLoop e closest pts order (pyRange 3 pts.length) pts with
  | error x => rw [hb] at h; cases h
  | ok b =>
    rw [hb] at h
    simp only [Except.bind] at h
    have hs := polyLoop_state e hpi closest hc pts order (pts.length - 3) 3 pts b (by omega) (by omega)
      ⟨rfl, List.Perm.refl _, rfl⟩ (by simpa [pyRange] using hb)
    have hp : b.Perm pts := by
      have := hs.perm
      rw [show 3 + (pts.length - 3) = pts.length by omega, List.take_length, List.take_of_length_le (by
        rw [hs.len])] at this
      exact this
    obtain ⟨h1, h2⟩ := C54_anticlockwise e b order none l h
    refine ⟨?_, h1⟩
    rcases h2 with h2 | h2
    · rw [h2]; exact hp
    · rw [h2]; exact (List.reverse_perm b).trans hp

/-- **C58.** Fewer than three points are an `AssertionError`. -/
theorem C58_small (e : RzEnv K) (closest : RZLine K → K × K → Except Err K) (pts : List (K × K)) (order : Option ℕ)
    (h : pts.length < 3) : lineFromPointsPoly e closest pts order = .error (.assertion "rarray.size >= 3") := by
  unfold lineFromPointsPoly
  rw [if_pos (by omega)]

/-- **C58** for `closestPoint` itself. -/
theorem C58_closestPoint (e : RzEnv K) (hpi : 0 < e.pi) (pts : List (K × K)) (order : Option ℕ) (niter subdivide : ℕ)
    (l : RZLine K)
    (h : lineFromPointsPoly e (fun l p => l.closestPoint e.pi p niter subdivide) pts order = .ok l) :
    l.pts.Perm pts ∧ 0 < signedArea l.pts :=
  C58_permutation e hpi _ (fun l p t ht => C61_range l e.pi hpi p niter subdivide t ht) pts order l h

/-- Five points, with the middle of the first edge as the answer. -/
example : ((lineFromPointsPoly exRzEnv (fun _ _ => .ok (1 / 2)) [((0 : ℚ), (0 : ℚ)), (2, 0), (1, 3), (1, -1), (1/2, -1)]
    (some 1)).toOption.map RZLine.pts) = some [(0, 0), (1/2, -1), (1, -1), (2, 0), (1, 3)] := by decide +kernel

/-! ## C122 -/

/-- `p` is between `a` and `b` on the closed line. -/
def Between (l : List (K × K)) (a p b : K × K) : Prop :=
  ∃ m < l.length, ptAt l (m + 1) = p ∧ (ptAt l m = a ∧ ptAt l (m + 2) = b ∨ ptAt l m = b ∧ ptAt l (m + 2) = a)

/-- **C122**, the claim: `line_from_points_poly` puts a point between the two ends of the edge to which
the angle belongs that `closestPoint` returned. -/
def InsertsOnEdge (e : RzEnv K) (closest : RZLine K → K × K → Except Err K) (pts : List (K × K)) (order : Option ℕ)
    (buf : List (K × K)) (i : ℕ) : Prop :=
  ∀ line theta buf', RZLine.ofPts e (buf.take i) true order none = .ok line →
    closest line (pts.getD i (0, 0)) = .ok theta → polyStep e closest pts order buf i = .ok buf' →
    let k := ⌊theta / (2 * e.pi / (line.pts.length : K))⌋.toNat
    Between (buf'.take (i + 1)) (ptAt line.pts k) (pts.getD i (0, 0)) (ptAt line.pts (k + 1))

/-- **C122** if the points so far are anticlockwise. -/
theorem C122_anticlockwise_partial (e : RzEnv K) (hpi : 0 < e.pi) (closest : RZLine K → K × K → Except Err K)
    (hc : InRange e.pi closest) (pts : List (K × K)) (order : Option ℕ) (buf : List (K × K)) (i : ℕ) (h0 : 0 < i)
    (hi : i < buf.length) (ha : 0 < signedArea (buf.take i)) : InsertsOnEdge e closest pts order buf i := by
  intro line theta buf' hl ht hst
  have hlp : line.pts = buf.take i := by
    obtain ⟨h1, h2⟩ := C54_anticlockwise e _ _ _ _ hl
    rcases h2 with h2 | h2
    · exact h2
    · rw [h2, signedArea_reverse] at h1
      linarith
  unfold polyStep at hst
  rw [hl] at hst
  simp only [Except.bind] at hst
  rw [ht] at hst
  simp only [Except.ok.injEq] at hst
  have hlen : line.pts.length = i := by rw [hlp, List.length_take, Nat.min_eq_left (by omega)]
  have hi' : (i : K) ≠ 0 := by exact_mod_cast h0.ne'
  have hk : ⌊theta / (2 * e.pi / (line.pts.length : K))⌋.toNat = polyIndex e.pi i theta := by
    unfold polyIndex
    rw [hlen]
    congr 2
    field_simp
  dsimp only
  rw [hk, ← hst]
  have hlt := polyIndex_lt hpi (hc _ _ _ ht) h0
  set k := polyIndex e.pi i theta
  set p := pts.getD i (0, 0)
  have heq := polyInsert_eq (p := p) hi hlt
  have htake : (polyInsert buf i k p).take (i + 1) = buf.take (k + 1) ++ p :: (buf.take i).drop (k + 1) := by
    rw [heq, List.take_append_of_le_length (by simp; omega), List.take_of_length_le (by simp; omega)]
  have hL : (buf.take (k + 1) ++ p :: (buf.take i).drop (k + 1)).length = i + 1 := by simp; omega
  have hm : min (k + 1) buf.length = k + 1 := Nat.min_eq_left (by omega)
  rw [htake]
  refine ⟨k, by omega, ?_, Or.inl ⟨?_, ?_⟩⟩
  · unfold ptAt
    rw [hL, Nat.mod_eq_of_lt (by omega), List.getD_append_right _ _ _ _ (by simp)]
    simp [hm]
  · unfold ptAt
    rw [hL, hlen, hlp, Nat.mod_eq_of_lt (by omega), Nat.mod_eq_of_lt (by omega), List.getD_append _ _ _ _ (by simp; omega),
      List.getD_eq_getElem _ _ (by simp; omega), List.getD_eq_getElem _ _ (by simp; omega)]
    simp
  · unfold ptAt
    rw [hL, hlen, hlp]
    rcases Nat.lt_or_ge (k + 1) i with h | h
    · rw [Nat.mod_eq_of_lt (by omega), Nat.mod_eq_of_lt (by omega), List.getD_append_right _ _ _ _ (by simp)]
      rw [List.length_take, hm, show k + 2 - (k + 1) = 0 + 1 by omega, List.getD_cons_succ,
        List.getD_eq_getElem _ _ (by simp; omega), List.getD_eq_getElem _ _ (by simp; omega)]
      simp
    · have hki : k + 1 = i := by omega
      rw [show k + 2 = i + 1 by omega, hki, Nat.mod_self, Nat.mod_self, List.getD_append _ _ _ _ (by simp; omega)]

/-- The first three points are clockwise. -/
def exClockwise : List (ℚ × ℚ) := [(0, 0), (0, 1), (1, 0), (1, 1)]

/-- **C122** is false if they are clockwise: the line runs the other way than the arrays.  The angle 1 is
the middle of the edge from `(1, 0)` to `(0, 1)`, but the point `(1, 1)` is put between `(0, 0)` and
`(0, 1)`. -/
theorem C122_fails : ∃ (e : RzEnv ℚ) (closest : RZLine ℚ → ℚ × ℚ → Except Err ℚ), InRange e.pi closest ∧ 0 < e.pi ∧
    ¬ InsertsOnEdge e closest exClockwise (some 1) exClockwise 3 := by
  refine ⟨exRzEnv, fun _ _ => .ok 1, ?_, by decide, fun h => ?_⟩
  · intro l p t ht
    injection ht with ht
    subst ht
    decide +kernel
  · have h1 : (RZLine.ofPts exRzEnv (exClockwise.take 3) true (some 1) none).toOption.map RZLine.pts =
        some [(1, 0), (0, 1), (0, 0)] := by decide +kernel
    have h2 : (polyStep exRzEnv (fun _ _ => .ok 1) exClockwise (some 1) exClockwise 3).toOption =
        some [(0, 0), (1, 1), (0, 1), (1, 0)] := by decide +kernel
    cases hl : RZLine.ofPts exRzEnv (exClockwise.take 3) true (some 1) none with
    | error x => rw [hl] at h1; cases h1
    | ok l =>
      rw [hl] at h1
      have hp : l.pts = [(1, 0), (0, 1), (0, 0)] := by
        simpa [Except.toOption] using h1
      cases hs : polyStep exRzEnv (fun _ _ => .ok 1) exClockwise (some 1) exClockwise 3 with
      | error x => rw [hs] at h2; cases h2
      | ok b =>
        rw [hs] at h2
        have hb : b = [(0, 0), (1, 1), (0, 1), (1, 0)] := by simpa [Except.toOption] using h2
        obtain ⟨m, hm, h3⟩ := h l 1 b hl rfl hs
        rw [hp, hb] at h3
        rw [hb] at hm
        have h4 : ∀ m < 4, ¬ (ptAt ([(0, 0), (1, 1), (0, 1), (1, 0)] : List (ℚ × ℚ)) (m + 1) = (1, 1) ∧
            (ptAt ([(0, 0), (1, 1), (0, 1), (1, 0)] : List (ℚ × ℚ)) m = (1, 0) ∧
              ptAt ([(0, 0), (1, 1), (0, 1), (1, 0)] : List (ℚ × ℚ)) (m + 2) = (0, 1) ∨
            ptAt ([(0, 0), (1, 1), (0, 1), (1, 0)] : List (ℚ × ℚ)) m = (0, 1) ∧
              ptAt ([(0, 0), (1, 1), (0, 1), (1, 0)] : List (ℚ × ℚ)) (m + 2) = (1, 0))) := by decide +kernel
        have hk : ⌊(1 : ℚ) / (2 * exRzEnv.pi / (([(1, 0), (0, 1), (0, 0)] : List (ℚ × ℚ)).length : ℚ))⌋.toNat = 0 := by
          decide +kernel
        rw [hk] at h3
        exact h4 m (by simpa using hm) h3

/-- The square is then an `AssertionError`, and in another order it is not. -/
example : lineFromPointsPoly exRzEnv (fun _ _ => .ok 1) exClockwise (some 1) = .error (.assertion "A != 0") ∧
    ((lineFromPointsPoly exRzEnv (fun _ _ => .ok 3) [((0 : ℚ), (0 : ℚ)), (1, 0), (0, 1), (1, 1)] (some 1)).toOption.map
      RZLine.pts) = some [(0, 0), (1, 0), (1, 1), (0, 1)] := by
  constructor
  · have h2 : (polyLoop exRzEnv (fun _ _ => .ok 1) exClockwise (some 1) [3] exClockwise).toOption =
        some [(0, 0), (1, 1), (0, 1), (1, 0)] := by decide +kernel
    cases hs : polyLoop exRzEnv (fun _ _ => .ok 1) exClockwise (some 1) [3] exClockwise with
    | error x => rw [hs] at h2; cases h2
    | ok b =>
      rw [hs] at h2
      have hb : b = [(0, 0), (1, 1), (0, 1), (1, 0)] := by simpa [Except.toOption] using h2
      unfold lineFromPointsPoly
      rw [if_neg (by decide), show pyRange 3 exClockwise.length = [3] from rfl, hs]
      simp only [Except.bind]
      rw [hb]
      apply C54_zero
      norm_num [signedArea, Finset.sum_range_succ]
  · decide +kernel

/-! ## C59 -/

/-- What `np.argsort` does: the indices in an order in which the values do not decrease. -/
def IsArgsort (argsort : List K → List ℕ) : Prop :=
  ∀ v : List K, (argsort v).Perm (List.range v.length) ∧ ((argsort v).map fun i => v.getD i 0).Pairwise (· ≤ ·)

theorem takePts_perm {pts : List (K × K)} {ind : List ℕ} (h : ind.Perm (List.range pts.length)) :
    (takePts pts ind).Perm pts := by
  have h1 : (takePts pts ind).Perm (takePts pts (List.range pts.length)) := h.map _
  have h2 : takePts pts (List.range pts.length) = pts := by
    apply List.ext_getElem
    · simp [takePts]
    · intro i h3 h4
      simp [takePts, List.getElem?_eq_getElem h4]
  rwa [h2] at h1

theorem takePts_sorted {pts : List (K × K)} {f : K × K → K} {argsort : List K → List ℕ} (h : IsArgsort argsort) :
    ((takePts pts (argsort (pts.map f))).map f).Pairwise (· ≤ ·) := by
  obtain ⟨hp, hs⟩ := h (pts.map f)
  have : (takePts pts (argsort (pts.map f))).map f = (argsort (pts.map f)).map fun i => (pts.map f).getD i 0 := by
    unfold takePts
    rw [List.map_map]
    apply List.map_congr_left
    intro i hi
    have hlt : i < pts.length := by simpa using hp.subset hi
    simp [List.getElem?_eq_getElem hlt]
  rw [this]
  exact hs

/-- The mean of the points. -/
def meanPt (pts : List (K × K)) : K × K :=
  ((pts.map Prod.fst).sum / (pts.length : K), (pts.map Prod.snd).sum / (pts.length : K))

/-- The control points are those of the input, and the values of `f` increase or decrease along them. -/
def SortedBy (l pts : List (K × K)) (f : K × K → K) : Prop :=
  l.Perm pts ∧ ((l.map f).Pairwise (· ≤ ·) ∨ (l.reverse.map f).Pairwise (· ≤ ·))

theorem sorted_line {e : RzEnv K} {pts : List (K × K)} {f : K × K → K} {argsort : List K → List ℕ}
    (h : IsArgsort argsort) {order smooth : Option ℕ} {l : RZLine K}
    (hl : RZLine.ofPts e (takePts pts (argsort (pts.map f))) true order smooth = .ok l) :
    SortedBy l.pts pts f ∧ 0 < signedArea l.pts := by
  have hp : (takePts pts (argsort (pts.map f))).Perm pts := takePts_perm (by simpa using (h (pts.map f)).1)
  have hs := takePts_sorted (pts := pts) (f := f) h
  obtain ⟨h1, h2⟩ := C54_anticlockwise e _ _ _ _ hl
  refine ⟨?_, h1⟩
  rcases h2 with h2 | h2
  · rw [h2]; exact ⟨hp, Or.inl hs⟩
  · rw [h2]
    refine ⟨(List.reverse_perm _).trans hp, Or.inr ?_⟩
    rw [List.reverse_reverse]
    exact hs

/-- **C59.** `line_from_points_fast` uses every point once, in the order of the angle about the mean, and
is anticlockwise. -/
theorem C59_angle (e : RzEnv K) (atan2 : K → K → K) (argsort : List K → List ℕ) (ha : IsArgsort argsort)
    (pts : List (K × K)) (order smooth : Option ℕ) (l : RZLine K)
    (h : lineFromPointsFast e atan2 argsort pts order smooth = .ok l) :
    SortedBy l.pts pts (fun p => atan2 (p.1 - (meanPt pts).1) (p.2 - (meanPt pts).2)) ∧ 0 < signedArea l.pts := by
  unfold lineFromPointsFast at h
  exact sorted_line (f := fun p => atan2 (p.1 - (meanPt pts).1) (p.2 - (meanPt pts).2)) ha h

/-- **C59.** The lines from the convex hull and from the alpha shape use every point once, in the order of
the position along the boundary. -/
theorem C59_hull (e : RzEnv K) (project : List (K × K) → K × K → K) (argsort : List K → List ℕ)
    (ha : IsArgsort argsort) (pts : List (K × K)) (l : RZLine K)
    (h : lineFromPointsHull e project argsort pts = .ok l) :
    SortedBy l.pts pts (project pts) ∧ 0 < signedArea l.pts := by
  unfold lineFromPointsHull at h
  exact sorted_line ha h

/-- There is such a sort. -/
theorem isArgsort_exists : ∃ argsort : List K → List ℕ, IsArgsort argsort := by
  refine ⟨fun v => (List.range v.length).mergeSort fun i j => decide (v.getD i 0 ≤ v.getD j 0), fun v => ⟨?_, ?_⟩⟩
  · exact List.mergeSort_perm _ _
  · rw [List.pairwise_map]
    have := List.pairwise_mergeSort (le := fun i j => decide (v.getD i 0 ≤ v.getD j 0))
      (fun a b c hab hbc => by simp only [decide_eq_true_eq] at *; exact hab.trans hbc)
      (fun a b => by simp only [Bool.or_eq_true, decide_eq_true_eq]; exact le_total _ _) (List.range v.length)
    exact this.imp fun h => by simpa using h

end Zoidberg
