import Verif.Props.LineFromPoints
import Mathlib.Data.List.Permutation

/-!
# C60: the 2-opt algorithm
-/

set_option linter.unusedSectionVars false

namespace Zoidberg

variable {K : Type} [Field K] [LinearOrder K] [IsStrictOrderedRing K] [FloorRing K]

theorem twoOptSwap_perm {r : List ℕ} {i k : ℕ} (h : i ≤ k + 1) : (twoOptSwap r i k).Perm r := by
  unfold twoOptSwap
  have h1 : r.take i = (r.take (k + 1)).take i := by rw [List.take_take, Nat.min_eq_left h]
  have h2 : (r.take i ++ ((r.take (k + 1)).drop i).reverse).Perm (r.take (k + 1)) := by
    rw [h1]
    refine ((List.reverse_perm _).append_left _).trans ?_
    rw [List.take_append_drop]
  have h3 := h2.append_right (r.drop (k + 1))
  rwa [List.take_append_drop] at h3

theorem twoOptSwap_head {r : List ℕ} {i k : ℕ} (hi : 1 ≤ i) (hr : r ≠ []) : (twoOptSwap r i k).head? = r.head? := by
  unfold twoOptSwap
  cases r with
  | nil => exact absurd rfl hr
  | cons a r =>
    cases i with
    | zero => omega
    | succ i => simp

/-- What holds in every state of the algorithm: the route visits every city once and begins with the
first one, its length is the one that is kept, and it is not above `d`. -/
structure Route (sqrt : K → K) (c : List (K × K)) (d : K) (s : List ℕ × K) : Prop where
  perm : s.1.Perm (List.range c.length)
  head : s.1.head? = (List.range c.length).head?
  dist : s.2 = pathDist sqrt c s.1
  le : s.2 ≤ d

theorem Route.mono {sqrt : K → K} {c : List (K × K)} {d d' : K} {s : List ℕ × K} (h : Route sqrt c d s) (hd : d ≤ d') :
    Route sqrt c d' s := ⟨h.perm, h.head, h.dist, h.le.trans hd⟩

theorem Route.self {sqrt : K → K} {c : List (K × K)} {d : K} {s : List ℕ × K} (h : Route sqrt c d s) :
    Route sqrt c s.2 s := ⟨h.perm, h.head, h.dist, le_rfl⟩

/-- One state is the other one or better. -/
def Better (s s' : List ℕ × K) : Prop := s' = s ∨ s'.2 < s.2

theorem Better.trans {a b c : List ℕ × K} (h1 : Better a b) (h2 : Better b c) : Better a c := by
  rcases h1 with h1 | h1
  · rw [← h1]; exact h2
  · rcases h2 with h2 | h2
    · rw [h2]; exact Or.inr h1
    · exact Or.inr (h2.trans h1)

theorem twoOptTry_route {sqrt : K → K} {c : List (K × K)} {d : K} {s : List ℕ × K} {i k : ℕ} (h : Route sqrt c d s)
    (hi : 1 ≤ i) (hk : i ≤ k + 1) : Route sqrt c d (twoOptTry sqrt c i s k) ∧ Better s (twoOptTry sqrt c i s k) := by
  unfold twoOptTry
  dsimp only
  split_ifs with hlt
  · refine ⟨⟨(twoOptSwap_perm hk).trans h.perm, ?_, rfl, hlt.le.trans h.le⟩, Or.inr hlt⟩
    dsimp only
    rcases eq_or_ne s.1 [] with h0 | h0
    · have hp : (twoOptSwap s.1 i k) = [] := by
        have := (twoOptSwap_perm (r := s.1) hk).length_eq
        rw [h0] at this
        rw [h0]
        exact List.length_eq_zero_iff.1 this
      rw [hp, ← h.head, h0]
    · rw [twoOptSwap_head hi h0, h.head]
  · exact ⟨h, Or.inl rfl⟩

theorem fold_route {α : Type} {sqrt : K → K} {c : List (K × K)} {d : K} (f : List ℕ × K → α → List ℕ × K) :
    ∀ (l : List α), (∀ s a, a ∈ l → Route sqrt c d s → Route sqrt c d (f s a) ∧ Better s (f s a)) →
      ∀ s, Route sqrt c d s → Route sqrt c d (l.foldl f s) ∧ Better s (l.foldl f s)
  | [], _, s, h => ⟨h, Or.inl rfl⟩
  | a :: l, hf, s, h => by
    obtain ⟨h1, h2⟩ := hf s a (by simp) h
    obtain ⟨h3, h4⟩ := fold_route f l (fun s b hb => hf s b (by simp [hb])) _ h1
    exact ⟨h3, h2.trans h4⟩

theorem twoOptInner_route {sqrt : K → K} {c : List (K × K)} {d : K} {s : List ℕ × K} {i : ℕ} (h : Route sqrt c d s)
    (hi : 1 ≤ i) : Route sqrt c d (twoOptInner sqrt c s i) ∧ Better s (twoOptInner sqrt c s i) := by
  unfold twoOptInner
  refine fold_route _ _ (fun s k hk hs => twoOptTry_route hs hi ?_) _ h
  simp only [pyRange, List.mem_range'_1] at hk
  omega

theorem twoOptPass_route {sqrt : K → K} {c : List (K × K)} {d : K} {s : List ℕ × K} (h : Route sqrt c d s) :
    Route sqrt c d (twoOptPass sqrt c s) ∧ Better s (twoOptPass sqrt c s) := by
  unfold twoOptPass
  refine fold_route _ _ (fun s k hk hs => twoOptInner_route hs ?_) _ h
  simp only [pyRange, List.mem_range'_1] at hk
  omega

theorem twoOptLoop_route {sqrt : K → K} {c : List (K × K)} {thr d : K} :
    ∀ (fuel : ℕ) (factor : K) (s : List ℕ × K) (r : List ℕ), Route sqrt c d s →
      twoOptLoop sqrt c thr fuel factor s = .ok r → ∃ s', s'.1 = r ∧ Route sqrt c d s'
  | 0, _, _, _, _, h => by cases h
  | fuel + 1, factor, s, r, hs, h => by
    rw [twoOptLoop] at h
    have h1 := (twoOptPass_route hs).1
    dsimp only at h
    split_ifs at h
    · exact twoOptLoop_route fuel _ _ r h1 h
    · injection h with h; exact ⟨_, h, h1⟩
    · exact twoOptLoop_route fuel _ _ r h1 h
    · injection h with h; exact ⟨s, h, hs⟩

theorem route_start (sqrt : K → K) (c : List (K × K)) :
    Route sqrt c (pathDist sqrt c (List.range c.length)) (List.range c.length, pathDist sqrt c (List.range c.length)) :=
  ⟨List.Perm.refl _, rfl, rfl, le_rfl⟩

/-- **C60.** The route visits every city once, begins with the first one, and is not longer than the
original one. -/
theorem C60_route (sqrt : K → K) (c : List (K × K)) (thr : K) (fuel : ℕ) (r : List ℕ)
    (h : twoOpt sqrt c thr fuel = .ok r) :
    r.Perm (List.range c.length) ∧ r.head? = (List.range c.length).head? ∧
      pathDist sqrt c r ≤ pathDist sqrt c (List.range c.length) := by
  obtain ⟨s, hs, h1⟩ := twoOptLoop_route fuel 1 _ r (route_start sqrt c) h
  subst hs
  exact ⟨h1.perm, h1.head, by rw [← h1.dist]; exact h1.le⟩

/-- The lengths of all routes. -/
def allDists (sqrt : K → K) (c : List (K × K)) : Finset K :=
  ((List.range c.length).permutations.map (pathDist sqrt c)).toFinset

/-- How many lengths are below the given one. -/
def below (sqrt : K → K) (c : List (K × K)) (d : K) : ℕ := ((allDists sqrt c).filter (· < d)).card

theorem below_lt {sqrt : K → K} {c : List (K × K)} {d d' : K} (h : d' < d) (hm : d' ∈ allDists sqrt c) :
    below sqrt c d' < below sqrt c d := by
  unfold below
  apply Finset.card_lt_card
  rw [Finset.ssubset_iff_of_subset]
  · exact ⟨d', by simp [hm, h], by simp⟩
  · intro x hx
    rw [Finset.mem_filter] at hx ⊢
    exact ⟨hx.1, hx.2.trans h⟩

theorem below_le (sqrt : K → K) (c : List (K × K)) (d : K) : below sqrt c d ≤ c.length.factorial := by
  unfold below
  refine (Finset.card_filter_le _ _).trans ?_
  unfold allDists
  refine (List.toFinset_card_le _).trans ?_
  rw [List.length_map, List.length_permutations, List.length_range]

theorem twoOptLoop_ok {sqrt : K → K} {c : List (K × K)} {thr d : K} (hthr : 0 ≤ thr) (hc : 4 ≤ c.length) :
    ∀ (m fuel : ℕ) (factor : K) (s : List ℕ × K), Route sqrt c d s → below sqrt c s.2 ≤ m → m + 2 ≤ fuel →
      ∃ r, twoOptLoop sqrt c thr fuel factor s = .ok r
  | m, 0, _, _, _, _, h => by omega
  | m, fuel + 1, factor, s, hs, hm, hf => by
    rw [twoOptLoop]
    dsimp only
    split_ifs with h1 h2 h3
    · have := hs.perm.length_eq
      simp at this
      omega
    · exact ⟨_, rfl⟩
    · obtain ⟨h4, h5⟩ := twoOptPass_route hs
      rcases h5 with h5 | h5
      · obtain ⟨f', rfl⟩ : ∃ f', fuel = f' + 1 := ⟨fuel - 1, by omega⟩
        rw [h5, twoOptLoop, if_neg]
        · exact ⟨_, rfl⟩
        · rw [div_self h3, sub_self]; exact not_lt.2 hthr
      · have hmem : (twoOptPass sqrt c s).2 ∈ allDists sqrt c := by
          rw [h4.dist]
          unfold allDists
          rw [List.mem_toFinset, List.mem_map]
          exact ⟨_, List.mem_permutations.2 h4.perm, rfl⟩
        have := below_lt h5 hmem
        cases m with
        | zero => omega
        | succ m => exact twoOptLoop_ok hthr hc m fuel _ _ h4 (by omega) (by omega)
    · exact ⟨_, rfl⟩

/-- **C60.** With four or more cities the algorithm ends for every threshold that is not negative, after
at most `n! + 2` passes. -/
theorem C60_terminates (sqrt : K → K) (c : List (K × K)) (thr : K) (hthr : 0 ≤ thr) (hc : 4 ≤ c.length) (fuel : ℕ)
    (hf : c.length.factorial + 2 ≤ fuel) : ∃ r, twoOpt sqrt c thr fuel = .ok r :=
  twoOptLoop_ok hthr hc c.length.factorial fuel 1 _ (route_start sqrt c) (below_le sqrt c _) hf

/-- **C60.** With three or fewer cities it never ends, if the threshold is below one. -/
theorem C60_three_cities (sqrt : K → K) (c : List (K × K)) (thr : K) (hthr : thr < 1) (hc : c.length ≤ 3) (fuel : ℕ) :
    twoOpt sqrt c thr fuel = .error (.runtime "does not terminate") := by
  unfold twoOpt
  generalize pathDist sqrt c (List.range c.length) = d
  have hp : twoOptPass sqrt c (List.range c.length, d) = (List.range c.length, d) := by
    unfold twoOptPass
    have : c.length - 2 - 1 = 0 := by omega
    simp [pyRange, this]
  induction fuel with
  | zero => rfl
  | succ fuel ih =>
    rw [twoOptLoop, if_pos hthr]
    dsimp only
    rw [if_pos (by simpa using hc), hp]
    exact ih

/-- **C60.** A negative threshold never ends either, unless all cities are at one place. -/
theorem C60_negative (sqrt : K → K) (hsqrt : ∀ x, 0 ≤ sqrt x) (c : List (K × K)) (thr : K) (hthr : thr < 0)
    (hc : 4 ≤ c.length) (hpos : ∀ r : List ℕ, r.Perm (List.range c.length) → pathDist sqrt c r ≠ 0) (fuel : ℕ) :
    twoOpt sqrt c thr fuel = .error (.runtime "does not terminate") := by
  have key : ∀ (fuel : ℕ) (factor : K) (s : List ℕ × K) (d : K), 0 ≤ factor → Route sqrt c d s →
      twoOptLoop sqrt c thr fuel factor s = .error (.runtime "does not terminate") := by
    intro fuel
    induction fuel with
    | zero => intros; rfl
    | succ fuel ih =>
      intro factor s d hf hs
      have hne : s.2 ≠ 0 := by rw [hs.dist]; exact hpos _ hs.perm
      have hlen : s.1.length = c.length := by simpa using hs.perm.length_eq
      rw [twoOptLoop, if_pos (hthr.trans_le hf)]
      dsimp only
      rw [if_neg (by omega), if_neg hne]
      obtain ⟨h4, -⟩ := twoOptPass_route hs.self
      refine ih _ _ _ ?_ h4
      have h0 : 0 < s.2 := by
        refine lt_of_le_of_ne ?_ (Ne.symm hne)
        rw [hs.dist]
        unfold pathDist
        apply List.sum_nonneg
        intro x hx
        obtain ⟨p, -, rfl⟩ := List.mem_map.1 hx
        exact hsqrt _
      have : (twoOptPass sqrt c s).2 / s.2 ≤ 1 := (div_le_one h0).2 h4.le
      linarith
  exact key fuel 1 _ _ zero_le_one (route_start sqrt c)

/-- **C60.** The line of `line_from_points_two_opt` uses every point once. -/
theorem C60_line (e : RzEnv K) (atan2 : K → K → K) (argsort : List K → List ℕ) (ha : IsArgsort argsort) (thr : K)
    (fuel : ℕ) (pts : List (K × K)) (order smooth : Option ℕ) (l : RZLine K)
    (h : lineFromPointsTwoOpt e atan2 argsort thr fuel pts order smooth = .ok l) :
    l.pts.Perm pts ∧ 0 < signedArea l.pts := by
  unfold lineFromPointsTwoOpt at h
  cases hf : lineFromPointsFast e atan2 argsort pts order smooth with
  | error x => rw [hf] at h; cases h
  | ok ln =>
    rw [hf] at h
    simp only [Except.bind] at h
    cases hr : twoOpt e.sqrt ln.pts thr fuel with
    | error x => rw [hr] at h; cases h
    | ok r =>
      rw [hr] at h
      simp only at h
      have h1 := (C59_angle e atan2 argsort ha pts order smooth ln hf).1.1
      have h2 := takePts_perm (C60_route _ _ _ _ _ hr).1
      obtain ⟨h3, h4⟩ := C54_anticlockwise e _ _ _ _ h
      refine ⟨?_, h3⟩
      rcases h4 with h4 | h4
      · rw [h4]; exact h2.trans h1
      · rw [h4]; exact (List.reverse_perm _).trans (h2.trans h1)

/-- **C60.** A triangle is never made into a line by `line_from_points_two_opt`. -/
theorem C60_triangle (e : RzEnv K) (atan2 : K → K → K) (argsort : List K → List ℕ) (ha : IsArgsort argsort) (thr : K)
    (hthr : thr < 1) (fuel : ℕ) (pts : List (K × K)) (hn : pts.length = 3) (order smooth : Option ℕ) (l : RZLine K) :
    lineFromPointsTwoOpt e atan2 argsort thr fuel pts order smooth ≠ .ok l := by
  intro h
  unfold lineFromPointsTwoOpt at h
  cases hf : lineFromPointsFast e atan2 argsort pts order smooth with
  | error x => rw [hf] at h; cases h
  | ok ln =>
    rw [hf] at h
    have hl : ln.pts.length = pts.length := (C59_angle e atan2 argsort ha pts order smooth ln hf).1.1.length_eq
    simp only [Except.bind] at h
    rw [C60_three_cities _ _ _ hthr (by omega)] at h
    cases h

/-- A crossed route through four cities is uncrossed. -/
example : (twoOpt (fun x : ℚ => x) [(0, 0), (1, 1), (0, 1), (1, 0)] (1 / 1000) 26).toOption = some [0, 2, 1, 3] := by
  decide +kernel

end Zoidberg
