import Verif.Props.ReversibleLip

set_option linter.unusedSectionVars false

/-!
# C243: forth and back with `FieldTracerReversible`, for all Lipschitz fields
-/

namespace Zoidberg

variable {K : Type} [Field K] [LinearOrder K] [IsStrictOrderedRing K]

/-- The trapezoidal relation up to `e`, for all points of a row. -/
def StepNear (f : K × K → K → K × K) (e h y : K) (p p' : List (K × K)) : Prop :=
  p'.length = p.length ∧ ∀ i < p.length, NearTrap f e y h (p.getD i (0, 0)) (p'.getD i (0, 0))

/-- `n` steps that satisfy the relation up to `e`. -/
def StepsNear (f : K × K → K → K × K) (e h : K) : ℕ → K → List (K × K) → List (K × K) → Prop
  | 0, _, p, p' => p = p'
  | n + 1, y, p, p' => ∃ r, StepNear f e h y p r ∧ StepsNear f e h n (y + h) r p'

theorem StepsNear.length {f : K × K → K → K × K} {e h : K} : ∀ (n : ℕ) (y : K) (p p' : List (K × K)), StepsNear f e h n y p p' → p'.length = p.length
  | 0, _, p, p', hs => by rw [show p = p' from hs]
  | n + 1, y, p, p', ⟨r, h1, h2⟩ => (StepsNear.length n _ _ _ h2).trans h1.1

theorem StepsNear.last {f : K × K → K → K × K} {e h : K} : ∀ (n : ℕ) (y : K) (p p' : List (K × K)), StepsNear f e h (n + 1) y p p' →
    ∃ r, StepsNear f e h n y p r ∧ StepNear f e h (y + (n : K) * h) r p'
  | 0, y, p, p', ⟨r, h1, h2⟩ => ⟨p, rfl, by rw [show r = p' from h2] at h1; simpa using h1⟩
  | n + 1, y, p, p', ⟨r, h1, h2⟩ => by
    obtain ⟨s, hs1, hs2⟩ := StepsNear.last n (y + h) r p' h2
    refine ⟨s, ⟨r, h1, hs1⟩, ?_⟩
    have : y + ((n + 1 : ℕ) : K) * h = y + h + (n : K) * h := by push_cast; ring
    rw [this]
    exact hs2

/-- `n` steps back. -/
theorem StepsNear.back {f : K × K → K → K × K} {L : K} (hf : Lip f L) {h k δ : K} (hk : |h| * L / 2 ≤ k) (hk1 : k < 1) : ∀ (n : ℕ) (y : K)
    (p p' b b' : List (K × K)) (s : K), StepsNear f (3 * k * δ) h n y p p' → StepsNear f (3 * k * δ) (-h) n (y + (n : K) * h) b b' → b.length = p'.length →
    (∀ i < p'.length, Near (3 * δ * (s - 1)) (b.getD i (0, 0)) (p'.getD i (0, 0))) →
    ∀ i < p.length, Near (3 * δ * (s * ((1 + k) / (1 - k)) ^ n - 1)) (b'.getD i (0, 0)) (p.getD i (0, 0))
  | 0, y, p, p', b, b', s, h1, h2, hl, hn => by
    intro i hi
    rw [show p = p' from h1] at hi ⊢
    rw [← show b = b' from h2, pow_zero, mul_one]
    exact hn i hi
  | n + 1, y, p, p', b, b', s, ⟨r, h1, h1'⟩, h2, hl, hn => by
    obtain ⟨c, hc1, hc2⟩ := StepsNear.last n _ _ _ h2
    have e1 : y + ((n + 1 : ℕ) : K) * h = y + h + (n : K) * h := by push_cast; ring
    have e2 : y + ((n + 1 : ℕ) : K) * h + (n : K) * (-h) = y + h := by push_cast; ring
    rw [e1] at hc1
    rw [e2] at hc2
    have ih := StepsNear.back hf hk hk1 n (y + h) r p' b c s h1' hc1 hl hn
    intro i hi
    have hcl : c.length = p.length := by
      rw [StepsNear.length n _ _ _ hc1, hl, StepsNear.length n _ _ _ h1', h1.1]
    have t1 := hc2.2 i (by rw [hcl]; exact hi)
    have t2 := (h1.2 i hi).symm
    have := t1.stable hf (by rwa [abs_neg]) hk1 t2 (ih i (by rw [h1.1]; exact hi))
    refine this.mono (le_of_eq ?_)
    have h0 : (1 - k) ≠ 0 := by linarith
    rw [pow_succ]
    generalize ((1 + k) / (1 - k)) ^ n = R
    field_simp
    ring

theorem revSteps_near {f : K × K → K → K × K} {L : K} (hf : Lip f L) {dir : List (K × K) → K → Except Err (List (K × K))} (hdir : Pointwise dir f)
    {rtol eps h k δ : K} (he : eps ≠ 0) (hk : |h| * L / 2 ≤ k) (hδ : 0 ≤ δ) (hr : rtol ≤ δ ^ 2) {fuel : ℕ} : ∀ (n : ℕ) (p : List (K × K)) (y : K)
    (s : List (K × K) × K), revSteps (revStep false revGood dir rtol eps fuel h) h n p y = .ok s →
    s.2 = y + (n : K) * h ∧ StepsNear f (3 * k * δ) h n y p s.1
  | 0, p, y, s, hs => by
    rw [revSteps, Except.ok.injEq] at hs
    subst hs
    exact ⟨by simp, rfl⟩
  | n + 1, p, y, s, hs => by
    rw [revSteps] at hs
    cases h1 : revStep false revGood dir rtol eps fuel h p y with
    | error x => rw [h1] at hs; cases hs
    | ok r =>
      rw [h1] at hs
      obtain ⟨e, h2⟩ := revSteps_near hf hdir he hk hδ hr n r (y + h) s hs
      refine ⟨?_, r, revStep_near hf hdir he hk hδ hr h1, h2⟩
      rw [e]
      push_cast
      ring

/-- The rows of a trace, each of them after `N` steps from the one before. -/
def RowsNear (f : K × K → K → K × K) (e : K) (N : ℕ) (L : List K) (R : List (List (K × K))) : Prop :=
  R.length = L.length ∧ ∀ j, j + 1 < L.length →
    StepsNear f e ((L.getD (j + 1) 0 - L.getD j 0) / (N : K)) N (L.getD j 0) (R.getD j []) (R.getD (j + 1) [])

theorem revRows_near {f : K × K → K → K × K} {L : K} (hf : Lip f L) {dir : List (K × K) → K → Except Err (List (K × K))} (hdir : Pointwise dir f)
    {rtol eps k δ : K} (he : eps ≠ 0) (hδ : 0 ≤ δ) (hr : rtol ≤ δ ^ 2) {fuel N : ℕ} (hN : N ≠ 0) : ∀ (l : List K) (a : K) (p : List (K × K))
    (rs : List (List (K × K))), (a :: l).IsChain (fun a b => |(b - a) / (N : K)| * L / 2 ≤ k) →
    revRows (fun dy => revStep false revGood dir rtol eps fuel dy) N l p a = .ok rs → RowsNear f (3 * k * δ) N (a :: l) (p :: rs)
  | [], a, p, rs, _, h => by
    rw [revRows, Except.ok.injEq] at h
    subst h
    exact ⟨rfl, fun j hj => by simp at hj⟩
  | b :: l, a, p, rs, hc, h => by
    have hN' : (N : K) ≠ 0 := Nat.cast_ne_zero.2 hN
    obtain ⟨h1, h2⟩ := List.isChain_cons_cons.1 hc
    rw [revRows] at h
    cases g : revSteps (revStep false revGood dir rtol eps fuel ((b - a) / (N : K))) ((b - a) / (N : K)) N p a with
    | error x => rw [g] at h; cases h
    | ok s =>
      obtain ⟨e1, e2⟩ := revSteps_near hf hdir he h1 hδ hr N p a s g
      have e : a + (N : K) * ((b - a) / (N : K)) = b := by field_simp; ring
      rw [e] at e1
      rw [g] at h
      simp only [Except.bind] at h
      rw [e1] at h
      cases g2 : revRows (fun dy => revStep false revGood dir rtol eps fuel dy) N l s.1 b with
      | error x => rw [g2] at h; cases h
      | ok rs' =>
        rw [g2] at h
        simp only [Except.map, Except.ok.injEq] at h
        subst h
        have ih := revRows_near hf hdir he hδ hr hN l b s.1 rs' h2 g2
        refine ⟨by simpa using ih.1, ?_⟩
        intro j hj
        cases j with
        | zero => simpa using e2
        | succ j => simpa using ih.2 j (by simpa using hj)

/-- The rows of a trace back from the end of another. -/
theorem RowsNear.back {f : K × K → K → K × K} {Λ : K} (hf : Lip f Λ) {k δ : K} (hk1 : k < 1) {N : ℕ} (hN : N ≠ 0) {L : List K} {R S : List (List (K × K))}
    (hc : L.IsChain (fun a b => |(b - a) / (N : K)| * Λ / 2 ≤ k)) (h1 : RowsNear f (3 * k * δ) N L R) (h2 : RowsNear f (3 * k * δ) N L.reverse S)
    (h0 : S.getD 0 [] = R.getD (L.length - 1) []) : ∀ j < L.length, (S.getD j []).length = (R.getD (L.length - 1 - j) []).length ∧
      ∀ i < (R.getD (L.length - 1 - j) []).length,
        Near (3 * δ * (((1 + k) / (1 - k)) ^ (N * j) - 1)) ((S.getD j []).getD i (0, 0)) ((R.getD (L.length - 1 - j) []).getD i (0, 0))
  | 0, hj => by
    rw [h0]
    refine ⟨rfl, ?_⟩
    intro i hi
    unfold Near
    simp
  | j + 1, hj => by
    have hN' : (N : K) ≠ 0 := Nat.cast_ne_zero.2 hN
    obtain ⟨il, ih⟩ := RowsNear.back hf hk1 hN hc h1 h2 h0 j (by omega)
    have a1 := h1.2 (L.length - 1 - (j + 1)) (by omega)
    have a2 := h2.2 j (by simpa using hj)
    have e1 : L.length - 1 - (j + 1) + 1 = L.length - 1 - j := by omega
    rw [e1] at a1
    have r1 : L.reverse.getD j 0 = L.getD (L.length - 1 - j) 0 := by
      rw [List.getD_eq_getElem _ _ (by rw [List.length_reverse]; omega), List.getD_eq_getElem _ _ (by omega), List.getElem_reverse]
    have r2 : L.reverse.getD (j + 1) 0 = L.getD (L.length - 1 - (j + 1)) 0 := by
      rw [List.getD_eq_getElem _ _ (by rw [List.length_reverse]; omega), List.getD_eq_getElem _ _ (by omega), List.getElem_reverse]
    rw [r1, r2] at a2
    have hk : |(L.getD (L.length - 1 - j) 0 - L.getD (L.length - 1 - (j + 1)) 0) / (N : K)| * Λ / 2 ≤ k := by
      rw [List.isChain_iff_getElem] at hc
      have := hc (L.length - 1 - (j + 1)) (by omega)
      rw [List.getD_eq_getElem _ _ (by omega), List.getD_eq_getElem _ _ (by omega)]
      simp only [e1] at this
      exact this
    have e2 : (L.getD (L.length - 1 - (j + 1)) 0 - L.getD (L.length - 1 - j) 0) / (N : K) =
        -((L.getD (L.length - 1 - j) 0 - L.getD (L.length - 1 - (j + 1)) 0) / (N : K)) := by ring
    have e3 : L.getD (L.length - 1 - j) 0 = L.getD (L.length - 1 - (j + 1)) 0 +
        (N : K) * ((L.getD (L.length - 1 - j) 0 - L.getD (L.length - 1 - (j + 1)) 0) / (N : K)) := by field_simp; ring
    rw [e2] at a2
    have a2' : StepsNear f (3 * k * δ) (-((L.getD (L.length - 1 - j) 0 - L.getD (L.length - 1 - (j + 1)) 0) / (N : K))) N
        (L.getD (L.length - 1 - (j + 1)) 0 + (N : K) * ((L.getD (L.length - 1 - j) 0 - L.getD (L.length - 1 - (j + 1)) 0) / (N : K)))
        (S.getD j []) (S.getD (j + 1) []) := by
      rw [← e3]
      exact a2
    refine ⟨by rw [StepsNear.length _ _ _ _ a2, il, StepsNear.length _ _ _ _ a1], ?_⟩
    intro i hi
    have := StepsNear.back hf hk hk1 N _ _ _ _ _ _ a1 a2' il ih i hi
    rw [Nat.mul_succ, pow_add]
    exact this

/-- What `follow_field_lines` returns is its rows. -/
theorem followReversible_rows (dir : List (K × K) → K → Except Err (List (K × K))) (rtol eps : K) (N fuel : ℕ) {x z : FArr K} {a : K} {l : List K}
    (hs : shape1 x = shape1 z) (hl : l ≠ []) (gx gz : Given) (hgx : Floats gx) (hgz : Floats gz) (rs : List (List (K × K)))
    (hrs : revRows (fun dy => revStep false revGood dir rtol eps fuel dy) N l (x.data.zip z.data) a = .ok rs) :
    ∃ r, followReversible dir rtol eps N fuel x z ⟨[(a :: l).length], a :: l⟩ gx gz false = .ok r ∧
      r.result = ⟨[(a :: l).length] ++ shape1 x ++ [2], (x.data.zip z.data :: rs).flatMap interleave⟩ := by
  have hL : 0 < l.length := List.length_pos_iff.2 hl
  have hck : checkInputs x z ⟨[(a :: l).length], a :: l⟩ = .ok (x.atleast1d, z.atleast1d, ⟨[(a :: l).length], a :: l⟩) := by
    unfold checkInputs
    have ey : (⟨[(a :: l).length], a :: l⟩ : FArr K).atleast1d = ⟨[(a :: l).length], a :: l⟩ := by
      unfold FArr.atleast1d; simp
    rw [ey]
    dsimp only
    rw [if_neg (by unfold FArr.len; simp; omega), if_neg (by simp), if_neg (by rw [atleast1d_shape, atleast1d_shape, hs]; simp)]
  unfold followReversible
  rw [hck]
  simp only [Except.bind]
  have hxs : xSpread x z = false := by
    unfold xSpread; rw [atleast1d_shape, atleast1d_shape, hs]; simp
  have hzs : zSpread x z = false := by
    unfold zSpread; rw [atleast1d_shape, atleast1d_shape, hs]; simp
  have hbad : (⟨gx.isInt && !xSpread x z, gz.isInt && !zSpread x z,
      decide (x.atleast1d.shape.length ≤ 1) && decide (z.atleast1d.shape.length > 1)⟩ : RevBad) = revGood := by
    unfold Floats at hgx hgz
    unfold revGood
    rw [hgx, hgz, atleast1d_shape, atleast1d_shape, hs]
    simp
  rw [hbad]
  simp only [atleast1d_data, List.tail_cons, List.getD_cons_zero]
  rw [hrs]
  refine ⟨_, rfl, ?_⟩
  simp only [atleast1d_shape]

theorem fst_zip_snd (Q : List (K × K)) : (Q.map Prod.fst).zip (Q.map Prod.snd) = Q := by
  induction Q with
  | nil => rfl
  | cons a Q ih => simp [ih]

/-- **C243.** For every field whose direction is Lipschitz in the position, if the sub-steps are not longer than `2k/Λ`, with
`k` at most `1/8`: the Newton iterations end, and the positions on the way back from the end are those on the way there, in reverse order, up to
`3 sqrt(rtol) (ρ^n - 1)` after `n` sub-steps, where `ρ = (1 + k)/(1 - k)`. -/
theorem C243_reversible [Archimedean K] (f : K × K → K → K × K) (Λ : K) (hf : Lip f Λ) (dir : List (K × K) → K → Except Err (List (K × K)))
    (hdir : Pointwise dir f) (rtol eps k δ : K) (hr : 0 < rtol) (he : eps ≠ 0) (hδ : 0 ≤ δ) (hrδ : rtol ≤ δ ^ 2) (hk : k ≤ 1 / 8) (N : ℕ) (hN : N ≠ 0)
    (x z : FArr K) (L : List K) (hx : x.Ok) (hz : z.Ok) (hs : shape1 x = shape1 z) (hne : x.data ≠ []) (hL : 2 ≤ L.length)
    (hc : L.IsChain (fun a b => |(b - a) / (N : K)| * Λ / 2 ≤ k)) (gx gz : Given) (hgx : Floats gx) (hgz : Floats gz) :
    ∃ (fuel : ℕ) (R S : List (List (K × K))), R.length = L.length ∧ S.length = L.length ∧ R.getD 0 [] = x.data.zip z.data ∧
      S.getD 0 [] = R.getD (L.length - 1) [] ∧
      (∀ m, ∃ r, followReversible dir rtol eps N (fuel + m) x z ⟨[L.length], L⟩ gx gz false = .ok r ∧
        r.result = ⟨[L.length] ++ shape1 x ++ [2], R.flatMap interleave⟩) ∧
      (∀ m, ∃ r, followReversible dir rtol eps N (fuel + m) ⟨shape1 x, (R.getD (L.length - 1) []).map Prod.fst⟩
          ⟨shape1 x, (R.getD (L.length - 1) []).map Prod.snd⟩ ⟨[L.length], L.reverse⟩ gx gz false = .ok r ∧
        r.result = ⟨[L.length] ++ shape1 x ++ [2], S.flatMap interleave⟩) ∧
      ∀ j < L.length, (R.getD j []).length = x.data.length ∧ (S.getD j []).length = x.data.length ∧
        ∀ i < x.data.length, Near (3 * δ * (((1 + k) / (1 - k)) ^ (N * j) - 1)) ((S.getD j []).getD i (0, 0)) ((R.getD (L.length - 1 - j) []).getD i (0, 0)) := by
  have hxz : x.data.length = z.data.length := by rw [← shape1_prod hx, ← shape1_prod hz, hs]
  have hzl : (x.data.zip z.data).length = x.data.length := by rw [List.length_zip, ← hxz, min_self]
  have hp : x.data.zip z.data ≠ [] := by
    intro h0
    rw [h0] at hzl
    exact hne (List.length_eq_zero_iff.1 hzl.symm)
  have hsm : ∀ a b : K, |(b - a) / (N : K)| * Λ / 2 ≤ k → SmallSteps Λ N a b := by
    intro a b h
    unfold SmallSteps
    linarith
  have hcr : L.reverse.IsChain (fun a b => |(b - a) / (N : K)| * Λ / 2 ≤ k) := by
    rw [List.isChain_iff_getElem] at hc ⊢
    intro i hi
    rw [List.length_reverse] at hi
    have := hc (L.length - 1 - (i + 1)) (by omega)
    simp only [List.getElem_reverse]
    have e : L.length - 1 - (i + 1) + 1 = L.length - 1 - i := by omega
    simp only [e] at this
    rw [← abs_neg, ← neg_div, neg_sub]
    exact this
  -- there
  obtain ⟨a, l, rfl⟩ : ∃ a l, L = a :: l := by
    cases L with
    | nil => simp at hL
    | cons a l => exact ⟨a, l, rfl⟩
  have hl : l ≠ [] := by rintro rfl; simp at hL
  obtain ⟨f1, rs, h1⟩ := revRows_ends hf hdir hr he hN l a _ hp (hc.imp hsm)
  have n1 := revRows_near hf hdir he hδ hrδ hN l a _ rs hc (h1 0)
  have hrowlen : ∀ j < (a :: l).length, ((x.data.zip z.data :: rs).getD j []).length = x.data.length := by
    intro j
    induction j with
    | zero => intro _; simpa using hzl
    | succ j ih =>
      intro hj
      rw [StepsNear.length _ _ _ _ (n1.2 j hj)]
      exact ih (by omega)
  set R := x.data.zip z.data :: rs with hR
  set Q := R.getD ((a :: l).length - 1) [] with hQ
  have hQl : Q.length = x.data.length := hrowlen _ (by simp)
  have hQne : Q ≠ [] := by
    intro h0
    rw [h0] at hQl
    exact hne (List.length_eq_zero_iff.1 hQl.symm)
  -- back
  obtain ⟨c, t, hct⟩ : ∃ c t, (a :: l).reverse = c :: t := by
    cases h : (a :: l).reverse with
    | nil => simp at h
    | cons c t => exact ⟨c, t, rfl⟩
  have hlen : (a :: l).length = (c :: t).length := by rw [← hct, List.length_reverse]
  have ht : t ≠ [] := by rintro rfl; rw [hlen] at hL; simp at hL
  rw [hct] at hcr
  obtain ⟨f2, ss, h2⟩ := revRows_ends hf hdir hr he hN t c Q hQne (hcr.imp hsm)
  have n2 := revRows_near hf hdir he hδ hrδ hN t c _ ss hcr (h2 0)
  have hsh : shape1 (⟨shape1 x, Q.map Prod.fst⟩ : FArr K) = shape1 x := by
    have := shape1_length x
    have h0 : shape1 x ≠ [] := by
      intro h0
      rw [h0] at this
      simp at this
    generalize shape1 x = sh at h0
    unfold shape1
    exact if_neg h0
  refine ⟨f1 + f2, R, Q :: ss, n1.1, by rw [hlen]; exact n2.1, rfl, rfl, ?_, ?_, ?_⟩
  · intro m
    have e : f1 + f2 + m = f1 + (f2 + m) := by omega
    rw [e]
    exact followReversible_rows dir rtol eps N _ hs hl gx gz hgx hgz rs (h1 _)
  · intro m
    have e : f1 + f2 + m = f2 + (f1 + m) := by omega
    change ∃ r, followReversible dir rtol eps N (f1 + f2 + m) ⟨shape1 x, Q.map Prod.fst⟩ ⟨shape1 x, Q.map Prod.snd⟩ ⟨[(a :: l).length], (a :: l).reverse⟩
      gx gz false = .ok r ∧ r.result = _
    rw [e, hct, hlen]
    have hh := h2 (f1 + m)
    rw [← fst_zip_snd Q] at hh
    obtain ⟨r, e1, e2⟩ := followReversible_rows dir rtol eps N _ (x := ⟨shape1 x, Q.map Prod.fst⟩) (z := ⟨shape1 x, Q.map Prod.snd⟩) rfl ht gx gz hgx hgz ss hh
    refine ⟨r, e1, ?_⟩
    rw [e2, hsh]
    dsimp only
    rw [fst_zip_snd]
  · intro j hj
    have hb := RowsNear.back hf (by linarith) hN hc n1 (by rw [hct]; exact n2) rfl j hj
    have hlr := hrowlen ((a :: l).length - 1 - j) (by omega)
    refine ⟨hrowlen j hj, by rw [hb.1, hlr], ?_⟩
    intro i hi
    exact hb.2 i (by rw [hlr]; exact hi)

/-- A field that is not affine: its direction has a kink. -/
def kinked (q : ℚ × ℚ) (y : ℚ) : ℚ × ℚ := (|q.2| / 2 + y, |q.1| / 3)

/-- The hypotheses of `C243_reversible` can be met with a field that is not affine. -/
example : Lip kinked (1 / 2) ∧ [(0 : ℚ), 1, 3].IsChain (fun a b => |(b - a) / ((10 : ℕ) : ℚ)| * (1 / 2) / 2 ≤ 1 / 8) ∧
    Pointwise (fun p y => .ok (p.map fun q => kinked q y)) kinked ∧ ((1 : ℚ) / 10000 ≤ (1 / 100) ^ 2) := by
  refine ⟨?_, ?_, fun p y _ => rfl, by norm_num⟩
  · intro e q q' y h
    have he : 0 ≤ e := (abs_nonneg _).trans h.1
    have h1 := (abs_abs_sub_abs_le q.1 q'.1).trans h.1
    have h2 := (abs_abs_sub_abs_le q.2 q'.2).trans h.2
    unfold kinked Near
    dsimp only
    constructor
    · have : |q.2| / 2 + y - (|q'.2| / 2 + y) = 1 / 2 * (|q.2| - |q'.2|) := by ring
      rw [this, abs_mul, abs_of_pos (by norm_num : (0 : ℚ) < 1 / 2)]
      linarith
    · have : |q.1| / 3 - |q'.1| / 3 = 1 / 3 * (|q.1| - |q'.1|) := by ring
      rw [this, abs_mul, abs_of_pos (by norm_num : (0 : ℚ) < 1 / 3)]
      linarith
  · rw [List.isChain_cons_cons, List.isChain_cons_cons]
    refine ⟨?_, ?_, by simp⟩
    · rw [abs_of_pos (by norm_num)]; norm_num
    · rw [abs_of_pos (by norm_num)]; norm_num

end Zoidberg
