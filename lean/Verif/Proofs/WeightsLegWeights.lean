import Verif.Proofs.WeightsDest

/-! The leg weight vector of `weights.py`. -/

set_option linter.unusedSectionVars false

namespace Zoidberg.Weights

variable {K : Type} [Field K] [LinearOrder K] [IsStrictOrderedRing K] [FloorRing K]

theorem foldl_set_getElem? {V : Type} {κ : Type} [DecidableEq κ] (row : κ → ℕ) (val : κ → V)
    (L : List κ) (hL : L.Nodup) (hinj : ∀ a ∈ L, ∀ b ∈ L, row a = row b → a = b) (l0 : List V)
    (hlt : ∀ a ∈ L, row a < l0.length) (k : κ) (hk : k ∈ L) :
    (L.foldl (fun l a => l.set (row a) (val a)) l0)[row k]? = some (val k) := by
  have not_mem : ∀ (M : List κ) (l : List V) (r : ℕ), (∀ a ∈ M, row a ≠ r) →
      (M.foldl (fun l a => l.set (row a) (val a)) l)[r]? = l[r]? := by
    intro M
    induction M with
    | nil => intros; rfl
    | cons a M ih =>
      intro l r h
      rw [List.foldl_cons, ih _ _ (fun b hb => h b (by simp [hb])),
        List.getElem?_set_ne (h a (by simp))]
  induction L generalizing l0 with
  | nil => simp at hk
  | cons a L ih =>
    rw [List.nodup_cons] at hL
    rw [List.foldl_cons]
    by_cases hka : k = a
    · subst hka
      rw [not_mem]
      · rw [List.getElem?_set_self (hlt k (by simp))]
      · intro b hb h
        have := hinj b (by simp [hb]) k (by simp) h
        subst this; exact hL.1 hb
    · have hkL : k ∈ L := by simpa [hka] using hk
      apply ih hL.2 (fun x hx y hy => hinj x (by simp [hx]) y (by simp [hy])) _ _ hkL
      intro b hb
      simpa using hlt b (by simp [hb])

theorem length_foldl_set {V : Type} {κ : Type} (row : κ → ℕ) (val : κ → V)
    (L : List κ) (l0 : List V) :
    (L.foldl (fun l a => l.set (row a) (val a)) l0).length = l0.length := by
  induction L generalizing l0 with
  | nil => rfl
  | cons a L ih => rw [List.foldl_cons, ih]; simp

/-- Weight of a leg. -/
def legValue (nx mxg : ℕ) (xt : SubArr K) (w : List K) (k : Bool × Cell) : K :=
  let cl := classify (xt.row k.2) w nx mxg
  if anyStay nx mxg xt k.2 && anyHit nx mxg xt k.2 then
    (if k.1 then cl.boundaryFraction else cl.interiorFraction)
  else 1

theorem putWeight_eq (ws : List K) (row : ℤ) (v : K) (h0 : 0 ≤ row) (h1 : row < ws.length) :
    putWeight ws row v = .ok (ws.set row.toNat v) := by
  unfold putWeight
  rw [if_neg (not_lt.2 h0), if_pos h1]

theorem legWeightStep_eq (nx ny nz mxg : ℕ) (xt : SubArr K) (w : List K) (ws : List K) (c : Cell) :
    let ls := legCore nx ny nz mxg xt w
    ws.length = ls.nLegs →
    legWeightStep ls ws c = .ok ((twoKeys ls.hasInterior ls.hasBoundary false true c).foldl
      (fun l k => l.set (ls.number k).toNat (legValue nx mxg xt w k)) ws) := by
  intro ls hl
  obtain ⟨f1, f2, f3, f4⟩ := legCore_fields nx ny nz mxg xt w c
  obtain ⟨m1, m2⟩ := has_iff_mem nx ny nz mxg xt w c
  unfold legWeightStep twoKeys
  by_cases hc : c ∈ loop3 mxg (nx - mxg) ny nz
  · simp only [if_pos hc] at f1 f2 f3 f4
    have b1 : ls.hasInterior c = true → 0 ≤ ls.interiorLeg c ∧ ls.interiorLeg c < ls.nLegs :=
      fun h => leg_lt nx ny nz mxg xt w (false, c) (m1.1 h)
    have b2 : ls.hasBoundary c = true → 0 ≤ ls.boundaryLeg c ∧ ls.boundaryLeg c < ls.nLegs :=
      fun h => leg_lt nx ny nz mxg xt w (true, c) (m2.1 h)
    have g1 : ls.hasInterior c = anyStay nx mxg xt c := f1
    have g2 : ls.hasBoundary c = anyHit nx mxg xt c := f2
    have g3 : ls.interiorFraction c = (classify (xt.row c) w nx mxg).interiorFraction := f3
    have g4 : ls.boundaryFraction c = (classify (xt.row c) w nx mxg).boundaryFraction := f4
    rw [g1] at b1 ⊢
    rw [g2] at b2 ⊢
    by_cases h1 : anyStay nx mxg xt c = true <;> by_cases h2 : anyHit nx mxg xt c = true
    · simp only [h1, h2, Bool.or_self, Bool.not_true, if_false, if_true, Bool.and_self, bind,
        Except.bind, Bool.false_eq_true]
      rw [putWeight_eq _ _ _ (b1 h1).1 (by rw [hl]; exact (b1 h1).2)]
      simp only []
      rw [putWeight_eq _ _ _ (b2 h2).1 (by rw [List.length_set, hl]; exact (b2 h2).2)]
      simp [legValue, h1, h2, LegSpace.number, g3, g4]
    · simp only [h1, h2, Bool.or_false, Bool.not_true, if_false, if_true, Bool.and_false, bind,
        Except.bind, Bool.false_eq_true]
      rw [putWeight_eq _ _ _ (b1 h1).1 (by rw [hl]; exact (b1 h1).2)]
      simp [legValue, h1, h2, LegSpace.number]
    · simp only [h1, h2, Bool.false_or, Bool.not_true, if_false, if_true, Bool.false_and, bind,
        Except.bind, Bool.false_eq_true]
      rw [putWeight_eq _ _ _ (b2 h2).1 (by rw [hl]; exact (b2 h2).2)]
      simp [legValue, h1, h2, LegSpace.number]
    · simp [h1, h2]
  · simp only [if_neg hc] at f1 f2
    have g1 : ls.hasInterior c = false := f1
    have g2 : ls.hasBoundary c = false := f2
    simp [g1, g2]

theorem buildLegWeights_eq (nx ny nz mxg : ℕ) (xt : SubArr K) (w : List K) :
    let ls := legCore nx ny nz mxg xt w
    ∃ ws, buildLegWeights (nx, ny, nz) ls = .ok ws ∧ ws.length = ls.nLegs ∧
      ∀ k ∈ legOrder nx ny nz mxg xt, ws[(ls.number k).toNat]? = some (legValue nx mxg xt w k) := by
  intro ls
  have loop : ∀ (L : List Cell) (ws : List K), ws.length = ls.nLegs →
      L.foldlM (legWeightStep ls) ws =
        .ok ((L.flatMap (twoKeys ls.hasInterior ls.hasBoundary false true)).foldl
          (fun l k => l.set (ls.number k).toNat (legValue nx mxg xt w k)) ws) := by
    intro L
    induction L with
    | nil => intros; rfl
    | cons c L ih =>
      intro ws hl
      have hs := legWeightStep_eq nx ny nz mxg xt w ws c hl
      rw [List.foldlM_cons]
      change (legWeightStep ls ws c >>= _) = _
      rw [show legWeightStep ls ws c = _ from hs]
      simp only [bind, Except.bind]
      rw [List.flatMap_cons, List.foldl_append]
      apply ih
      rw [length_foldl_set]; exact hl
  have hmem : ∀ k, k ∈ (loop3 0 nx ny nz).flatMap (twoKeys ls.hasInterior ls.hasBoundary false true)
      ↔ k ∈ legOrder nx ny nz mxg xt := by
    intro k
    rw [mem_twoKeys_flatMap]
    obtain ⟨b, c⟩ := k
    obtain ⟨m1, m2⟩ := has_iff_mem nx ny nz mxg xt w c
    have sub : ∀ k' : Bool × Cell, k' ∈ legOrder nx ny nz mxg xt → k'.2 ∈ loop3 0 nx ny nz := by
      intro k' hk'
      have := ((mem_twoKeys_flatMap _ _ _ _).1 hk').1
      rw [mem_loop3] at this ⊢
      omega
    cases b
    · simp only [Bool.false_eq_true, if_false]
      exact ⟨fun h => m1.1 h.2, fun h => ⟨sub _ h, m1.2 h⟩⟩
    · simp only [if_true]
      exact ⟨fun h => m2.1 h.2, fun h => ⟨sub _ h, m2.2 h⟩⟩
  refine ⟨_, loop _ _ (by simp), ?_, ?_⟩
  · rw [length_foldl_set]; simp
  · intro k hk
    apply foldl_set_getElem? (fun k => (ls.number k).toNat) (fun k => legValue nx mxg xt w k)
    · exact nodup_twoKeys_flatMap _ _ _ (nodup_loop3 ..)
    · intro a ha b hb h
      rw [hmem] at ha hb
      have ha' := leg_lt nx ny nz mxg xt w a ha
      have hb' := leg_lt nx ny nz mxg xt w b hb
      apply leg_inj nx ny nz mxg xt w a b ha hb
      have h' : (ls.number a).toNat = (ls.number b).toNat := h
      have h1 : 0 ≤ ls.number a := ha'.1
      have h2 : 0 ≤ ls.number b := hb'.1
      change ls.number a = ls.number b
      omega
    · intro a ha
      rw [hmem] at ha
      have ha' := leg_lt nx ny nz mxg xt w a ha
      have h1 : 0 ≤ ls.number a := ha'.1
      have h2 : ls.number a < ls.nLegs := ha'.2
      simp only [List.length_replicate]
      omega
    · exact (hmem k).2 hk

/-- Look-ups on a represented input. -/
theorem lookups (maps : MapDict K) (i : Input K) (h : Represents maps i) :
    shapeR maps = .ok (i.nx, i.ny, i.nz) ∧ getMXG maps = .ok i.mxg ∧
    getSub maps "forward_xt_primes" "forward_xt_prime" = .ok ⟨i.n, i.fx⟩ ∧
    getSub maps "forward_zt_primes" "forward_zt_prime" = .ok ⟨i.n, i.fz⟩ ∧
    getSub maps "backward_xt_primes" "backward_xt_prime" = .ok ⟨i.n, i.bx⟩ ∧
    getSub maps "backward_zt_primes" "backward_zt_prime" = .ok ⟨i.n, i.bz⟩ := by
  obtain ⟨⟨R, hR⟩, hm, h1, h2, h3, h4, _⟩ := h
  have sub : ∀ key fb f, StoresCoord maps i key fb f → getSub maps key fb = .ok ⟨i.n, f⟩ := by
    intro key fb f hs
    rcases hs with hs | ⟨hn, h1, g, hg, rfl⟩
    · simp [getSub, getMapArray, hs, bind, Except.bind, asSubsampleArray]
    · simp [getSub, getMapArray, hn, hg, bind, Except.bind, asSubsampleArray, h1]
  refine ⟨?_, ?_, sub _ _ _ h1, sub _ _ _ h2, sub _ _ _ h3, sub _ _ _ h4⟩
  · simp [shapeR, Dict.get, hR, bind, Except.bind]
  · simp [getMXG, Dict.get, hm, bind, Except.bind]

theorem getSubcellWeights_ok (maps : MapDict K) (i : Input K) (h : Represents maps i)
    (hw : i.GoodWeights) : getSubcellWeights maps i.n = .ok i.w := by
  have e : rawSubcellWeights maps i.n = .ok i.w := by
    rcases h.w with h | ⟨h, h1, h2⟩
    · simp [rawSubcellWeights, h]
    · simp [rawSubcellWeights, h, h1, h2]
  unfold getSubcellWeights
  rw [e]
  simp only [bind, Except.bind]
  rw [if_neg (by simp [hw.len]), if_neg (not_le.2 hw.sum)]

theorem getSubcellWeights_cases (maps : MapDict K) (i : Input K) (h : Represents maps i) (w : List K)
    (hw : getSubcellWeights maps i.n = .ok w) :
    w = i.w ∧ i.w.length = i.n ∧ |i.w.sum - 1| < 1 / 10 ^ 8 := by
  have e : rawSubcellWeights maps i.n = .ok i.w := by
    rcases h.w with h | ⟨h, h1, h2⟩
    · simp [rawSubcellWeights, h]
    · simp [rawSubcellWeights, h, h1, h2]
  unfold getSubcellWeights at hw
  rw [e] at hw
  simp only [bind, Except.bind] at hw
  split at hw
  · cases hw
  · rename_i h1
    split at hw
    · cases hw
    · rename_i h2
      injection hw with hw
      exact ⟨hw.symm, by simpa using h1, not_le.1 h2⟩

end Zoidberg.Weights
