import Verif.Proofs.WeightsAssembly

/-! The destination operator, the leg weights, and `calculate_parallel_map_operators`. -/

set_option linter.unusedSectionVars false

namespace Zoidberg.Weights

variable {K : Type} [Field K] [LinearOrder K] [IsStrictOrderedRing K] [FloorRing K]

theorem maskedSum_cons (a : K) (w : List K) (b : Bool) (m : List Bool) :
    maskedSum (a :: w) (b :: m) = (if b then a else 0) + maskedSum w m := by
  cases b <;> simp [maskedSum]

theorem maskedSum_add_not (w : List K) (m : List Bool) (h : w.length = m.length) :
    maskedSum w m + maskedSum w (m.map not) = w.sum := by
  induction w generalizing m with
  | nil => simp [maskedSum]
  | cons a w ih =>
    cases m with
    | nil => simp at h
    | cons b m =>
      have := ih m (by simpa using h)
      rw [List.map_cons, maskedSum_cons, maskedSum_cons, List.sum_cons, ← this]
      cases b <;> simp <;> ring

theorem maskedSum_nonneg (w : List K) (m : List Bool) (hp : ∀ v ∈ w, 0 < v) :
    0 ≤ maskedSum w m := by
  apply List.sum_nonneg
  intro x hx
  simp only [List.mem_map, List.mem_filter] at hx
  obtain ⟨⟨a, b⟩, ⟨h1, _⟩, rfl⟩ := hx
  exact (hp _ (List.of_mem_zip h1).1).le

theorem maskedSum_pos (w : List K) (m : List Bool) (h : w.length = m.length)
    (hp : ∀ v ∈ w, 0 < v) (ha : m.any id = true) : 0 < maskedSum w m := by
  induction w generalizing m with
  | nil =>
    have : m = [] := by simpa using h.symm
    subst this; simp at ha
  | cons a w ih =>
    cases m with
    | nil => simp at h
    | cons b m =>
      rw [maskedSum_cons]
      cases b
      · simp only [Bool.false_eq_true, if_false, zero_add]
        exact ih m (by simpa using h) (fun v hv => hp v (by simp [hv])) (by simpa using ha)
      · have h1 : 0 < a := hp a (by simp)
        have h2 := maskedSum_nonneg w m (fun v hv => hp v (by simp [hv]))
        simp only [if_true]; linarith

theorem length_row (a : SubArr K) (c : Cell) : (a.row c).length = a.n := by simp [SubArr.row]

/-- Contributions to the interior leg row of a cell. -/
def contribs (shape : ℕ × ℕ × ℕ) (mxg : ℕ) (cellNumber : Cell → ℤ) (xt zt : SubArr K) (w : List K)
    (yOff : ℤ) (c : Cell) : List (ℤ × K) :=
  let mask := (xt.row c).map fun x => hits x shape.1 mxg
  ((xt.row c).zip ((zt.row c).zip (w.zip mask))).flatMap
    (contribSample shape cellNumber c.2.1 yOff mxg (maskedSum w (mask.map not)))

/-- Effect of one pass of the assembly loop. -/
def destUpd (shape : ℕ × ℕ × ℕ) (mxg : ℕ) (cellNumber boundaryNumber : Cell → ℤ)
    (ls : LegSpace K) (xt zt : SubArr K) (w : List K) (yOff : ℤ) (b : Builder K) (c : Cell) :
    Builder K :=
  let b1 := if anyHit shape.1 mxg xt c then
    b.set (ls.boundaryLeg c).toNat [(boundaryNumber c, 1)] else b
  if anyStay shape.1 mxg xt c then
    b1.set (ls.interiorLeg c).toNat (addAll [] (contribs shape mxg cellNumber xt zt w yOff c))
  else b1

theorem destStep_eq (shape : ℕ × ℕ × ℕ) (mxg : ℕ) (cellNumber boundaryNumber : Cell → ℤ)
    (hn : Numbered shape cellNumber) (xt zt : SubArr K) (w : List K) (yOff : ℤ)
    (hw : w.length = xt.n) (hp : ∀ v ∈ w, 0 < v)
    (hb : ∀ c ∈ loop3 mxg (shape.1 - mxg) shape.2.1 shape.2.2, anyHit shape.1 mxg xt c = true →
      0 ≤ boundaryNumber c)
    (c : Cell) (hc : c ∈ loop3 mxg (shape.1 - mxg) shape.2.1 shape.2.2)
    (b : Builder K) :
    let ls := legCore shape.1 shape.2.1 shape.2.2 mxg xt w
    b.length = ls.nLegs →
    (anyHit shape.1 mxg xt c = true → b.getD (ls.boundaryLeg c).toNat [] = []) →
    (anyStay shape.1 mxg xt c = true → b.getD (ls.interiorLeg c).toNat [] = []) →
    destStep shape mxg cellNumber boundaryNumber ls xt zt w yOff b c =
      .ok (destUpd shape mxg cellNumber boundaryNumber ls xt zt w yOff b c) := by
  intro ls hlen he1 he2
  obtain ⟨f1, f2, _, _⟩ := legCore_fields shape.1 shape.2.1 shape.2.2 mxg xt w c
  simp only [if_pos hc] at f1 f2
  obtain ⟨m1, m2⟩ := has_iff_mem shape.1 shape.2.1 shape.2.2 mxg xt w c
  rw [f1] at m1
  rw [f2] at m2
  have hc' := mem_loop3.1 hc
  have hx : 0 < shape.1 := by omega
  have hy : 0 < shape.2.1 := by omega
  have hz : 0 < shape.2.2 := by omega
  -- the accumulate step on any builder whose row is still empty
  have acc : ∀ b' : Builder K, b'.length = ls.nLegs → anyStay shape.1 mxg xt c = true →
      b'.getD (ls.interiorLeg c).toNat [] = [] →
      accumulateStencil shape b' (ls.interiorLeg c) (xt.row c) (zt.row c) w
        (classify (xt.row c) w shape.1 mxg).hitsBoundary c.2.1 yOff cellNumber mxg =
      .ok (b'.set (ls.interiorLeg c).toNat
        (addAll [] (contribs shape mxg cellNumber xt zt w yOff c))) := by
    intro b' hl hs hempty
    have hk : 0 ≤ ls.interiorLeg c ∧ ls.interiorLeg c < ls.nLegs :=
      leg_lt shape.1 shape.2.1 shape.2.2 mxg xt w (false, c) (m1.1 hs)
    have e : ls.interiorLeg c = ((ls.interiorLeg c).toNat : ℤ) := (Int.toNat_of_nonneg hk.1).symm
    have hlt : (ls.interiorLeg c).toNat < b'.length := by
      rw [hl]; omega
    have hpos : 0 < maskedSum w (((xt.row c).map fun x => hits x shape.1 mxg).map not) := by
      apply maskedSum_pos _ _ _ hp
      · exact hs
      · simp [length_row, hw]
    have := accumulateStencil_eq shape cellNumber hn hx hy hz (ls.interiorLeg c).toNat c.2.1 yOff mxg
      (xt.row c) (zt.row c) w b' hlt hpos
    rw [e]
    simp only [Int.toNat_natCast]
    rw [hempty] at this
    exact this
  unfold destStep destUpd
  simp only []
  rw [show ls.hasBoundary c = anyHit shape.1 mxg xt c from f2,
    show ls.hasInterior c = anyStay shape.1 mxg xt c from f1]
  by_cases h1 : anyHit shape.1 mxg xt c = true
  · have hk : 0 ≤ ls.boundaryLeg c ∧ ls.boundaryLeg c < ls.nLegs :=
      leg_lt shape.1 shape.2.1 shape.2.2 mxg xt w (true, c) (m2.1 h1)
    have e : ls.boundaryLeg c = ((ls.boundaryLeg c).toNat : ℤ) := (Int.toNat_of_nonneg hk.1).symm
    have hlt : (ls.boundaryLeg c).toNat < b.length := by
      rw [hlen]; omega
    have hset : b.setRow (ls.boundaryLeg c) [(boundaryNumber c, 1)] =
        .ok (b.set (ls.boundaryLeg c).toNat [(boundaryNumber c, 1)]) := by
      unfold Builder.setRow
      rw [e, pyIndex_nat _ _ hlt]
      simp only [Int.toNat_natCast]
      rw [if_neg]
      simpa using he1 h1
    rw [if_pos h1, if_neg (not_lt.2 (hb c hc h1)), hset, if_pos h1]
    simp only [bind, Except.bind]
    by_cases h2 : anyStay shape.1 mxg xt c = true
    · rw [if_pos h2, if_pos h2, acc _ (by simpa using hlen) h2]
      have hk2 : 0 ≤ ls.interiorLeg c ∧ ls.interiorLeg c < ls.nLegs :=
        leg_lt shape.1 shape.2.1 shape.2.2 mxg xt w (false, c) (m1.1 h2)
      have hne : (ls.boundaryLeg c).toNat ≠ (ls.interiorLeg c).toNat := by
        intro h
        have h' : ls.number (true, c) = ls.number (false, c) := by
          simp only [LegSpace.number]; omega
        have := leg_inj shape.1 shape.2.1 shape.2.2 mxg xt w _ _ (m2.1 h1) (m1.1 h2) h'
        simp at this
      rw [List.getD_eq_getElem?_getD, List.getElem?_set_ne hne, ← List.getD_eq_getElem?_getD]
      exact he2 h2
    · rw [if_neg h2, if_neg h2]
  · rw [if_neg h1, if_neg h1]
    simp only [bind, Except.bind]
    by_cases h2 : anyStay shape.1 mxg xt c = true
    · rw [if_pos h2, if_pos h2, acc _ hlen h2 (he2 h2)]
    · rw [if_neg h2, if_neg h2]

/-- The result of the assembly loop. -/
theorem destCore_eq (shape : ℕ × ℕ × ℕ) (mxg : ℕ) (cellNumber boundaryNumber : Cell → ℤ)
    (hn : Numbered shape cellNumber) (xt zt : SubArr K) (w : List K) (yOff : ℤ)
    (hw : w.length = xt.n) (hp : ∀ v ∈ w, 0 < v)
    (hb : ∀ c ∈ loop3 mxg (shape.1 - mxg) shape.2.1 shape.2.2, anyHit shape.1 mxg xt c = true →
      0 ≤ boundaryNumber c) :
    let ls := legCore shape.1 shape.2.1 shape.2.2 mxg xt w
    ∃ b : Builder K, destCore shape mxg cellNumber boundaryNumber ls xt zt w yOff = .ok b ∧
      b.length = ls.nLegs ∧
      ∀ c, ((true, c) ∈ legOrder shape.1 shape.2.1 shape.2.2 mxg xt →
          b.getD (ls.boundaryLeg c).toNat [] = [(boundaryNumber c, 1)]) ∧
        ((false, c) ∈ legOrder shape.1 shape.2.1 shape.2.2 mxg xt →
          b.getD (ls.interiorLeg c).toNat [] =
            addAll [] (contribs shape mxg cellNumber xt zt w yOff c)) := by
  intro ls
  -- generalised over the cells still to be visited
  have main : ∀ (L : List Cell) (b0 : Builder K),
      (∀ c ∈ L, c ∈ loop3 mxg (shape.1 - mxg) shape.2.1 shape.2.2) → L.Nodup →
      b0.length = ls.nLegs →
      (∀ k : Bool × Cell, k ∈ legOrder shape.1 shape.2.1 shape.2.2 mxg xt → k.2 ∈ L →
        b0.getD (ls.number k).toNat [] = []) →
      ∃ b : Builder K, L.foldlM (destStep shape mxg cellNumber boundaryNumber ls xt zt w yOff) b0
        = .ok b ∧ b.length = ls.nLegs ∧
      ∀ k : Bool × Cell, k ∈ legOrder shape.1 shape.2.1 shape.2.2 mxg xt →
        b.getD (ls.number k).toNat [] =
          if k.2 ∈ L then (if k.1 then [(boundaryNumber k.2, 1)] else
            addAll [] (contribs shape mxg cellNumber xt zt w yOff k.2))
          else b0.getD (ls.number k).toNat [] := by
    intro L
    induction L with
    | nil => intro b0 _ _ hl _; exact ⟨b0, rfl, hl, by simp⟩
    | cons c L ih =>
      intro b0 hsub hnd hl hempty
      rw [List.nodup_cons] at hnd
      have hc := hsub c (by simp)
      obtain ⟨m1, m2⟩ := has_iff_mem shape.1 shape.2.1 shape.2.2 mxg xt w c
      obtain ⟨f1, f2, _, _⟩ := legCore_fields shape.1 shape.2.1 shape.2.2 mxg xt w c
      simp only [if_pos hc] at f1 f2
      rw [f1] at m1
      rw [f2] at m2
      have step := destStep_eq shape mxg cellNumber boundaryNumber hn xt zt w yOff hw hp hb c hc b0
        hl (fun h => hempty (true, c) (m2.1 h) (by simp))
        (fun h => hempty (false, c) (m1.1 h) (by simp))
      obtain ⟨b1, hb1⟩ : ∃ b1, b1 = destUpd shape mxg cellNumber boundaryNumber ls xt zt w yOff b0 c :=
        ⟨_, rfl⟩
      change _ = Except.ok (destUpd shape mxg cellNumber boundaryNumber ls xt zt w yOff b0 c) at step
      rw [← hb1] at step
      unfold destUpd at hb1
      have hl1 : b1.length = ls.nLegs := by
        rw [hb1]; simp only []
        split <;> split <;> simpa using hl
      -- content of `b1`
      have hget : ∀ k : Bool × Cell, k ∈ legOrder shape.1 shape.2.1 shape.2.2 mxg xt →
          b1.getD (ls.number k).toNat [] =
            if k.2 = c then (if k.1 then [(boundaryNumber k.2, 1)] else
              addAll [] (contribs shape mxg cellNumber xt zt w yOff k.2))
            else b0.getD (ls.number k).toNat [] := by
        intro k hk
        have hkl := leg_lt shape.1 shape.2.1 shape.2.2 mxg xt w k hk
        have hne : ∀ l : Bool × Cell, l ∈ legOrder shape.1 shape.2.1 shape.2.2 mxg xt → k ≠ l →
            (ls.number l).toNat ≠ (ls.number k).toNat := by
          intro l hl' hkl' h
          have hll := leg_lt shape.1 shape.2.1 shape.2.2 mxg xt w l hl'
          exact hkl' (leg_inj shape.1 shape.2.1 shape.2.2 mxg xt w _ _ hk hl' (by
            change ls.number k = ls.number l
            have h0 : 0 ≤ ls.number k := hkl.1
            have h1 : 0 ≤ ls.number l := hll.1
            omega))
        obtain ⟨kb, kc⟩ := k
        by_cases hkc : kc = c
        · subst hkc
          simp only [if_true]
          cases kb
          · have hs : anyStay shape.1 mxg xt kc = true := m1.2 hk
            simp only [Bool.false_eq_true, if_false]
            rw [hb1]; simp only []
            rw [if_pos hs]
            have hlt : (ls.number (false, kc)).toNat < b0.length := by
              rw [hl]
              have h0 : 0 ≤ ls.number (false, kc) := hkl.1
              have h1 : ls.number (false, kc) < ls.nLegs := hkl.2
              omega
            change (List.set _ (ls.number (false, kc)).toNat _).getD (ls.number (false, kc)).toNat [] = _
            rw [List.getD_eq_getElem _ _ (by split <;> simpa using hlt)]
            simp
          · have hh : anyHit shape.1 mxg xt kc = true := m2.2 hk
            simp only [if_true]
            rw [hb1]; simp only []
            rw [if_pos hh]
            have hlt : (ls.number (true, kc)).toNat < b0.length := by
              rw [hl]
              have h0 : 0 ≤ ls.number (true, kc) := hkl.1
              have h1 : ls.number (true, kc) < ls.nLegs := hkl.2
              omega
            by_cases hs : anyStay shape.1 mxg xt kc = true
            · rw [if_pos hs]
              have := hne (false, kc) (m1.1 hs) (by simp)
              change (List.set _ (ls.number (false, kc)).toNat _).getD (ls.number (true, kc)).toNat [] = _
              rw [List.getD_eq_getElem?_getD, List.getElem?_set_ne this]
              change ((List.set _ (ls.number (true, kc)).toNat _)[(ls.number (true, kc)).toNat]?).getD [] = _
              rw [List.getElem?_set_self hlt]; rfl
            · rw [if_neg hs]
              change (List.set _ (ls.number (true, kc)).toNat _).getD (ls.number (true, kc)).toNat [] = _
              rw [List.getD_eq_getElem?_getD, List.getElem?_set_self hlt]; rfl
        · simp only [if_neg hkc]
          rw [hb1]; simp only []
          have e1 : anyStay shape.1 mxg xt c = true →
              (ls.number (false, c)).toNat ≠ (ls.number (kb, kc)).toNat := fun h =>
            hne (false, c) (m1.1 h) (by simp [hkc])
          have e2 : anyHit shape.1 mxg xt c = true →
              (ls.number (true, c)).toNat ≠ (ls.number (kb, kc)).toNat := fun h =>
            hne (true, c) (m2.1 h) (by simp [hkc])
          by_cases h1 : anyHit shape.1 mxg xt c = true <;>
            by_cases h2 : anyStay shape.1 mxg xt c = true
          · rw [if_pos h1, if_pos h2, List.getD_eq_getElem?_getD]
            change ((List.set (List.set _ (ls.number (true, c)).toNat _) (ls.number (false, c)).toNat _)[_]?).getD _ = _
            rw [List.getElem?_set_ne (e1 h2), List.getElem?_set_ne (e2 h1),
              ← List.getD_eq_getElem?_getD]
          · rw [if_pos h1, if_neg h2, List.getD_eq_getElem?_getD]
            change ((List.set _ (ls.number (true, c)).toNat _)[_]?).getD _ = _
            rw [List.getElem?_set_ne (e2 h1), ← List.getD_eq_getElem?_getD]
          · rw [if_neg h1, if_pos h2, List.getD_eq_getElem?_getD]
            change ((List.set _ (ls.number (false, c)).toNat _)[_]?).getD _ = _
            rw [List.getElem?_set_ne (e1 h2), ← List.getD_eq_getElem?_getD]
          · rw [if_neg h1, if_neg h2]
      obtain ⟨b, hb', hbl, hbg⟩ := ih b1 (fun d hd => hsub d (by simp [hd])) hnd.2 hl1 (by
        intro k hk hkL
        have hkc : k.2 ≠ c := by rintro rfl; exact hnd.1 hkL
        rw [hget k hk, if_neg hkc]
        exact hempty k hk (by simp [hkL]))
      refine ⟨b, ?_, hbl, ?_⟩
      · rw [List.foldlM_cons, step]
        exact hb'
      · intro k hk
        rw [hbg k hk, hget k hk]
        by_cases hkL : k.2 ∈ L
        · simp [hkL]
        · by_cases hkc : k.2 = c
          · simp [hkc, hnd.1]
          · simp [hkL, hkc]
  obtain ⟨b, h1, h2, h3⟩ := main (loop3 mxg (shape.1 - mxg) shape.2.1 shape.2.2)
    (Builder.init K ls.nLegs) (fun _ h => h) (nodup_loop3 ..) (by simp [Builder.init]) (by
      intro k _ _
      simp [Builder.init])
  refine ⟨b, h1, h2, ?_⟩
  intro c
  constructor
  · intro h
    have := h3 (true, c) h
    rw [if_pos ((mem_twoKeys_flatMap _ _ _ _).1 h).1] at this
    simpa [LegSpace.number] using this
  · intro h
    have := h3 (false, c) h
    rw [if_pos ((mem_twoKeys_flatMap _ _ _ _).1 h).1] at this
    simpa [LegSpace.number] using this

end Zoidberg.Weights
