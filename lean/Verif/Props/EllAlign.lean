import Verif.Model.EllLines
import Verif.Props.GridGen
import Verif.Props.RzClosest

/-!
# C235: the alignment of the lines in `grid_elliptic`
-/

set_option linter.unusedSectionVars false
set_option linter.unusedSimpArgs false

namespace Zoidberg

variable {K : Type} [Field K] [LinearOrder K] [IsStrictOrderedRing K] [FloorRing K]

/-! ## Rolled lists -/

theorem argmax_eq : ∀ l : List K, argmax l = argmin (l.map fun a => -a)
  | [] => rfl
  | a :: l => by
    rw [argmax, List.map_cons, argmin, argmax_eq l]
    congr 1
    simp [List.all_map, Function.comp_def]

theorem argmax_lt {l : List K} (h : l ≠ []) : argmax l < l.length := by
  rw [argmax_eq]
  simpa using argmin_lt (l := l.map fun a => -a) (by simpa using h)

theorem argmax_ge {l : List K} {i : ℕ} (h : i < l.length) : l.getD i 0 ≤ l.getD (argmax l) 0 := by
  have hl : l ≠ [] := by rintro rfl; simp at h
  have h1 := argmin_le (l := l.map fun a => -a) i (by simpa using h)
  rw [← argmax_eq] at h1
  rw [List.getD_eq_getElem _ _ (by simpa using argmax_lt hl), List.getD_eq_getElem _ _ (by simpa using h)] at h1
  rw [List.getD_eq_getElem _ _ h, List.getD_eq_getElem _ _ (argmax_lt hl)]
  simpa using h1

theorem rotPts_length (p : List (K × K)) (k : ℕ) : (rotPts p k).length = p.length := by simp [rotPts]

theorem ptAt_rotPts (p : List (K × K)) (k i : ℕ) : ptAt (rotPts p k) i = ptAt p (i + k) := by
  rcases Nat.eq_zero_or_pos p.length with h | h
  · rw [List.length_eq_zero_iff.1 h]; rfl
  have hl : i % (rotPts p k).length < (rotPts p k).length := Nat.mod_lt _ (by rw [rotPts_length]; exact h)
  unfold ptAt
  rw [List.getD_eq_getElem _ _ hl]
  unfold rotPts
  simp only [List.getElem_map, List.getElem_range, List.length_map, List.length_range]
  unfold ptAt
  rw [Nat.mod_add_mod]

theorem sum_shift_by (F : ℕ → K) (n : ℕ) (h : ∀ i, F (i + n) = F i) (k : ℕ) :
    ∑ i ∈ Finset.range n, F (i + k) = ∑ i ∈ Finset.range n, F i := by
  induction k with
  | zero => rfl
  | succ k ih =>
    rw [← ih, ← sum_shift (fun i => F (i + k)) n (fun i => by rw [show i + n + k = i + k + n by omega, h])]
    apply Finset.sum_congr rfl
    intro i _
    congr 1
    omega

theorem signedArea_rotPts (p : List (K × K)) (k : ℕ) : signedArea (rotPts p k) = signedArea p := by
  rw [signedArea_eq, signedArea_eq, rotPts_length]
  congr 1
  rw [← sum_shift_by (fun i => (ptAt p i).1 * (ptAt p (i + 1)).2 - (ptAt p (i + 1)).1 * (ptAt p i).2) p.length
    (fun i => by simp only [show i + p.length + 1 = i + 1 + p.length by omega, ptAt_add]) k]
  apply Finset.sum_congr rfl
  intro i _
  rw [ptAt_rotPts, ptAt_rotPts, show i + 1 + k = i + k + 1 by omega]

/-- The values in the same order, starting at number `k`. -/
def rotVals (v : List K) (k : ℕ) : List K := (List.range v.length).map fun i => v.getD ((i + k) % v.length) 0

theorem rotPts_fst (p : List (K × K)) (k : ℕ) : (rotPts p k).map Prod.fst = rotVals (p.map Prod.fst) k := by
  unfold rotPts rotVals
  rw [List.map_map, List.length_map]
  apply List.map_congr_left
  intro i hi
  have h : (i + k) % p.length < p.length := Nat.mod_lt _ (by rw [List.mem_range] at hi; omega)
  simp only [Function.comp, ptAt]
  rw [List.getD_eq_getElem _ _ h, List.getD_eq_getElem _ _ (by simpa using h), List.getElem_map]

theorem rotPts_snd (p : List (K × K)) (k : ℕ) : (rotPts p k).map Prod.snd = rotVals (p.map Prod.snd) k := by
  unfold rotPts rotVals
  rw [List.map_map, List.length_map]
  apply List.map_congr_left
  intro i hi
  have h : (i + k) % p.length < p.length := Nat.mod_lt _ (by rw [List.mem_range] at hi; omega)
  simp only [Function.comp, ptAt]
  rw [List.getD_eq_getElem _ _ h, List.getD_eq_getElem _ _ (by simpa using h), List.getElem_map]

/-! ## C235: the points -/

theorem build_pts {e : RzEnv K} {q : List (K × K)} {order smooth : Option ℕ} {l : RZLine K}
    (h : RZLine.build e q order smooth = .ok l) : l.pts = q ∧ q ≠ [] ∧
      e.splrep (splineOrder order) (smooth.map (rzKnots e.pi q.length)) (q.map Prod.fst) = .ok l.rspl ∧
      e.splrep (splineOrder order) (smooth.map (rzKnots e.pi q.length)) (q.map Prod.snd) = .ok l.zspl := by
  unfold RZLine.build at h
  dsimp only at h
  split at h
  · cases h
  · rename_i hq
    cases hr : e.splrep (splineOrder order) (smooth.map (rzKnots e.pi q.length)) (q.map Prod.fst) with
    | error x => rw [hr] at h; cases h
    | ok rs =>
      cases hz : e.splrep (splineOrder order) (smooth.map (rzKnots e.pi q.length)) (q.map Prod.snd) with
      | error x => rw [hr, hz] at h; cases h
      | ok zs =>
        rw [hr, hz] at h
        simp only [Except.bind] at h
        injection h with h
        subst h
        exact ⟨rfl, hq, rfl, rfl⟩

theorem roll_eq (e : RzEnv K) (l : RZLine K) (k : ℕ) (h : 0 < signedArea l.pts) :
    l.roll e k = RZLine.build e (rotPts l.pts k) none none := by
  unfold RZLine.roll
  rw [C54_direction e _ none none (by rw [signedArea_rotPts]; exact h.ne'), signedArea_rotPts, if_pos h]

theorem ne_nil_of_area {p : List (K × K)} (h : 0 < signedArea p) : p ≠ [] := by
  rintro rfl
  simp [signedArea] at h

/-- The squared distances of the points of a line and those of a line with at least as many points
that belong to them, added up. -/
def misfit (s l : List (K × K)) : K :=
  ∑ j ∈ Finset.range s.length,
    dist2 (ptAt s j) (ptAt l (pyRound ((j : K) * ((l.length : K) / (s.length : K)))).toNat)

theorem pyRound_nonneg' {x : K} (h : 0 ≤ x) : 0 ≤ pyRound x := by
  have : 0 ≤ ⌊x⌋ := Int.floor_nonneg.2 h
  unfold pyRound
  split_ifs <;> omega

theorem ptAt_congr (p : List (K × K)) {i j : ℕ} (h : i % p.length = j % p.length) : ptAt p i = ptAt p j := by
  unfold ptAt; rw [h]

theorem alignSum_eq (s l : List (K × K)) {i : ℕ} (hi : i ≤ l.length) :
    alignSum s l i = misfit s (rotPts l (l.length - i)) := by
  unfold alignSum misfit
  rw [sum_map_range]
  apply Finset.sum_congr rfl
  intro j _
  rw [rotPts_length, ptAt_rotPts]
  congr 1
  apply ptAt_congr
  have h0 : 0 ≤ pyRound ((j : K) * ((l.length : K) / (s.length : K))) := pyRound_nonneg' (by positivity)
  generalize pyRound ((j : K) * ((l.length : K) / (s.length : K))) = r at h0
  rcases Nat.eq_zero_or_pos l.length with hl | hl
  · rw [hl] at hi ⊢
    have : i = 0 := by omega
    subst this
    simp
  obtain ⟨m, rfl⟩ := Int.eq_ofNat_of_zero_le h0
  have hz : (((m : ℤ) - (i : ℤ)) % (l.length : ℤ)) = (((m + (l.length - i) : ℕ) : ℤ) % (l.length : ℤ)) := by
    rw [Nat.cast_add, Nat.cast_sub hi, show (m : ℤ) + ((l.length : ℤ) - i) = m - i + l.length by ring,
      Int.add_emod_right]
  rw [hz, Int.toNat_natCast, ← Int.natCast_emod, Int.toNat_natCast, Nat.mod_mod]

theorem rotPts_mod (p : List (K × K)) (k : ℕ) : rotPts p (k % p.length) = rotPts p k := by
  unfold rotPts
  apply List.map_congr_left
  intro i _
  apply ptAt_congr
  rw [Nat.add_mod_mod]

/-- The shift of the longer line is the best one. -/
theorem alignShift_best (s l : List (K × K)) (k : ℕ) :
    misfit s (rotPts l (alignShift false s l)) ≤ misfit s (rotPts l k) := by
  unfold alignShift
  simp only [Bool.false_eq_true, if_false]
  rcases Nat.eq_zero_or_pos l.length with hl | hl
  · rw [List.length_eq_zero_iff.1 hl]; exact le_rfl
  have hne : (List.range l.length).map (alignSum s l) ≠ [] := by
    intro h
    have := congrArg List.length h
    rw [List.length_map, List.length_range, List.length_nil] at this
    omega
  have ha := argmin_lt hne
  rw [List.length_map, List.length_range] at ha
  have get : ∀ i < l.length, ((List.range l.length).map (alignSum s l)).getD i 0 =
      misfit s (rotPts l (l.length - i)) := by
    intro i hi
    rw [List.getD_eq_getElem _ _ (by simpa using hi), List.getElem_map, List.getElem_range, alignSum_eq s l hi.le]
  rw [← get _ ha, ← rotPts_mod l k]
  have hk : k % l.length < l.length := Nat.mod_lt _ hl
  rcases Nat.eq_zero_or_pos (k % l.length) with h0 | h0
  · have h1 := argmin_le (l := (List.range l.length).map (alignSum s l)) 0 (by simpa using hl)
    rw [get 0 hl, Nat.sub_zero, ← rotPts_mod l l.length, Nat.mod_self] at h1
    rwa [h0]
  · have h1 := argmin_le (l := (List.range l.length).map (alignSum s l)) (l.length - k % l.length)
      (by rw [List.length_map, List.length_range]; omega)
    rw [get (l.length - k % l.length) (by omega), show l.length - (l.length - k % l.length) = k % l.length by omega] at h1
    exact h1

/-- The first of the two lines has less points, or it is the outer one. -/
def shorterOf (a b : RZLine K) : RZLine K × RZLine K := if a.pts.length < b.pts.length then (a, b) else (b, a)

theorem alignPair_pts {e : RzEnv K} {legacy : Bool} {s l s' l' : RZLine K} (hs : 0 < signedArea s.pts)
    (hl : 0 < signedArea l.pts) (h : alignPair e legacy s l = .ok (s', l')) :
    s'.pts = rotPts s.pts (argmax (s.pts.map Prod.fst)) ∧
    l'.pts = rotPts l.pts (alignShift legacy s'.pts l.pts) ∧
    RZLine.build e s'.pts none none = .ok s' ∧ RZLine.build e l'.pts none none = .ok l' := by
  unfold alignPair at h
  rw [roll_eq e s _ hs] at h
  cases h1 : RZLine.build e (rotPts s.pts (argmax (s.pts.map Prod.fst))) none none with
  | error x => rw [h1] at h; cases h
  | ok a =>
    rw [h1] at h
    simp only [Except.bind] at h
    rw [roll_eq e l _ hl] at h
    cases h2 : RZLine.build e (rotPts l.pts (alignShift legacy a.pts l.pts)) none none with
    | error x => rw [h2] at h; cases h
    | ok b =>
      rw [h2] at h
      injection h with h
      rw [Prod.mk.injEq] at h
      obtain ⟨rfl, rfl⟩ := h
      have e1 := (build_pts h1).1
      have e2 := (build_pts h2).1
      refine ⟨e1, e2, ?_, ?_⟩
      · rw [e1, h1]
      · rw [e2, h2]

theorem alignPair_outboard {e : RzEnv K} {legacy : Bool} {s l s' l' : RZLine K} (hs : 0 < signedArea s.pts)
    (hl : 0 < signedArea l.pts) (h : alignPair e legacy s l = .ok (s', l')) :
    (∃ k, s'.pts = rotPts s.pts k) ∧ (∃ k, l'.pts = rotPts l.pts k) ∧
    (∀ p ∈ s'.pts, p.1 ≤ (ptAt s'.pts 0).1) ∧
    (legacy = true → ∀ p ∈ l'.pts, p.1 ≤ (ptAt l'.pts 0).1) ∧
    (legacy = false → ∀ k, misfit s'.pts l'.pts ≤ misfit s'.pts (rotPts l'.pts k)) := by
  obtain ⟨e1, e2, -, -⟩ := alignPair_pts hs hl h
  have first : ∀ (p : List (K × K)), ∀ q ∈ rotPts p (argmax (p.map Prod.fst)),
      q.1 ≤ (ptAt (rotPts p (argmax (p.map Prod.fst))) 0).1 := by
    intro p q hq
    unfold rotPts at hq
    rw [List.mem_map] at hq
    obtain ⟨i, hi, rfl⟩ := hq
    rw [List.mem_range] at hi
    have hlen : 0 < p.length := by omega
    have hne : p.map Prod.fst ≠ [] := by
      intro hc
      have := congrArg List.length hc
      simp at this
      rw [this] at hlen
      simp at hlen
    have ha := argmax_lt hne
    rw [List.length_map] at ha
    rw [ptAt_rotPts, Nat.zero_add, ptAt_lt p ha]
    have hm : (i + argmax (p.map Prod.fst)) % p.length < p.length := Nat.mod_lt _ hlen
    have h3 := argmax_ge (l := p.map Prod.fst) (i := (i + argmax (p.map Prod.fst)) % p.length) (by simpa using hm)
    rw [List.getD_eq_getElem _ _ (by simpa using hm), List.getD_eq_getElem _ _ (by simpa using ha), List.getElem_map,
      List.getElem_map] at h3
    unfold ptAt
    rw [List.getD_eq_getElem _ _ hm, List.getD_eq_getElem _ _ ha]
    exact h3
  refine ⟨⟨_, e1⟩, ⟨_, e2⟩, ?_, ?_, ?_⟩
  · rw [e1]; exact first _
  · rintro rfl
    rw [e2]
    unfold alignShift
    rw [if_pos rfl]
    exact first _
  · rintro rfl k
    have hb := alignShift_best s'.pts l.pts (k + alignShift false s'.pts l.pts)
    have hr : rotPts l'.pts k = rotPts l.pts (k + alignShift false s'.pts l.pts) := by
      rw [e2]
      unfold rotPts
      apply List.ext_getElem (by simp)
      intro i h1 h2
      rw [List.getElem_map, List.getElem_map, List.getElem_range, List.getElem_range]
      have := ptAt_rotPts l.pts (alignShift false s'.pts l.pts) (i + k)
      unfold rotPts at this
      rw [this, Nat.add_assoc]
    rw [hr]
    rw [← e2] at hb
    exact hb

/-- **C235.** The alignment of two anticlockwise lines changes only where the numbering of the points
starts: the line with less points starts at a point with the greatest `R`, and the other one starts
so that no other start brings the points closer to those of the first, or, with `legacy_align`, at a
point with the greatest `R` as well. -/
theorem C235_points (e : RzEnv K) (legacy : Bool) (inner outer inner' outer' : RZLine K)
    (hi : 0 < signedArea inner.pts) (ho : 0 < signedArea outer.pts)
    (h : alignLines e legacy inner outer = .ok (inner', outer')) :
    (∃ k, inner'.pts = rotPts inner.pts k) ∧ (∃ k, outer'.pts = rotPts outer.pts k) ∧
    let s := (shorterOf inner' outer').1
    let l := (shorterOf inner' outer').2
    (∀ p ∈ s.pts, p.1 ≤ (ptAt s.pts 0).1) ∧
    (legacy = true → ∀ p ∈ l.pts, p.1 ≤ (ptAt l.pts 0).1) ∧
    (legacy = false → ∀ k, misfit s.pts l.pts ≤ misfit s.pts (rotPts l.pts k)) := by
  unfold alignLines at h
  by_cases hlt : inner.pts.length < outer.pts.length
  · rw [if_pos hlt] at h
    obtain ⟨⟨k1, a1⟩, ⟨k2, a2⟩, a3⟩ := alignPair_outboard hi ho h
    have hs : shorterOf inner' outer' = (inner', outer') := by
      unfold shorterOf
      rw [if_pos (by rw [a1, a2, rotPts_length, rotPts_length]; exact hlt)]
    rw [hs]
    exact ⟨⟨k1, a1⟩, ⟨k2, a2⟩, a3⟩
  · rw [if_neg hlt] at h
    cases h1 : alignPair e legacy outer inner with
    | error x => rw [h1] at h; cases h
    | ok q =>
      rw [h1] at h
      simp only [Except.bind] at h
      injection h with h
      rw [Prod.mk.injEq] at h
      obtain ⟨rfl, rfl⟩ := h
      obtain ⟨⟨k1, a1⟩, ⟨k2, a2⟩, a3⟩ := alignPair_outboard ho hi (s' := q.1) (l' := q.2) h1
      have hs : shorterOf q.2 q.1 = (q.1, q.2) := by
        unfold shorterOf
        rw [if_neg (by rw [a1, a2, rotPts_length, rotPts_length]; exact hlt)]
      rw [hs]
      exact ⟨⟨k2, a2⟩, ⟨k1, a1⟩, a3⟩

/-! ## C235: the curves -/

/-- A periodic spline through the values in the same order from number `k` on is the same function
of the angle, shifted. -/
def ShiftSplines (e : RzEnv K) : Prop :=
  ∀ (o : ℕ) (v : List K) (k : ℕ) (f : ℕ → K → K), e.splrep o none v = .ok f →
    ∃ g, e.splrep o none (rotVals v k) = .ok g ∧
      ∀ d t, g d (npRem t (2 * e.pi)) = f d (npRem (t + (k : K) * (2 * e.pi / (v.length : K))) (2 * e.pi))

/-- The second line is the first one with another origin of the angle. -/
def SameCurve (e : RzEnv K) (l l' : RZLine K) : Prop := ∃ s, ∀ t d, l'.value e.pi t d = l.value e.pi (t + s) d

/-- The line was made by `RZline(r, z)` without options. -/
def DefaultLine (e : RzEnv K) (l : RZLine K) : Prop := ∃ p, RZLine.ofPts e p true none none = .ok l

theorem DefaultLine.build {e : RzEnv K} {l : RZLine K} (h : DefaultLine e l) :
    0 < signedArea l.pts ∧ RZLine.build e l.pts none none = .ok l := by
  obtain ⟨p, hp⟩ := h
  have ha : signedArea p ≠ 0 := by
    intro ha
    rw [C54_zero e p none none ha] at hp
    cases hp
  have h1 := C54_anticlockwise e p none none l hp
  rw [C54_direction e p none none ha] at hp
  refine ⟨h1.1, ?_⟩
  have := (build_pts hp).1
  rw [this]
  exact hp

theorem roll_same (e : RzEnv K) (hs : ShiftSplines e) (l : RZLine K) (hl : DefaultLine e l) (k : ℕ) :
    ∃ l', l.roll e k = .ok l' ∧ l'.pts = rotPts l.pts k ∧ SameCurve e l l' := by
  obtain ⟨ha, hb⟩ := hl.build
  obtain ⟨-, hne, hr, hz⟩ := build_pts hb
  obtain ⟨g1, hg1, hg1'⟩ := hs _ _ k _ hr
  obtain ⟨g2, hg2, hg2'⟩ := hs _ _ k _ hz
  rw [← rotPts_fst] at hg1
  rw [← rotPts_snd] at hg2
  refine ⟨⟨rotPts l.pts k, splineOrder none, g1, g2⟩, ?_, rfl, (k : K) * (2 * e.pi / (l.pts.length : K)), fun t d => ?_⟩
  · rw [roll_eq e l k ha]
    unfold RZLine.build
    dsimp only
    rw [if_neg (by intro hc; apply hne; have := congrArg List.length hc; rw [rotPts_length] at this; exact List.length_eq_zero_iff.1 (by simpa using this))]
    simp only [Option.map_none] at hg1 hg2 ⊢
    rw [hg1, hg2]
    rfl
  · unfold RZLine.value
    dsimp only
    rw [hg1', hg2', List.length_map, List.length_map]

/-- **C235**, partial (both lines are made without options): the alignment succeeds, and both lines are
the same curves as before. -/
theorem C235_curve_partial (e : RzEnv K) (hs : ShiftSplines e) (legacy : Bool) (inner outer : RZLine K)
    (hi : DefaultLine e inner) (ho : DefaultLine e outer) :
    ∃ inner' outer', alignLines e legacy inner outer = .ok (inner', outer') ∧ SameCurve e inner inner' ∧
      SameCurve e outer outer' := by
  have pair : ∀ s l : RZLine K, DefaultLine e s → DefaultLine e l → ∃ s' l', alignPair e legacy s l = .ok (s', l') ∧
      SameCurve e s s' ∧ SameCurve e l l' := by
    intro s l h1 h2
    obtain ⟨s', hs', hp, hc⟩ := roll_same e hs s h1 (argmax (s.pts.map Prod.fst))
    obtain ⟨l', hl', hp2, hc2⟩ := roll_same e hs l h2 (alignShift legacy s'.pts l.pts)
    refine ⟨s', l', ?_, hc, hc2⟩
    unfold alignPair
    rw [hs']
    simp only [Except.bind]
    rw [hl']
  unfold alignLines
  by_cases hlt : inner.pts.length < outer.pts.length
  · rw [if_pos hlt]
    exact pair inner outer hi ho
  · rw [if_neg hlt]
    obtain ⟨s', l', h, h1, h2⟩ := pair outer inner ho hi
    exact ⟨l', s', by rw [h]; rfl, h2, h1⟩

/-- The boundary rows of the grid lie on the two lines. -/
def OnLines (e : RzEnv K) (inner outer : RZLine K) (nx nz nxo nxi : ℕ) (g : Arr2 K × Arr2 K) : Prop :=
  ∀ j < nz, (∃ t, inner.value e.pi t 0 = (g.1 nxi j, g.2 nxi j)) ∧
    ∃ t, outer.value e.pi t 0 = (g.1 (nx - nxo - 1) j, g.2 (nx - nxo - 1) j)

/-- **C235**, the claim: for all lines, however they were made. -/
def RowsOnLines (e : RzEnv K) (spline : List K → List K → Arr2 K → K → K → K) : Prop :=
  ∀ (t : OrtOpts K) (o : EllOpts K) (align legacy : Bool) (fuel : ℕ) (inner outer : RZLine K) (nx nz nxo nxi : ℕ)
    (g : Arr2 K × Arr2 K),
    (∃ p b order smooth, RZLine.ofPts e p b order smooth = .ok inner) →
    (∃ p b order smooth, RZLine.ofPts e p b order smooth = .ok outer) →
    gridEllipticLines e spline t o align legacy fuel inner outer nx nz nxo nxi = .ok g →
    OnLines e inner outer nx nz nxo nxi g

theorem lines_of_ok {e : RzEnv K} {spline : List K → List K → Arr2 K → K → K → K} {t : OrtOpts K} {o : EllOpts K}
    {align legacy : Bool} {fuel : ℕ} {inner outer : RZLine K} {nx nz nxo nxi : ℕ} {g : Arr2 K × Arr2 K}
    (h : gridEllipticLines e spline t o align legacy fuel inner outer nx nz nxo nxi = .ok g) :
    ∃ q, (if align && !o.innerOrt then alignLines e legacy inner outer else .ok (inner, outer)) = .ok q ∧
      OnLines e q.1 q.2 nx nz nxo nxi g := by
  unfold gridEllipticLines at h
  split at h
  · cases h
  split at h
  · cases h
  split at h
  · cases h
  split at h
  · cases h
  cases hq : (if align && !o.innerOrt then alignLines e legacy inner outer else .ok (inner, outer)) with
  | error x => rw [hq] at h; cases h
  | ok q =>
    rw [hq] at h
    simp only [Except.bind] at h
    refine ⟨q, rfl, fun j hj => ?_⟩
    obtain ⟨-, -, ti, -, hv⟩ := C51_rows (ellEnvOf e spline t q.1) o false fuel (q.1.fn e) (q.2.fn e) nx nz nxo nxi
      g.1 g.2 h
    obtain ⟨⟨a1, a2⟩, ⟨a3, a4⟩, -⟩ := hv j hj
    exact ⟨⟨ti.getD j 0, Prod.ext a1.symm a2.symm⟩, ⟨2 * e.pi * j / nz, Prod.ext a3.symm a4.symm⟩⟩

/-- **C235**, partial (lines made without options, if they are aligned): the boundary rows of the grid are
on the given lines. -/
theorem C235_rows_partial (e : RzEnv K) (hs : ShiftSplines e) (spline : List K → List K → Arr2 K → K → K → K)
    (t : OrtOpts K) (o : EllOpts K) (align legacy : Bool) (fuel : ℕ) (inner outer : RZLine K) (nx nz nxo nxi : ℕ)
    (g : Arr2 K × Arr2 K) (hd : (align && !o.innerOrt) = true → DefaultLine e inner ∧ DefaultLine e outer)
    (h : gridEllipticLines e spline t o align legacy fuel inner outer nx nz nxo nxi = .ok g) :
    OnLines e inner outer nx nz nxo nxi g := by
  obtain ⟨q, hq, hl⟩ := lines_of_ok h
  by_cases ha : (align && !o.innerOrt) = true
  · rw [if_pos ha] at hq
    obtain ⟨i', o', h1, ⟨s1, h2⟩, s2, h3⟩ := C235_curve_partial e hs legacy inner outer (hd ha).1 (hd ha).2
    rw [h1] at hq
    injection hq with hq
    subst hq
    intro j hj
    obtain ⟨⟨t1, a1⟩, t2, a2⟩ := hl j hj
    exact ⟨⟨t1 + s1, by rw [← h2]; exact a1⟩, t2 + s2, by rw [← h3]; exact a2⟩
  · rw [if_neg ha] at hq
    injection hq with hq
    subst hq
    exact hl

/-- **C235.** For lines that go clockwise (`anticlockwise=False`) the alignment misses the outboard point: the
new line is turned round after the roll, and the point with the greatest `R` is the last one. -/
theorem C235_clockwise (e : RzEnv K) (l l' : RZLine K) (ha : signedArea l.pts < 0)
    (h : l.roll e (argmax (l.pts.map Prod.fst)) = .ok l') :
    ∀ p ∈ l.pts, p.1 ≤ (ptAt l'.pts (l'.pts.length - 1)).1 := by
  have hne : l.pts ≠ [] := by
    intro hc
    rw [hc] at ha
    simp [signedArea] at ha
  have hlen : 0 < l.pts.length := List.length_pos_iff.2 hne
  unfold RZLine.roll at h
  rw [C54_direction e _ none none (by rw [signedArea_rotPts]; exact ha.ne), signedArea_rotPts,
    if_neg (not_lt.2 ha.le)] at h
  have hp := (build_pts h).1
  intro p hm
  rw [hp, List.length_reverse, rotPts_length, ptAt_reverse _ (by rw [rotPts_length]; omega), rotPts_length,
    Nat.sub_self, ptAt_rotPts, Nat.zero_add]
  have hak : argmax (l.pts.map Prod.fst) < l.pts.length := by
    simpa using argmax_lt (l := l.pts.map Prod.fst) (by simpa using hne)
  obtain ⟨i, hi, rfl⟩ := List.mem_iff_getElem.1 hm
  rw [ptAt_lt _ hak, List.getD_eq_getElem _ _ hak]
  have := argmax_ge (l := l.pts.map Prod.fst) (i := i) (by simpa using hi)
  rw [List.getD_eq_getElem _ _ (by simpa using hi), List.getD_eq_getElem _ _ (by simpa using hak), List.getElem_map,
    List.getElem_map] at this
  exact this

/-! ## Four points -/

/-- Number `i`, modulo 4. -/
def val4 (v : List ℝ) (i : ℤ) : ℝ := v.getD (i % 4).toNat 0

/-- The second derivative, for unit spacing, of the periodic cubic spline through four values: the solution
of `M(i-1) + 4 M(i) + M(i+1) = 6 (v(i-1) - 2 v(i) + v(i+1))`. -/
noncomputable def curv4 (v : List ℝ) (i : ℤ) : ℝ :=
  let d := fun j => val4 v (j - 1) - 2 * val4 v j + val4 v (j + 1)
  6 * (7 / 24 * d i - 1 / 12 * d (i + 1) + 1 / 24 * d (i + 2) - 1 / 12 * d (i + 3))

theorem curv4_system (v : List ℝ) (i : ℤ) : curv4 v (i - 1) + 4 * curv4 v i + curv4 v (i + 1) =
    6 * (val4 v (i - 1) - 2 * val4 v i + val4 v (i + 1)) := by
  have p : ∀ j : ℤ, val4 v (j + 4) = val4 v j := by
    intro j; unfold val4; rw [Int.add_emod_right]
  have h1 := p (i - 2)
  have h2 := p (i - 1)
  have h3 := p i
  have h4 := p (i + 1)
  have h5 := p (i - 3)
  unfold curv4
  simp only [show i - 1 - 1 = i - 2 by ring, show i - 1 + 1 = i by ring, show i - 1 + 1 + 1 = i + 1 by ring,
    show i - 1 + 2 = i + 1 by ring, show i - 1 + 2 - 1 = i by ring, show i - 1 + 2 + 1 = i + 2 by ring,
    show i - 1 + 3 = i + 2 by ring, show i - 1 + 3 - 1 = i + 1 by ring, show i - 1 + 3 + 1 = i + 3 by ring,
    show i + 1 - 1 = i by ring, show i + 1 + 1 = i + 2 by ring, show i + 2 - 1 = i + 1 by ring,
    show i + 2 + 1 = i + 3 by ring, show i + 3 - 1 = i + 2 by ring, show i + 3 + 1 = i + 4 by ring,
    show i + 1 + 2 = i + 3 by ring, show i + 1 + 3 = i + 4 by ring, show i + 4 - 1 = i + 3 by ring,
    show i + 4 + 1 = i + 5 by ring]
  simp only [show i - 2 + 4 = i + 2 by ring, show i - 1 + 4 = i + 3 by ring, show i + 1 + 4 = i + 5 by ring] at h1 h2 h3 h4
  rw [h1, h2, h3, h4]
  ring

/-- The splines through four values: straight pieces for order 1, else the cubic one.  `u` counts the values. -/
noncomputable def spline4 (order : ℕ) (v : List ℝ) (u : ℝ) : ℝ :=
  let i := ⌊u⌋
  let f := u - (i : ℝ)
  let line := (1 - f) * val4 v i + f * val4 v (i + 1)
  if order = 1 then line
  else line + (((1 - f) ^ 3 - (1 - f)) * curv4 v i + (f ^ 3 - f) * curv4 v (i + 1)) / 6

/-- scipy for lines of four points; derivatives are not used here. -/
noncomputable def env4 : RzEnv ℝ :=
  ⟨Real.pi, Real.sqrt, fun o _ v => if v.length = 4 then .ok fun d t => if d = 0 then spline4 o v (t / (Real.pi / 2)) else 0
    else .error (.type "m > k must hold")⟩

theorem val4_rot (v : List ℝ) (hv : v.length = 4) (k : ℕ) (i : ℤ) : val4 (rotVals v k) i = val4 v (i + k) := by
  unfold val4 rotVals
  have h0 : (i % 4).toNat < 4 := by omega
  rw [List.getD_eq_getElem _ _ (by simp only [List.length_map, List.length_range, hv]; exact h0), List.getElem_map,
    List.getElem_range, hv]
  congr 1
  omega

theorem spline4_rot (o : ℕ) (v : List ℝ) (hv : v.length = 4) (k : ℕ) (u : ℝ) :
    spline4 o (rotVals v k) u = spline4 o v (u + k) := by
  have hc : ∀ i, curv4 (rotVals v k) i = curv4 v (i + k) := by
    intro i
    unfold curv4
    simp only [val4_rot v hv]
    congr 1
    have e : ∀ a b : ℤ, a + b + k = a + k + b := fun a b => by ring
    have e' : ∀ a b : ℤ, a - b + k = a + k - b := fun a b => by ring
    simp only [e, e']
  unfold spline4
  simp only [val4_rot v hv, hc]
  have hf : ⌊u + (k : ℝ)⌋ = ⌊u⌋ + (k : ℤ) := Int.floor_add_natCast u k
  rw [hf]
  have e : (⌊u⌋ + 1 + (k : ℤ)) = ⌊u⌋ + k + 1 := by ring
  have e2 : u + (k : ℝ) - ((⌊u⌋ + (k : ℤ) : ℤ) : ℝ) = u - (⌊u⌋ : ℝ) := by push_cast; ring
  rw [e, e2]

theorem spline4_periodic (o : ℕ) (v : List ℝ) (m : ℤ) (u : ℝ) : spline4 o v (u - 4 * (m : ℝ)) = spline4 o v u := by
  have hv : ∀ i j : ℤ, i % 4 = j % 4 → val4 v i = val4 v j := by
    intro i j h; unfold val4; rw [h]
  have hc : ∀ i j : ℤ, i % 4 = j % 4 → curv4 v i = curv4 v j := by
    intro i j h
    unfold curv4
    dsimp only
    rw [hv (i - 1) (j - 1) (by omega), hv i j h, hv (i + 1) (j + 1) (by omega), hv (i + 1 - 1) (j + 1 - 1) (by omega),
      hv (i + 1 + 1) (j + 1 + 1) (by omega), hv (i + 2 - 1) (j + 2 - 1) (by omega), hv (i + 2) (j + 2) (by omega),
      hv (i + 2 + 1) (j + 2 + 1) (by omega), hv (i + 3 - 1) (j + 3 - 1) (by omega), hv (i + 3) (j + 3) (by omega),
      hv (i + 3 + 1) (j + 3 + 1) (by omega)]
  have hf : ⌊u - 4 * (m : ℝ)⌋ = ⌊u⌋ - 4 * m := by
    have := Int.floor_sub_intCast u (4 * m)
    push_cast at this
    exact this
  unfold spline4
  dsimp only
  rw [hf, hv (⌊u⌋ - 4 * m) ⌊u⌋ (by omega), hv (⌊u⌋ - 4 * m + 1) (⌊u⌋ + 1) (by omega), hc (⌊u⌋ - 4 * m) ⌊u⌋ (by omega),
    hc (⌊u⌋ - 4 * m + 1) (⌊u⌋ + 1) (by omega)]
  have e2 : u - 4 * (m : ℝ) - ((⌊u⌋ - 4 * m : ℤ) : ℝ) = u - (⌊u⌋ : ℝ) := by push_cast; ring
  rw [e2]

theorem npRem_div4 (t : ℝ) : ∃ m : ℤ, npRem t (2 * Real.pi) / (Real.pi / 2) = t / (Real.pi / 2) - 4 * (m : ℝ) := by
  refine ⟨⌊t / (2 * Real.pi)⌋, ?_⟩
  unfold npRem
  have := Real.pi_ne_zero
  field_simp
  ring

/-- The splines of `env4` are periodic. -/
theorem env4_shift : ShiftSplines env4 := by
  intro o v k f h
  by_cases hv : v.length = 4
  · have hf : f = fun d t => if d = 0 then spline4 o v (t / (Real.pi / 2)) else 0 := by
      unfold env4 at h
      simp only [if_pos hv] at h
      injection h with h
      exact h.symm
    refine ⟨fun d t => if d = 0 then spline4 o (rotVals v k) (t / (Real.pi / 2)) else 0, ?_, fun d t => ?_⟩
    · unfold env4
      simp only
      rw [if_pos (by simp [rotVals, hv])]
    · rw [hf]
      dsimp only
      by_cases hd : d = 0
      · rw [if_pos hd, if_pos hd]
        change spline4 o (rotVals v k) (npRem t (2 * Real.pi) / (Real.pi / 2)) =
          spline4 o v (npRem (t + (k : ℝ) * (2 * Real.pi / (v.length : ℝ))) (2 * Real.pi) / (Real.pi / 2))
        obtain ⟨m1, h1⟩ := npRem_div4 t
        obtain ⟨m2, h2⟩ := npRem_div4 (t + (k : ℝ) * (2 * Real.pi / (v.length : ℝ)))
        rw [h1, h2, spline4_rot o v hv, spline4_periodic,
          show t / (Real.pi / 2) - 4 * (m1 : ℝ) + (k : ℝ) = t / (Real.pi / 2) + k - 4 * (m1 : ℝ) by ring, spline4_periodic, hv]
        congr 1
        have := Real.pi_ne_zero
        push_cast
        field_simp
        ring
      · rw [if_neg hd, if_neg hd]
  · unfold env4 at h
    simp only [if_neg hv] at h
    cases h

/-- A square, standing on a corner. -/
def diamond (r : ℝ) : List (ℝ × ℝ) := [(r, 0), (0, r), (-r, 0), (0, -r)]

theorem diamond_area (r : ℝ) : signedArea (diamond r) = 2 * r ^ 2 := by
  unfold signedArea diamond
  simp only [List.length_cons, List.length_nil, Finset.sum_range_succ, Finset.sum_range_zero]
  norm_num
  ring

/-- The line through the corners, with pieces of order `o`. -/
noncomputable def diamondLine (o : ℕ) (r : ℝ) : RZLine ℝ :=
  ⟨diamond r, o, fun d t => if d = 0 then spline4 o [r, 0, -r, 0] (t / (Real.pi / 2)) else 0,
    fun d t => if d = 0 then spline4 o [0, r, 0, -r] (t / (Real.pi / 2)) else 0⟩

theorem diamondLine_ofPts (order : Option ℕ) {r : ℝ} (hr : 0 < r) :
    RZLine.ofPts env4 (diamond r) true order none = .ok (diamondLine (splineOrder order) r) := by
  have ha := diamond_area r
  have hp : 0 < 2 * r ^ 2 := by positivity
  rw [C54_direction env4 _ order none (by rw [ha]; exact hp.ne'), ha, if_pos hp]
  rfl

/-- A line with straight pieces stays inside the square. -/
theorem diamond_straight {r : ℝ} (hr : 0 < r) (t : ℝ) :
    ((diamondLine 1 r).value Real.pi t 0).1 + ((diamondLine 1 r).value Real.pi t 0).2 ≤ r := by
  unfold RZLine.value diamondLine
  dsimp only
  rw [if_pos rfl, if_pos rfl]
  generalize npRem t (2 * Real.pi) / (Real.pi / 2) = u
  unfold spline4
  dsimp only
  rw [if_pos rfl, if_pos rfl]
  have h0 : 0 ≤ u - (⌊u⌋ : ℝ) := sub_nonneg.2 (Int.floor_le u)
  have h1 : u - (⌊u⌋ : ℝ) < 1 := by linarith [Int.lt_floor_add_one u]
  generalize u - (⌊u⌋ : ℝ) = f at h0 h1
  generalize ⌊u⌋ = i
  have key : ∀ i : ℤ, val4 [r, 0, -r, 0] i + val4 [0, r, 0, -r] i ≤ r := by
    intro i
    unfold val4
    have : (i % 4).toNat = 0 ∨ (i % 4).toNat = 1 ∨ (i % 4).toNat = 2 ∨ (i % 4).toNat = 3 := by omega
    rcases this with h | h | h | h <;> rw [h] <;> norm_num <;> linarith
  nlinarith [key i, key (i + 1)]

/-- The spline through the corners goes out of the square. -/
theorem diamond_bulge (r : ℝ) : (diamondLine 3 r).value Real.pi (Real.pi / 4) 0 = (11 / 16 * r, 11 / 16 * r) := by
  have hpi := Real.pi_pos
  have hrem : npRem (Real.pi / 4) (2 * Real.pi) / (Real.pi / 2) = 1 / 2 := by
    have hf : ⌊Real.pi / 4 / (2 * Real.pi)⌋ = 0 := by
      have : Real.pi / 4 / (2 * Real.pi) = 1 / 8 := by field_simp; norm_num
      rw [this]; norm_num
    unfold npRem
    rw [hf]
    field_simp
    norm_num
  have hfl : ⌊(1 / 2 : ℝ)⌋ = 0 := by norm_num
  unfold RZLine.value diamondLine
  dsimp only
  rw [if_pos rfl, if_pos rfl, hrem]
  unfold spline4
  simp only [hfl]
  rw [if_neg (by norm_num), if_neg (by norm_num)]
  unfold curv4 val4
  ext <;> norm_num [show Int.toNat 3 = 3 from rfl, show Int.toNat 2 = 2 from rfl] <;> ring

/-- **C235** fails: with `spline_order=1` the lines are squares, and the grid has points outside the outer
one, since the alignment makes cubic splines of the lines. -/
theorem C235_fails (spline : List ℝ → List ℝ → Arr2 ℝ → ℝ → ℝ → ℝ) : ¬ RowsOnLines env4 spline := by
  intro h
  have shift0 : ∀ r : ℝ, 0 < r → argmax ((diamond r).map Prod.fst) = 0 := by
    intro r hr
    unfold diamond
    simp [argmax, hr.le]
  have rot0 : ∀ r : ℝ, rotPts (diamond r) 0 = diamond r := by
    intro r
    simp [rotPts, diamond, ptAt, List.range_succ]
  have roll0 : ∀ r : ℝ, 0 < r → (diamondLine 1 r).roll env4 0 = .ok (diamondLine 3 r) := by
    intro r hr
    unfold RZLine.roll
    change RZLine.ofPts env4 (rotPts (diamond r) 0) true none none = _
    rw [rot0, diamondLine_ofPts none hr]
    rfl
  have hal : alignLines env4 true (diamondLine 1 1) (diamondLine 1 2) = .ok (diamondLine 3 1, diamondLine 3 2) := by
    unfold alignLines
    rw [if_neg (by simp [diamondLine, diamond])]
    unfold alignPair alignShift
    change (((diamondLine 1 2).roll env4 (argmax ((diamond 2).map Prod.fst))).bind _).bind _ = _
    rw [shift0 2 (by norm_num), roll0 2 (by norm_num)]
    have h1 : argmax (List.map Prod.fst (diamondLine 1 1).pts) = 0 := shift0 1 (by norm_num)
    simp only [Except.bind, if_true]
    rw [h1, roll0 1 (by norm_num)]
  let o : EllOpts ℝ := ⟨1, 20, 2, false, 1⟩
  let t : OrtOpts ℝ := ⟨none, none, 0⟩
  have hg : ∃ g, gridEllipticLines env4 spline t o true true 1 (diamondLine 1 1) (diamondLine 1 2) (2 : ℕ) (8 : ℕ)
      (0 : ℕ) (0 : ℕ) = .ok g := by
    unfold gridEllipticLines
    rw [if_neg (by norm_num), if_neg (by norm_num), if_neg (by norm_num), if_neg (by norm_num)]
    rw [if_pos (by rfl), hal]
    simp only [Except.bind]
    unfold gridElliptic
    rw [if_neg (by norm_num), if_neg (by norm_num)]
    simp only [Bool.false_and, Bool.false_eq_true, if_false]
    have e1 : ((2 : ℕ) : ℤ) - ((0 : ℕ) : ℤ) - ((0 : ℕ) : ℤ) = (2 : ℕ) := by norm_num
    rw [e1, Int.toNat_natCast, Int.toNat_natCast]
    unfold ellCore
    rw [if_neg (by norm_num), if_neg (by norm_num), if_neg (by simp [o])]
    unfold ellDirect ellInnerTheta
    simp only [o, Bool.false_eq_true, if_false, bind, Except.bind, pure, Except.pure]
    unfold ellSolve
    rw [show max (max 2 8 * 10) 300 = 299 + 1 by norm_num]
    unfold ellLoop ellSweep
    simp only [show 2 - 2 = 0 by rfl, List.range_zero, List.all_nil, if_true, bind, Except.bind]
    rw [if_pos]
    · exact ⟨_, rfl⟩
    · rw [List.all_eq_true]
      intro i hi
      rw [List.all_eq_true]
      intro j _
      rw [List.mem_range] at hi
      rw [decide_eq_true_eq, if_neg (by omega), if_neg (by omega), sub_self, sub_self]
      norm_num
  obtain ⟨g, hg⟩ := hg
  have hon := h t o true true 1 (diamondLine 1 1) (diamondLine 1 2) 2 8 0 0 g
    ⟨diamond 1, true, some 1, none, diamondLine_ofPts (some 1) (by norm_num)⟩
    ⟨diamond 2, true, some 1, none, diamondLine_ofPts (some 1) (by norm_num)⟩ hg
  obtain ⟨-, s, hs⟩ := hon 1 (by norm_num)
  have hrow : (g.1 1 1, g.2 1 1) = (11 / 16 * 2, 11 / 16 * 2) := by
    unfold gridEllipticLines at hg
    rw [if_neg (by norm_num), if_neg (by norm_num), if_neg (by norm_num), if_neg (by norm_num)] at hg
    rw [if_pos (by rfl), hal] at hg
    obtain ⟨-, -, ti, -, hv⟩ := C51_rows (ellEnvOf env4 spline t (diamondLine 3 1)) o false 1 ((diamondLine 3 1).fn env4)
      ((diamondLine 3 2).fn env4) 2 8 0 0 g.1 g.2 hg
    obtain ⟨-, ⟨a3, a4⟩, -⟩ := hv 1 (by norm_num)
    have hb := diamond_bulge 2
    have hang : 2 * (ellEnvOf env4 spline t (diamondLine 3 1)).pi * ((1 : ℕ) : ℝ) / ((8 : ℕ) : ℝ) = Real.pi / 4 := by
      change 2 * Real.pi * ((1 : ℕ) : ℝ) / ((8 : ℕ) : ℝ) = Real.pi / 4
      push_cast
      ring
    rw [hang] at a3 a4
    rw [← hb]
    exact Prod.ext a3 a4
  change (diamondLine 1 2).value Real.pi s 0 = (g.1 1 1, g.2 1 1) at hs
  rw [hrow] at hs
  have hd := diamond_straight (r := 2) (by norm_num) s
  rw [hs] at hd
  norm_num at hd

/-- The hypotheses of the theorems can be met: two lines through the corners of squares. -/
example : ∃ inner' outer', alignLines env4 false (diamondLine 3 1) (diamondLine 3 2) = .ok (inner', outer') ∧
    SameCurve env4 (diamondLine 3 1) inner' ∧ SameCurve env4 (diamondLine 3 2) outer' :=
  C235_curve_partial env4 env4_shift false _ _ ⟨diamond 1, diamondLine_ofPts none (by norm_num)⟩
    ⟨diamond 2, diamondLine_ofPts none (by norm_num)⟩

/-- The square turned the other way round. -/
example : signedArea (diamond 1).reverse < 0 := by
  rw [signedArea_reverse, diamond_area]; norm_num

end Zoidberg
