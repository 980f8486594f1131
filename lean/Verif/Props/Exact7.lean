import Verif.Props.YIndex
import Verif.Props.InPlace
import Verif.Props.FieldData
import Verif.Props.FieldMore
import Verif.Props.ParCoords
import Mathlib.Tactic.FieldSimp
import Mathlib.Tactic.LinearCombination

/-!
# Exact conditions for C71, C82, C100, C147, C178 and C248
-/

set_option linter.unusedSectionVars false

namespace Zoidberg

/-! ### C248 -/

section
variable {K : Type} [Field K] [LinearOrder K] [IsStrictOrderedRing K] [FloorRing K]

/-- The result of the tracer is determined by the grid. -/
theorem TracedTo.unique {e : MmEnv K} {offsets : List K} {j i : ℕ} {a b : ℕ → ℕ → K × K} (ha : TracedTo e offsets j i a) (hb : TracedTo e offsets j i b) :
    a = b := by
  obtain ⟨f, y0, p, y, ys, h1, h2, h3, h4, h5⟩ := ha
  obtain ⟨f', y0', p', y', ys', k1, k2, k3, k4, k5⟩ := hb
  rw [h1] at k1
  injection k1 with k1
  injection k1 with k1 _
  injection k1 with k1
  rw [h2] at k2
  injection k2 with k2
  injection k2 with k2 k2'
  injection k2 with k2
  subst k1 k2 k2'
  have : ys = ys' := by
    apply List.ext_getElem?
    intro k
    cases ho : offsets[k]? with
    | none =>
      rw [List.getElem?_eq_none_iff] at ho
      rw [List.getElem?_eq_none (by omega), List.getElem?_eq_none (by omega)]
    | some o =>
      obtain ⟨t, yt, g1, g2⟩ := h4 k o ho
      obtain ⟨t', yt', g1', g2'⟩ := k4 k o ho
      rw [g1] at g1'
      injection g1' with g1'
      injection g1' with _ g1'
      rw [g2, g2', g1']
  rw [this, k5] at h5
  injection h5 with h5
  exact h5.symm

/-- **C248**, the exact condition: all slices are compared with the boundary at their own y exactly if, at the end of every field line that has a target plane, the
boundary at the y of the farthest slice gives the same answer, or the index of the end is -1 in any case. -/
theorem C248_iff (e : MmEnv K) (hf : FollowOk e) (nslice mxg n r nc : ℕ) (empty : JState K)
    (m : ODict (MapVal K)) (h : makeMaps e nslice mxg n r nc empty = .ok m) :
    OwnY e nslice m ↔ ∀ d : ℤ, d ≠ 0 → d.natAbs ≤ nslice → ∀ j < e.grid.ny, ∀ coord p yt far yfar,
      TracedTo e (offsetValues nslice d.sign) j d.natAbs coord →
      e.grid.getPoloidalGrid ((j : K) + (d : K)) = .ok (some p, yt) →
      e.grid.getPoloidalGrid ((j : K) + ((d.sign * (nslice : ℤ) : ℤ) : K)) = .ok (far, yfar) →
      ∀ x z, e.outside (coord x z).1 yfar (coord x z).2 = e.outside (coord x z).1 yt (coord x z).2 ∨
        p.findIndex (fun x z => (coord x z).1) (fun x z => (coord x z).2) x z = (-1, -1) := by
  constructor
  · intro hown d hd0 hd j hj coord p yt far yfar ht h1 h2 x z
    obtain ⟨xt, zt, a1, a2, a3⟩ := C248_actual e hf nslice mxg n r nc empty m h d hd0 hd
    obtain ⟨xt', zt', b1, b2, b3⟩ := hown d hd0 hd
    rw [a1] at b1
    injection b1 with b1
    injection b1 with b1
    rw [a2] at b2
    injection b2 with b2
    injection b2 with b2
    subst b1 b2
    obtain ⟨c, t, y1, f, y2, g1, g2, g3, g4⟩ := a3 j hj
    obtain ⟨c', t', y1', g1', g2', g4'⟩ := b3 j hj
    have := g1.unique ht
    subst this
    have := g1'.unique ht
    subst this
    rw [h1] at g2 g2'
    rw [h2] at g3
    injection g2 with g2
    injection g2 with g2 g2b
    injection g2' with g2'
    injection g2' with g2' g2b'
    injection g3 with g3
    injection g3 with g3 g3b
    subst g2 g2b g2' g2b' g3 g3b
    have k1 := g4 x z
    have k2 := g4' x z
    rw [k1] at k2
    simp only at k2
    cases hA : e.outside (c' x z).1 yfar (c' x z).2 <;> cases hB : e.outside (c' x z).1 yt (c' x z).2 <;> rw [hA, hB] at k2 <;> simp at k2 ⊢
    · exact k2
    · exact k2.symm
  · intro hc d hd0 hd
    obtain ⟨xt, zt, a1, a2, a3⟩ := C248_actual e hf nslice mxg n r nc empty m h d hd0 hd
    refine ⟨xt, zt, a1, a2, fun j hj => ?_⟩
    obtain ⟨c, t, y1, f, y2, g1, g2, g3, g4⟩ := a3 j hj
    refine ⟨c, t, y1, g1, g2, fun x z => ?_⟩
    rw [g4 x z]
    cases t with
    | none => rfl
    | some p =>
      simp only
      rcases hc d hd0 hd j hj c p y1 f y2 g1 g2 g3 x z with k | k
      · rw [k]
      · rw [k]; simp

example (empty : JState ℚ) : ∃ m, FollowOk wallMm ∧ makeMaps wallMm 2 1 2 1 3 empty = .ok m := by
  obtain ⟨m, h⟩ := wallMm_succeeds 2 1 2 1 3 (by norm_num) (by norm_num) (by norm_num) empty
  exact ⟨m, exMm_follow [0, 1, 2] false false, h⟩

/-! ### C71 -/

theorem zip_unzip_iff : ∀ (l : List (K × K)) (x z : List K), x.length = z.length → ((l.map Prod.fst = x ∧ l.map Prod.snd = z) ↔ l = x.zip z)
  | [], [], [], _ => by simp
  | [], a :: x, b :: z, _ => by simp
  | p :: l, [], [], _ => by simp
  | p :: l, a :: x, b :: z, h => by
    have ih := zip_unzip_iff l x z (by simpa using h)
    simp only [List.map_cons, List.cons.injEq, List.zip_cons_cons]
    rw [← ih, Prod.ext_iff]
    tauto
  | _, [], _ :: _, h => by simp at h
  | _, _ :: _, [], h => by simp at h

/-- **C71**, the exact condition: two arrays of the same shape are unchanged exactly if the lines end where they start. -/
theorem C71_iff (dir : List (K × K) → K → Except Err (List (K × K))) (rtol eps : K) (nsteps fuel : ℕ) (x z y : FArr K) (gx gz : Given) (same : Bool)
    (hx : gx.isArray = true) (hz : gz.isArray = true) (hsh : x.atleast1d.shape = z.atleast1d.shape) (hlen : x.data.length = z.data.length) (r : RevResult K)
    (h : followReversible dir rtol eps nsteps fuel x z y gx gz same = .ok r) :
    ∃ (rows : List (List (K × K))) (last : List (K × K)), r.result.data = rows.flatMap interleave ∧ rows.getLast? = some last ∧
      ((r.xAfter = x.data ∧ r.zAfter = z.data) ↔ last = x.data.zip z.data) := by
  obtain ⟨rows, last, h1, h2, h3, h4⟩ := C260_arrays_after dir rtol eps nsteps fuel x z y gx gz same hx hz hsh r h
  refine ⟨rows, last, h1, h2, ?_⟩
  rw [h3, h4]
  exact zip_unzip_iff _ _ _ hlen

example : (followReversible (K := ℚ) (fun p _ => .ok (p.map fun _ => (1, 0))) 1 1 1 5 ⟨[1], [0]⟩ ⟨[1], [0]⟩ ⟨[2], [0, 1]⟩ ⟨true, false⟩ ⟨true, false⟩ false).toBool = true := by
  decide +kernel

/-! ### C100 -/

/-- The distance from the plane before plane `i` to plane `i`, across the end of the period for `i = 0`. -/
def gapBefore (y : List K) (Ly : K) (i : ℕ) : K :=
  if i = 0 then y.getD 0 0 + Ly - y.getD (y.length - 1) 0 else y.getD i 0 - y.getD (i - 1) 0

theorem mean_slice (y : List K) (Ly : K) (hn : 2 ≤ y.length) (offset : ℤ) :
    meanDiff ((List.range y.length).map (sliceCoord y Ly offset)) =
      (Ly - gapBefore y Ly (offset % (y.length : ℤ)).toNat) / ((y.length - 1 : ℕ) : K) := by
  rw [meanDiff_eq]
  have hl : ((List.range y.length).map (sliceCoord y Ly offset)).length = y.length := by simp
  have hg : ∀ i < y.length, ((List.range y.length).map (sliceCoord y Ly offset)).getD i 0 = sliceCoord y Ly offset i := by
    intro i hi
    rw [List.getD_eq_getElem _ _ (by simpa using hi)]
    simp
  rw [hl, hg _ (by omega), hg _ (by omega)]
  congr 1
  have c0 : sliceCoord y Ly offset 0 = y.getD (offset % (y.length : ℤ)).toNat 0 := by
    unfold sliceCoord
    simp
  have hm0 := Int.emod_nonneg offset (show (y.length : ℤ) ≠ 0 by omega)
  have hm1 := Int.emod_lt_of_pos offset (show (0 : ℤ) < (y.length : ℤ) by omega)
  rw [c0]
  unfold sliceCoord gapBefore
  rcases wraps y.length offset (y.length - 1) (by omega) with ⟨a, b⟩ | ⟨a, b⟩
  · rw [a, b]
    have hb := Int.emod_lt_of_pos (((y.length - 1 : ℕ) : ℤ) + offset) (show (0 : ℤ) < (y.length : ℤ) by omega)
    have hz : offset % (y.length : ℤ) = 0 := by omega
    rw [hz]
    simp
    ring
  · rw [a, b]
    have hb := Int.emod_nonneg (((y.length - 1 : ℕ) : ℤ) + offset) (show (y.length : ℤ) ≠ 0 by omega)
    have hz : (offset % (y.length : ℤ)).toNat ≠ 0 := by omega
    rw [if_neg hz]
    have hk : (offset % (y.length : ℤ) + ((y.length - 1 : ℕ) : ℤ) - (y.length : ℤ)).toNat = (offset % (y.length : ℤ)).toNat - 1 := by omega
    rw [hk]
    push_cast
    ring

/-- **C100**, the exact condition: a slice of a grid with increasing planes gets its coordinates exactly if the gap in front of the first plane of the slice differs from the
gap at the end of the period by no more than the tolerance. -/
theorem C100_iff {G : Type} (g : Grid G K) (hl : g.polGrids.length = g.ycoords.length) (hp : g.yperiodic = true)
    (h : Increasing g.ycoords g.Ly) (hn : 2 ≤ g.ny) (offset : ℤ) :
    (∃ p, parCoords g.ycoords g.Ly g.yperiodic offset = .ok p ∧ Unwrapped g offset p) ↔
      |gapBefore g.ycoords g.Ly 0 - gapBefore g.ycoords g.Ly (offset % (g.ny : ℤ)).toNat| ≤
        1 / 10 ^ 8 * ((g.ny : K) - 1) + 1 / 10 ^ 5 * (g.Ly - gapBefore g.ycoords g.Ly 0) := by
  have hn' : 2 ≤ g.ycoords.length := hn
  have e : (∃ p, parCoords g.ycoords g.Ly g.yperiodic offset = .ok p ∧ Unwrapped g offset p) ↔
      isClose (meanDiff ((List.range g.ycoords.length).map (sliceCoord g.ycoords g.Ly offset))) (meanDiff g.ycoords) := by
    constructor
    · rintro ⟨p, h1, -⟩
      rw [hp, parCoords_increasing h hn'] at h1
      by_contra hc
      rw [if_neg hc] at h1
      cases h1
    · intro hc
      have h1 : parCoords g.ycoords g.Ly g.yperiodic offset = .ok ((List.range g.ycoords.length).map (sliceCoord g.ycoords g.Ly offset)) := by
        rw [hp, parCoords_increasing h hn', if_pos hc]
      exact ⟨_, h1, unwrapped_of_ok g hl hp h hn offset _ h1⟩
  rw [e, mean_slice _ _ hn', meanDiff_eq]
  have hg0 : g.ycoords.getD (g.ycoords.length - 1) 0 - g.ycoords.getD 0 0 = g.Ly - gapBefore g.ycoords g.Ly 0 := by
    unfold gapBefore
    rw [if_pos rfl]
    ring
  have hpos : 0 ≤ g.Ly - gapBefore g.ycoords g.Ly 0 := by
    rw [← hg0]
    have := h.mono 0 (g.ycoords.length - 1) (by omega) (by omega)
    linarith
  have hny : g.ny = g.ycoords.length := rfl
  rw [hg0, hny]
  have hN : ((g.ycoords.length - 1 : ℕ) : K) = (g.ycoords.length : K) - 1 := by
    rw [Nat.cast_sub (by omega)]; simp
  rw [hN]
  have hNpos : (0 : K) < (g.ycoords.length : K) - 1 := by
    have : ((2 : ℕ) : K) ≤ (g.ycoords.length : K) := by exact_mod_cast hn'
    push_cast at this
    linarith
  generalize (g.ycoords.length : K) - 1 = N at *
  generalize gapBefore g.ycoords g.Ly (offset % (g.ycoords.length : ℤ)).toNat = b
  generalize gapBefore g.ycoords g.Ly 0 = a at *
  unfold isClose
  rw [← sub_div, abs_div, abs_div, abs_of_pos hNpos, abs_of_nonneg hpos]
  have e1 : g.Ly - b - (g.Ly - a) = a - b := by ring
  rw [e1, div_le_iff₀ hNpos]
  have e2 : (1 / 10 ^ 8 + 1 / 10 ^ 5 * ((g.Ly - a) / N)) * N = 1 / 10 ^ 8 * N + 1 / 10 ^ 5 * (g.Ly - a) := by
    field_simp
  rw [e2]

example : Increasing ([0, 1, 3] : List ℚ) (9 / 2) ∧ (gapBefore ([0, 1, 3] : List ℚ) (9 / 2) 0 = 3 / 2 ∧ gapBefore ([0, 1, 3] : List ℚ) (9 / 2) 2 = 2) :=
  ⟨⟨by
    intro i hi
    have : i + 1 < 3 := hi
    have : i < 2 := by omega
    interval_cases i <;> norm_num, by norm_num⟩, by norm_num [gapBefore], by norm_num [gapBefore]⟩

end

/-! ### C82 -/

/-- **C82**, the exact condition: the attributes of a field change exactly if it has no dictionary of its own, the new field is a `GEQDSK` one and psi differs from that of the
field before. -/
theorem C82_iff {V : Type} (h : FieldHeap V) (c : FieldNew V) (i : ℕ) (hi : i < h.fields.length) :
    (h.construct c).attributes i ≠ h.attributes i ↔
      h.fields[i]? = some none ∧ ∃ p, c = .geqdsk p ∧ h.attributes i "psi" ≠ some p := by
  obtain ⟨h1, h2, h3⟩ := C82_attributes_partial h c i hi
  constructor
  · intro hne
    have hf : h.fields[i]? = some none := by
      cases hd : h.fields[i]? with
      | none => rw [List.getElem?_eq_none_iff] at hd; omega
      | some d =>
        cases d with
        | none => rfl
        | some d => exact absurd (h2 ⟨d, hd⟩) hne
    refine ⟨hf, ?_⟩
    by_contra hc
    push Not at hc
    apply hne
    cases c with
    | plain => exact h3 (by simp)
    | own => exact h3 (by simp)
    | geqdsk p =>
      funext n
      by_cases hn : n = "psi"
      · subst hn
        rw [hc p rfl]
        have e : h.fields.getD i none = none := by rw [List.getD_eq_getElem?_getD, hf]; rfl
        unfold FieldHeap.attributes FieldHeap.construct
        dsimp only
        rw [List.getD_append _ _ _ _ hi, e]
        simp [Dict.set]
      · exact h1 n hn
  · rintro ⟨hf, p, rfl, hp⟩ heq
    apply hp
    rw [← heq]
    have e : h.fields.getD i none = none := by rw [List.getD_eq_getElem?_getD, hf]; rfl
    unfold FieldHeap.attributes FieldHeap.construct
    dsimp only
    rw [List.getD_append _ _ _ _ hi, e]
    simp [Dict.set]

example : ((FieldHeap.mk (fun _ => none) []).construct (FieldNew.plain : FieldNew ℕ)).fields[0]? = some none ∧
    ((FieldHeap.mk (fun _ => none) []).construct (FieldNew.plain : FieldNew ℕ)).attributes 0 "psi" ≠ some 2 := by
  simp [FieldHeap.attributes, FieldHeap.construct]

/-! ### C147 -/

/-- **C147 (refutation).** For every number of points above one the last point is at 35. -/
theorem C147_fails_all (nz : ℕ) (h : 2 ≤ nz) : ∃ a ∈ defaultZ (K := ℚ) nz, a = 35 := by
  have hl : (defaultZ (K := ℚ) nz).length = nz := by
    unfold defaultZ linspaceClosed
    simp
  have h1 := C147_points_partial nz (nz - 1) h (by omega)
  rw [List.getD_eq_getElem _ _ (by omega)] at h1
  refine ⟨_, List.getElem_mem (by omega : nz - 1 < (defaultZ (K := ℚ) nz).length), ?_⟩
  rw [h1, Nat.cast_sub (by omega)]
  have : ((2 : ℕ) : ℚ) ≤ nz := by exact_mod_cast h
  push_cast at this
  have hne : (nz : ℚ) - 1 ≠ 0 := by linarith
  push_cast
  field_simp
  ring

/-! ### C178 -/

/-- The positions that a call must return. -/
def WebRight (empty : ℕ → ℕ → ℝ × ℝ) (isforward : Bool) (trace : Bool → ℝ → List (ℝ × ℝ × ℝ) → Except Err (List (ℝ × ℝ × ℝ)))
    (flow : ℝ → ℝ → ℝ × ℝ → ℝ × ℝ) (pts : List (ℝ × ℝ)) (ys : List ℝ) : Prop :=
  ∃ rows, webLines empty isforward trace pts ys = .ok rows ∧ rows.length = ys.length ∧ rows.getD 0 [] = pts ∧
    ∀ i, 1 ≤ i → i < ys.length → rows.getD i [] = pts.map (flow (ys.getD 0 0) (ys.getD i 0 - ys.getD 0 0))

/-- **C178**, the exact condition on the y values: the positions are right with every exact service exactly if all y values are on the same side of the first one. -/
theorem C178_iff (empty : ℕ → ℕ → ℝ × ℝ) (isforward : Bool) (pts : List (ℝ × ℝ)) (hp : ∀ p ∈ pts, 0 ≤ p.1) (ys : List ℝ) (hy : 2 ≤ ys.length) :
    (∀ trace flow, WebWorks isforward trace flow → (∀ y0 d p, 0 ≤ p.1 → 0 ≤ (flow y0 d p).1) → WebRight empty isforward trace flow pts ys) ↔
      ∀ i, 1 ≤ i → i < ys.length → (ys.getD i 0 - ys.getD 0 0 > 0 ↔ ys.getD 1 0 - ys.getD 0 0 > 0) := by
  constructor
  · intro h i h1 h2
    obtain ⟨rows, hr, -⟩ := h (circleTrace isforward) (fun _ _ p => p) (circleTrace_works isforward) fun _ _ _ h => h
    by_contra hne
    have hd : (decide (ys.getD 1 0 - ys.getD 0 0 > 0)) ≠ decide (ys.getD i 0 - ys.getD 0 0 > 0) := by
      intro he
      rw [decide_eq_decide] at he
      exact hne he.symm
    have herr : ∀ q, circleTrace isforward (pyXor (decide (ys.getD 1 0 - ys.getD 0 0 > 0)) isforward) (ys.getD i 0 - ys.getD 0 0) q = .error (.runtime "wrong direction") := by
      intro q
      unfold circleTrace
      rw [if_neg]
      rw [pyXor_eq]
      revert hd
      generalize decide (ys.getD 1 0 - ys.getD 0 0 > 0) = a
      generalize decide (ys.getD i 0 - ys.getD 0 0 > 0) = b
      cases a <;> cases b <;> cases isforward <;> simp
    unfold webLines at hr
    simp only at hr
    cases hm : (pyRange 1 ys.length).mapM (fun i => (circleTrace isforward (pyXor (decide (ys.getD 1 0 - ys.getD 0 0 > 0)) isforward)
        (ys.getD i 0 - ys.getD 0 0) (pts.map (webPoint (ys.getD 0 0)))).bind (webRow empty pts.length i)) with
    | error e => rw [hm] at hr; cases hr
    | ok rs =>
      have hmem : (pyRange 1 ys.length)[i - 1]? = some i := by
        unfold pyRange
        rw [List.getElem?_range' (by omega)]
        congr 1
        omega
      obtain ⟨b, _, hb⟩ := mapM_getElem? hm (i - 1) i hmem
      rw [herr] at hb
      cases hb
  · intro hs trace flow ht hR
    exact C178_positions_partial empty isforward trace flow ht hR pts hp ys hy hs

example : (∀ p ∈ [((1 : ℝ), (0 : ℝ))], 0 ≤ p.1) ∧ 2 ≤ [(0 : ℝ), 1, -1].length := by simp

end Zoidberg
