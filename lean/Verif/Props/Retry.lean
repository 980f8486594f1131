import Verif.Props.GetMetric

/-!
# C95, exactly: which fields a failed metric write has an influence for
-/

set_option linter.unusedSectionVars false

namespace Zoidberg

variable {K : Type} [Field K] [LinearOrder K] [IsStrictOrderedRing K] [FloorRing K]

/-- **C95 (refutation, all cases).** In Cartesian coordinates a failed write has an influence for every grid and every field that does not vanish. -/
theorem C95_fails_every (g : Grid (PolGrid K) K) (l : List (PolGrid K)) (ys : List K) (h : MetricGrid g l ys) (f : MagField K) (hR : f.Rfunc = none)
    (hattr : f.attributes = []) (c : Cell) (hc : c.2.1 < ys.length) (hB : evalAt l ys f.Bmag c ≠ 0) (hBy : evalAt l ys f.Byfunc c ≠ 0) :
    ¬ C95Claim g f := by
  obtain ⟨rfl, rfl, hl, M, xx, zz, xz, hM, M1, M2, hxx, hzz, hxz⟩ := h.facts
  obtain ⟨dy, hdy⟩ := Option.ne_none_iff_exists'.1 (metric_has_dy hM)
  let c1 : MwConf K := ⟨true, false, true, fun _ => false, id⟩
  let c2 : MwConf K := ⟨true, false, true, fun _ => true, id⟩
  let maps : ODict (Cell → K) := [("Ly", fun c => 2 * dy c), ("Ly_cell_ylow", fun _ => 0), ("Ly_cell_yhigh", fun _ => 0)]
  have hMk1 : "g_yy" ∈ ODict.keys M := (ODict.mem_keys_iff _ _).2 (by rw [M1]; simp)
  have hMk2 : "gyy" ∈ ODict.keys M := (ODict.mem_keys_iff _ _).2 (by rw [M2]; simp)
  have hMn : (ODict.keys M).Nodup := computeMetric_nodup hM
  obtain ⟨r, e, r1, r2, -, -, -, r6⟩ := getMetric_eq id g hl f none M hM _ _ xx zz xz M1 M2 hxx hzz hxz
  have kr := getMetric_keys hM hMk1 hMk2 e
  have nr : (ODict.keys r).Nodup := by
    rw [kr]; exact ODict.nodup_set _ _ _ (ODict.nodup_set _ _ _ (ODict.nodup_set _ _ _ hMn))
  have rdy : r.get? "dy" = some dy := by rw [r6 _ (by decide)]; exact hdy
  let L : Cell → K := lyMetric (fun c => 2 * dy c) dy
  let Z : Cell → K := lyMetric (fun _ => 0) dy
  let full : Metric K → (Cell → K) → Metric K := fun m a =>
    ((((m.set "g_yy_old" a).set "g_yy" L).set "g_yy_cell_ylow" Z).set "g_yy_cell_yhigh" Z).set "g_yy_correct" L
  have form : ∀ (cache : Option (Metric K)) (m : Metric K) (b a : Cell → K),
      getMetric id g f cache = .ok (m, b) → m.get? "g_yy" = some a → m.get? "dy" = some dy → (ODict.keys m).Nodup →
      (writeMetric c1 g f maps [] cache).err ≠ none ∧ (writeMetric c1 g f maps [] cache).cache = some (full m a) ∧
      (writeMetric c2 g f maps [] cache).file.get? "g_yy_old" = some (.f3 a) := by
    intro cache m b a hm ha hd hnd
    have hadd : addLy m maps = (full m a, none) := by
      have hd' : (m.set "g_yy_old" a).get? "dy" = some dy := by rw [ODict.get?_set_ne _ _ (by decide)]; exact hd
      have q1 : maps.get? "Ly" = some fun c => 2 * dy c := rfl
      have q2 : maps.getE "Ly_cell_ylow" = .ok fun _ => 0 := rfl
      have q3 : maps.getE "Ly_cell_yhigh" = .ok fun _ => 0 := rfl
      unfold addLy
      simp only [q1, q2, q3, ODict.getE_of_get? ha, ODict.getE_of_get? hd']
      rfl
    have h1 : getMetric c1.sqrt g f cache = .ok (m, b) := hm
    have h2 : getMetric c2.sqrt g f cache = .ok (m, b) := hm
    have hw1 : ∃ er, writeDict (valOps c1.finite) c1.isOpen c1.metric2d false ((full m a).mapV Val.f3) [] = ([], some er) := by
      obtain ⟨p, t, hpt⟩ : ∃ p t, full m a = p :: t := by
        cases hq : full m a with
        | nil =>
          have := ODict.get?_set_self ((((m.set "g_yy_old" a).set "g_yy" L).set "g_yy_cell_ylow" Z).set "g_yy_cell_yhigh" Z) "g_yy_correct" L
          have hq' : (((((m.set "g_yy_old" a).set "g_yy" L).set "g_yy_cell_ylow" Z).set "g_yy_cell_yhigh" Z).set "g_yy_correct" L) = [] := hq
          rw [hq'] at this; simp at this
        | cons p t => exact ⟨p, t, rfl⟩
      rw [hpt]
      exact ⟨_, rfl⟩
    obtain ⟨er, hw1⟩ := hw1
    have w1 : writeMetric c1 g f maps [] cache = ⟨[], some (full m a), some er⟩ := by
      unfold writeMetric
      simp only [h1, hadd, show c1.newNames = true from rfl, if_true, hw1]
    have hw2 : writeDict (valOps c2.finite) c2.isOpen c2.metric2d false ((full m a).mapV Val.f3) [] =
          (((full m a).mapV Val.f3).foldl (fun d p => ODict.set d p.1 p.2) [], none) :=
        writeEntries_ok (valOps c2.finite) _ (fun _ => rfl) []
    have w2 : (writeMetric c2 g f maps [] cache).file = ((full m a).mapV Val.f3).foldl (fun d p => ODict.set d p.1 p.2) [] := by
      unfold writeMetric
      simp only [h2, hadd, show c2.newNames = true from rfl, if_true, hw2, hattr]
      rfl
    refine ⟨by rw [w1]; simp, by rw [w1], ?_⟩
    rw [w2, ODict.get?_foldl_set, ODict.get?_mapV]
    · simp only [full]
      rw [ODict.get?_set_ne _ _ (by decide), ODict.get?_set_ne _ _ (by decide), ODict.get?_set_ne _ _ (by decide),
        ODict.get?_set_ne _ _ (by decide), ODict.get?_set_self]
      rfl
    · rw [ODict.keys_mapV]
      exact ODict.nodup_set _ _ _ (ODict.nodup_set _ _ _ (ODict.nodup_set _ _ _ (ODict.nodup_set _ _ _ (ODict.nodup_set _ _ _ hnd))))
  obtain ⟨f1, f2, f3⟩ := form none r _ _ e r1 rdy nr
  generalize ha : scaled g.ycoords.length (fun c => (evalAt g.polGrids g.ycoords f.Bmag c / evalAt g.polGrids g.ycoords f.Byfunc c) ^ 2)
    (baseLow g f fun _ => 1) = a at r1 f2 f3
  have g1 : ∀ k, k ∉ (["g_yy_old", "g_yy", "g_yy_cell_ylow", "g_yy_cell_yhigh", "g_yy_correct"] : List String) → (full r a).get? k = r.get? k := by
    intro k hk
    simp only [List.mem_cons, List.not_mem_nil, or_false, not_or] at hk
    obtain ⟨k1, k2, k3, k4, k5⟩ := hk
    simp only [full]
    rw [ODict.get?_set_ne _ _ k5, ODict.get?_set_ne _ _ k4, ODict.get?_set_ne _ _ k3, ODict.get?_set_ne _ _ k2, ODict.get?_set_ne _ _ k1]
  have g2 : (full r a).get? "g_yy" = some L := by
    simp only [full]
    rw [ODict.get?_set_ne _ _ (by decide), ODict.get?_set_ne _ _ (by decide), ODict.get?_set_ne _ _ (by decide), ODict.get?_set_self]
  have g3 := (g1 "gyy" (by decide)).trans r2
  obtain ⟨t, e2, t1, -, -, -, -, t6⟩ := getMetric_eq id g hl f (some (full r a)) _ rfl L _ xx zz xz g2 g3
    (by rw [g1 _ (by decide), r6 _ (by decide)]; exact hxx)
    (by rw [g1 _ (by decide), r6 _ (by decide)]; exact hzz)
    (by rw [g1 _ (by decide), r6 _ (by decide)]; exact hxz)
  have kt := getMetric_keys (cache := some (full r a)) rfl
    ((ODict.mem_keys_iff _ _).2 (by rw [g2]; simp)) ((ODict.mem_keys_iff _ _).2 (by rw [g3]; simp)) e2
  have nt : (ODict.keys t).Nodup := by
    rw [kt]
    exact ODict.nodup_set _ _ _ (ODict.nodup_set _ _ _ (ODict.nodup_set _ _ _
      (ODict.nodup_set _ _ _ (ODict.nodup_set _ _ _ (ODict.nodup_set _ _ _ (ODict.nodup_set _ _ _ (ODict.nodup_set _ _ _ nr)))))))
  obtain ⟨_, _, f6⟩ := form _ t _ _ e2 t1 (by rw [t6 _ (by decide), g1 _ (by decide)]; exact rdy) nt
  intro hcl
  have h := hcl c1 c2 maps [] [] f1
  rw [f2] at h
  have h := congrArg (fun d => ODict.get? d "g_yy_old") h
  beta_reduce at h
  rw [f3, f6] at h
  injection h with h
  injection h with h
  have h := congrFun h c
  rw [← ha] at h
  simp only [scaled, hc, if_true, baseLow, hR] at h
  have hq : (evalAt g.polGrids g.ycoords f.Bmag c / evalAt g.polGrids g.ycoords f.Byfunc c) ^ 2 ≠ 0 := pow_ne_zero _ (div_ne_zero hB hBy)
  have h' := mul_right_cancel₀ hq h
  simp only [L, lyMetric] at h'
  by_cases h0 : dy c = 0
  · rw [h0] at h'
    norm_num at h'
  · rw [mul_div_assoc, div_self h0] at h'
    norm_num at h'

/-- **C95**, the exact condition, for fields that do not vanish everywhere: a failed write has no influence exactly in cylindrical coordinates. -/
theorem C95_iff (g : Grid (PolGrid K) K) (l : List (PolGrid K)) (ys : List K) (h : MetricGrid g l ys) (f : MagField K)
    (hattr : f.attributes = []) (c : Cell) (hc : c.2.1 < ys.length) (hB : evalAt l ys f.Bmag c ≠ 0) (hBy : evalAt l ys f.Byfunc c ≠ 0) :
    C95Claim g f ↔ f.Rfunc ≠ none := by
  constructor
  · intro hcl hR
    exact C95_fails_every g l ys h f hR hattr c hc hB hBy hcl
  · exact C95_cylindrical_partial g l ys h f

/-- A case: a uniform field in a slab. -/
example : ¬ C95Claim exMetricGrid (⟨none, fun _ _ _ => 1, fun _ _ _ => 0, fun _ _ _ => 1, []⟩ : MagField ℚ) := by
  refine C95_fails_every exMetricGrid _ _ exMetricGrid_ok _ rfl rfl (0, 0, 0) (by decide) ?_ ?_ <;> norm_num [evalAt]

end Zoidberg
