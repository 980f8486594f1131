import Verif.Props.Smooth
import Mathlib.Analysis.Calculus.Deriv.Pow
import Mathlib.Analysis.Calculus.Deriv.Mul
import Mathlib.Analysis.Calculus.Deriv.Add

/-!
# C89, C163-C165: the smoothed points
-/

set_option linter.unusedSectionVars false

namespace Zoidberg

variable {K : Type} [Field K] [LinearOrder K]

/-! ### C89: rollup -/

theorem rollZ_length (a : List K) (k : ℤ) : (rollZ a k).length = a.length := by unfold rollZ; simp

theorem rollZ_getD (a : List K) (k : ℤ) (i : ℕ) (hi : i < a.length) : (rollZ a k).getD i 0 = a.getD (((i : ℤ) - k) % (a.length : ℤ)).toNat 0 := by
  rw [List.getD_eq_getElem _ _ (by rw [rollZ_length]; exact hi)]
  unfold rollZ
  simp

theorem assignFirst_ok (a rep : List K) (h : rep.length ≤ a.length) : assignFirst a rep.length rep = .ok (rep ++ a.drop rep.length) := by
  unfold assignFirst
  dsimp only
  rw [if_pos (by omega), min_eq_left h]

theorem overlay_getD (a rep : List K) (i : ℕ) : (rep ++ a.drop rep.length).getD i 0 = if i < rep.length then rep.getD i 0 else a.getD i 0 := by
  split_ifs with h
  · rw [List.getD_append _ _ _ _ h]
  · rw [List.getD_append_right _ _ _ _ (by omega)]
    simp only [List.getD_eq_getElem?_getD, List.getElem?_drop]
    congr 2
    omega

theorem emod_toNat_lt (x : ℤ) (n : ℕ) (hn : 0 < n) : (x % (n : ℤ)).toNat < n := by
  have h1 := Int.emod_nonneg x (b := (n : ℤ)) (by omega)
  have h2 := Int.emod_lt_of_pos x (b := (n : ℤ)) (by omega)
  omega

theorem emod_toNat_cast (x : ℤ) (n : ℕ) (hn : 0 < n) : (((x % (n : ℤ)).toNat : ℕ) : ℤ) = x % n := Int.toNat_of_nonneg (Int.emod_nonneg x (by omega))

/-- **C89.** What `rollup` returns. -/
theorem C89_rollup (a rep : List K) (s : ℤ) (h : rep.length ≤ a.length) : ∃ b, rollup a s rep.length rep = .ok b ∧ b.length = a.length ∧
    ∀ j < a.length, b.getD j 0 = if (((j : ℤ) - s) % (a.length : ℤ)).toNat < rep.length then rep.getD (((j : ℤ) - s) % (a.length : ℤ)).toNat 0 else a.getD j 0 := by
  have hl : rep.length ≤ (rollZ a (-s)).length := by rw [rollZ_length]; exact h
  have hl2 : (rep ++ (rollZ a (-s)).drop rep.length).length = a.length := by
    rw [List.length_append, List.length_drop, rollZ_length]
    omega
  refine ⟨_, by unfold rollup; rw [assignFirst_ok _ _ hl]; rfl, by rw [rollZ_length, hl2], fun j hj => ?_⟩
  rw [rollZ_getD _ _ _ (by rw [hl2]; exact hj), hl2, overlay_getD]
  split_ifs with hc
  · rfl
  · have hn : 0 < a.length := by omega
    rw [rollZ_getD _ _ _ (emod_toNat_lt _ _ hn), emod_toNat_cast _ _ hn]
    congr 1
    rw [show ((j : ℤ) - s) % (a.length : ℤ) - -s = ((j : ℤ) - s) % (a.length : ℤ) + s by ring, Int.emod_add_emod]
    rw [show (j : ℤ) - s + s = j by ring, Int.emod_eq_of_lt (by omega) (by omega)]
    simp

/-- **C89.** The replaced entries. -/
theorem C89_inside (a rep b : List K) (s : ℤ) (h : rep.length ≤ a.length) (hb : rollup a s rep.length rep = .ok b) (i : ℕ) (hi : i < rep.length) :
    b.getD ((s + i) % (a.length : ℤ)).toNat 0 = rep.getD i 0 := by
  obtain ⟨b', hb', -, hg⟩ := C89_rollup a rep s h
  rw [hb'] at hb
  cases hb
  have hn : 0 < a.length := by omega
  have e : ((((s + i) % (a.length : ℤ)).toNat : ℤ) - s) % (a.length : ℤ) = i := by
    rw [emod_toNat_cast _ _ hn, Int.emod_sub_emod, show s + (i : ℤ) - s = i by ring, Int.emod_eq_of_lt (by omega) (by omega)]
  rw [hg _ (emod_toNat_lt _ _ hn), e, Int.toNat_natCast, if_pos hi]

/-- **C89.** The others. -/
theorem C89_outside (a rep b : List K) (s : ℤ) (h : rep.length ≤ a.length) (hb : rollup a s rep.length rep = .ok b) (j : ℕ) (hj : j < a.length)
    (ho : ∀ i < rep.length, ((s + i) % (a.length : ℤ)).toNat ≠ j) : b.getD j 0 = a.getD j 0 := by
  obtain ⟨b', hb', -, hg⟩ := C89_rollup a rep s h
  rw [hb'] at hb
  cases hb
  rw [hg j hj, if_neg]
  intro hc
  have hn : 0 < a.length := by omega
  apply ho _ hc
  rw [emod_toNat_cast _ _ hn, Int.add_emod_emod, show s + ((j : ℤ) - s) = j by ring, Int.emod_eq_of_lt (by omega) (by omega)]
  simp

example : (rollup [(0 : ℚ), 1, 2, 3, 4] (-2) 3 [10, 11, 12]).toOption = some [12, 1, 2, 10, 11] := by decide +kernel
example : (rollup [(0 : ℚ), 1, 2, 3, 4] 3 3 [10, 11, 12]).toOption = some [12, 1, 2, 10, 11] := by decide +kernel

/-! ### Storing -/

/-- Writing the new points, from the front or from the end. -/
theorem smoothStore_spec (a X : List K) (s : ℤ) (h1 : -(a.length : ℤ) ≤ s) (h2 : s + X.length ≤ a.length) (h3 : X.length ≤ a.length) : ∃ b, smoothStore a s X = .ok b ∧ b.length = a.length ∧
    ∀ j < a.length, b.getD j 0 = if (((j : ℤ) - s) % (a.length : ℤ)).toNat < X.length then X.getD (((j : ℤ) - s) % (a.length : ℤ)).toNat 0 else a.getD j 0 := by
  unfold smoothStore
  by_cases hs : s < 0
  · rw [if_pos hs]
    exact C89_rollup a X s h3
  · rw [if_neg hs]
    unfold assignSlice
    have hd : X.length ≤ (a.drop s.toNat).length := by rw [List.length_drop]; omega
    rw [assignFirst_ok _ _ hd]
    refine ⟨_, rfl, ?_, fun j hj => ?_⟩
    · rw [List.length_append, List.length_append, List.length_take, List.length_drop, List.length_drop]
      omega
    · have ht : (a.take s.toNat).length = s.toNat := by rw [List.length_take]; omega
      by_cases hjs : j < s.toNat
      · rw [List.getD_append _ _ _ _ (by rw [ht]; exact hjs)]
        have e : ((j : ℤ) - s) % (a.length : ℤ) = j - s + a.length := by
          rw [← Int.add_emod_right, Int.emod_eq_of_lt (by omega) (by omega)]
        rw [e, if_neg (by omega)]
        simp only [List.getD_eq_getElem?_getD, List.getElem?_take]
        rw [if_pos hjs]
      · rw [List.getD_append_right _ _ _ _ (by rw [ht]; omega), ht, overlay_getD]
        have e : (((j : ℤ) - s) % (a.length : ℤ)).toNat = j - s.toNat := by
          rw [Int.emod_eq_of_lt (by omega) (by omega)]
          omega
        rw [e]
        split_ifs with hc
        · rfl
        · simp only [List.getD_eq_getElem?_getD, List.getElem?_drop]
          congr 2
          omega

/-- A chain of consecutive numbers. -/
theorem chain_eq (run : List ℤ) (s : ℤ) (hs : run.head? = some s) (hc : run.IsChain fun a b => a + 1 = b) : run = (List.range run.length).map fun i : ℕ => s + (i : ℤ) := by
  induction run generalizing s with
  | nil => cases hs
  | cons a l ih =>
    cases hs
    cases l with
    | nil => simp
    | cons b l =>
      rw [List.isChain_cons_cons] at hc
      have := ih b rfl hc.2
      rw [List.length_cons, List.range_succ_eq_map, List.map_cons, List.map_map]
      congr 1
      · simp
      · rw [this]
        simp only [List.length_map, List.length_range]
        apply List.map_congr_left
        intro i _
        have := hc.1
        simp only [Function.comp]
        push_cast
        omega

theorem chain_last (run : List ℤ) (s t : ℤ) (hs : run.head? = some s) (ht : run.getLast? = some t) (hc : run.IsChain fun a b => a + 1 = b) : t = s + run.length - 1 := by
  have hp : 0 < run.length := by
    cases run with
    | nil => cases hs
    | cons a l => simp
  have he := chain_eq run s hs hc
  rw [List.getLast?_eq_getElem?, he] at ht
  simp only [List.length_map, List.length_range, List.getElem?_map] at ht
  rw [List.getElem?_range (by omega)] at ht
  simp at ht
  omega

/-! ### One run -/

theorem npGet_val (a : List K) (i : ℤ) (v : K) (h : npGet a i = .ok v) : v = a.getD (i % (a.length : ℤ)).toNat 0 ∧ -(a.length : ℤ) ≤ i ∧ i < a.length := by
  have hb := (npGet_ok a i).mp ⟨v, h⟩
  refine ⟨?_, hb⟩
  unfold npGet pyIndex at h
  by_cases h0 : 0 ≤ i
  · rw [if_pos h0, if_pos hb.2] at h
    cases h
    rw [Int.emod_eq_of_lt h0 hb.2]
  · rw [if_neg h0, if_pos hb.1] at h
    cases h
    rw [← Int.add_emod_right, Int.emod_eq_of_lt (by omega) (by omega)]

theorem bind_ok {α β : Type} {x : Except Err α} {f : α → Except Err β} {b : β} (h : x.bind f = .ok b) : ∃ a, x = .ok a ∧ f a = .ok b := by
  cases x with
  | error e => cases h
  | ok a => exact ⟨a, rfl, h⟩

/-- The new points of a run. -/
def curvePoints (p0 : K × K) (x : Cubic K) (n : ℕ) : List (K × K) := (linspaceClosed (0 : K) 1 n).map fun t => (p0.1 + (x.at t).1, p0.2 + (x.at t).2)

theorem curvePoints_length (p0 : K × K) (x : Cubic K) (n : ℕ) : (curvePoints p0 x n).length = n := by unfold curvePoints linspaceClosed; simp

/-- What one run does if it returns. -/
theorem smoothRun_ok (s s' : SmoothState K) (run : List ℤ) (start : ℤ) (p0 : K × K) (x : Cubic K) (plot : Bool) (h : smoothRun s run start p0 x plot = .ok s') : plot = false ∧ smoothStore s.r start ((curvePoints p0 x run.length).map Prod.fst) = .ok s'.r ∧
      smoothStore s.z start ((curvePoints p0 x run.length).map Prod.snd) = .ok s'.z ∧ -(s.r.length : ℤ) < start ∧ start + run.length < s.r.length ∧ 0 < run.length ∧ (s.failed = true → s'.failed = true) ∧
      (s'.failed = true → s.deb ≠ [] ∨ s.failed = false → s'.deb ≠ []) := by
  unfold smoothRun at h
  dsimp only at h
  obtain ⟨X0, hX0, h⟩ := bind_ok h
  obtain ⟨ra, hra, h⟩ := bind_ok h
  obtain ⟨Y0, hY0, h⟩ := bind_ok h
  obtain ⟨za, hza, h⟩ := bind_ok h
  obtain ⟨X1, hX1, h⟩ := bind_ok h
  obtain ⟨rb, hrb, h⟩ := bind_ok h
  obtain ⟨Y1, hY1, h⟩ := bind_ok h
  obtain ⟨zb, hzb, h⟩ := bind_ok h
  obtain ⟨r', hr', h⟩ := bind_ok h
  obtain ⟨z', hz', h⟩ := bind_ok h
  cases plot with
  | true => cases h
  | false =>
    rw [if_neg (by simp)] at h
    cases h
    have b1 := (npGet_val _ _ _ hra).2
    have b2 := (npGet_val _ _ _ hrb).2
    have b3 := (npGet_val _ _ _ hX0).2.2
    have e1 : (curvePoints p0 x run.length).map Prod.fst = (linspaceClosed (0 : K) 1 run.length).map fun t => p0.1 + (x.at t).1 := by
      unfold curvePoints; rw [List.map_map]; rfl
    have e2 : (curvePoints p0 x run.length).map Prod.snd = (linspaceClosed (0 : K) 1 run.length).map fun t => p0.2 + (x.at t).2 := by
      unfold curvePoints; rw [List.map_map]; rfl
    have hp : 0 < run.length := by
      rw [← e1, List.length_map, curvePoints_length] at b3
      omega
    refine ⟨rfl, by rw [e1]; exact hr', by rw [e2]; exact hz', by omega, b2.2, hp, fun hf => by simp [hf], ?_⟩
    dsimp only
    intro hf hd
    split_ifs with hg
    · rcases hd with hd | hd
      · exact hd
      · rw [hd, Bool.false_or, decide_eq_true hg] at hf
        cases hf
    · simp

/-- What a step does if it returns: nothing but a note of the failure, or new points at the run. -/
theorem smoothStep_ok (sqrt : K → K) (ls : CubicSolver K) (tol : K) (r z : List K) (bounds : ℕ) (plot : Bool) (s s' : SmoothState K) (run : List ℤ)
    (hc : run.IsChain fun a b => a + 1 = b) (h : smoothStep sqrt ls tol r z bounds plot s run = .ok s') :
    ∃ start q res, run.head? = some start ∧ 2 * run.length < r.length ∧ smoothSetup r z start (start + run.length - 1) = .ok q ∧ ls (smoothFun sqrt q.1 q.2.1 q.2.2.1) = .ok res ∧
      ((tol < res.optimality ∧ s' = ⟨s.r, s.z, true, s.deb ++ [(res.cost, res.optimality)]⟩) ∨ (res.optimality ≤ tol ∧ smoothRun s run start q.2.2.2 res.x plot = .ok s')) := by
  unfold smoothStep at h
  by_cases hb : ¬ bounds ≤ run.length
  · rw [if_pos hb] at h; cases h
  rw [if_neg hb] at h
  by_cases h2 : r.length ≤ 2 * run.length
  · rw [if_pos h2] at h; cases h
  rw [if_neg h2] at h
  cases hs : run.head? with
  | none => rw [hs] at h; cases h
  | some start =>
    cases ht : run.getLast? with
    | none => rw [hs, ht] at h; cases h
    | some stop =>
      rw [hs, ht] at h
      dsimp only at h
      obtain ⟨q, hq, h⟩ := bind_ok h
      obtain ⟨res, hres, h⟩ := bind_ok h
      rw [chain_last run start stop hs ht hc] at hq
      refine ⟨start, q, res, rfl, by omega, hq, hres, ?_⟩
      by_cases ho : tol < res.optimality
      · rw [if_pos ho] at h
        cases h
        exact Or.inl ⟨ho, rfl⟩
      · rw [if_neg ho] at h
        exact Or.inr ⟨not_lt.mp ho, h⟩

/-! ### C163: only the points of the runs change -/

theorem smoothStep_outside (sqrt : K → K) (ls : CubicSolver K) (tol : K) (r z : List K) (bounds : ℕ) (plot : Bool) (s s' : SmoothState K) (run : List ℤ) (hr : s.r.length = r.length) (hz : s.z.length = r.length)
    (hc : run.IsChain fun a b => a + 1 = b) (h : smoothStep sqrt ls tol r z bounds plot s run = .ok s') :
    s'.r.length = r.length ∧ s'.z.length = r.length ∧ ∀ j < r.length, (∀ i ∈ run, i % (r.length : ℤ) ≠ j) → s'.r.getD j 0 = s.r.getD j 0 ∧ s'.z.getD j 0 = s.z.getD j 0 := by
  obtain ⟨start, q, res, hs, h2, -, -, h | h⟩ := smoothStep_ok sqrt ls tol r z bounds plot s s' run hc h
  · rw [h.2]
    exact ⟨hr, hz, fun _ _ _ => ⟨rfl, rfl⟩⟩
  · obtain ⟨-, h3, h4, h5, h6, hp, -⟩ := smoothRun_ok s s' run start _ _ plot h.2
    rw [hr] at h5 h6
    have hX : ((curvePoints q.2.2.2 res.x run.length).map Prod.fst).length = run.length := by rw [List.length_map, curvePoints_length]
    have hY : ((curvePoints q.2.2.2 res.x run.length).map Prod.snd).length = run.length := by rw [List.length_map, curvePoints_length]
    obtain ⟨b, hb1, hb2, hb3⟩ := smoothStore_spec s.r ((curvePoints q.2.2.2 res.x run.length).map Prod.fst) start (by rw [hr]; omega) (by rw [hX, hr]; omega) (by rw [hX, hr]; omega)
    obtain ⟨c, hc1, hc2, hc3⟩ := smoothStore_spec s.z ((curvePoints q.2.2.2 res.x run.length).map Prod.snd) start (by rw [hz]; omega) (by rw [hY, hz]; omega) (by rw [hY, hz]; omega)
    rw [h3] at hb1
    rw [h4] at hc1
    cases hb1
    cases hc1
    refine ⟨by rw [hb2, hr], by rw [hc2, hz], fun j hj ho => ?_⟩
    have hn : 0 < r.length := by omega
    have key : ¬ ((((j : ℤ) - start) % (r.length : ℤ)).toNat < run.length) := by
      intro hlt
      have hmem : start + ((((j : ℤ) - start) % (r.length : ℤ)).toNat : ℤ) ∈ run := by
        rw [chain_eq run start hs hc]
        exact List.mem_map.mpr ⟨_, List.mem_range.mpr hlt, rfl⟩
      apply ho _ hmem
      rw [emod_toNat_cast _ _ hn, Int.add_emod_emod, show start + ((j : ℤ) - start) = j by ring, Int.emod_eq_of_lt (by omega) (by omega)]
    rw [hb3 j (by rw [hr]; exact hj), hc3 j (by rw [hz]; exact hj), hX, hY, hr, hz, if_neg key, if_neg key]
    exact ⟨rfl, rfl⟩

theorem genNewr_ind (sqrt : K → K) (ls : CubicSolver K) (tol : K) (r z : List K) (bounds : ℕ) (plot : Bool) (P : SmoothState K → List (List ℤ) → Prop) (step : ∀ s s' run runs, P s runs →
    smoothStep sqrt ls tol r z bounds plot s run = .ok s' → P s' (runs ++ [run])) : ∀ (runs done : List (List ℤ)) (s s' : SmoothState K), P s done →
      runs.foldl (fun (s : Except Err (SmoothState K)) run => s.bind fun s => smoothStep sqrt ls tol r z bounds plot s run) (.ok s) = .ok s' → P s' (done ++ runs)
  | [], done, s, s', h, hs => by
    cases hs
    simpa using h
  | run :: runs, done, s, s', h, hs => by
    rw [List.foldl_cons] at hs
    change runs.foldl _ (smoothStep sqrt ls tol r z bounds plot s run) = _ at hs
    cases hstep : smoothStep sqrt ls tol r z bounds plot s run with
    | error e =>
      rw [hstep] at hs
      exfalso
      have : ∀ l : List (List ℤ), l.foldl (fun (s : Except Err (SmoothState K)) run => s.bind fun s => smoothStep sqrt ls tol r z bounds plot s run) (.error e) = .error e := by
        intro l
        induction l with
        | nil => rfl
        | cons a l ih => exact ih
      rw [this] at hs
      cases hs
    | ok s1 =>
      rw [hstep] at hs
      have := genNewr_ind sqrt ls tol r z bounds plot P step runs (done ++ [run]) s1 s' (step s s1 run done h hstep) hs
      simpa using this

/-- **C163.** `gen_newr` keeps the lengths and all points that are in no run. -/
theorem C163_outside (sqrt : K → K) (ls : CubicSolver K) (tol : K) (r z : List K) (runs : List (List ℤ)) (bounds : ℕ) (plot : Bool) (s : SmoothState K) (hl : r.length = z.length)
    (hc : ∀ m ∈ runs, m.IsChain fun a b => a + 1 = b) (h : genNewr sqrt ls tol r z runs bounds plot = .ok s) :
    s.r.length = r.length ∧ s.z.length = z.length ∧ ∀ j < r.length, (∀ m ∈ runs, ∀ i ∈ m, i % (r.length : ℤ) ≠ j) → s.r.getD j 0 = r.getD j 0 ∧ s.z.getD j 0 = z.getD j 0 := by
  have := genNewr_ind sqrt ls tol r z bounds plot (fun s done => (∀ m ∈ done, m.IsChain fun a b => a + 1 = b) → s.r.length = r.length ∧ s.z.length = r.length ∧ ∀ j < r.length, (∀ m ∈ done, ∀ i ∈ m, i % (r.length : ℤ) ≠ j) →
    s.r.getD j 0 = r.getD j 0 ∧ s.z.getD j 0 = z.getD j 0) ?_ runs [] ⟨r, z, false, []⟩ s (fun _ => ⟨rfl, hl.symm, fun _ _ _ => ⟨rfl, rfl⟩⟩) h
  · obtain ⟨h1, h2, h3⟩ := this (by simpa using hc)
    exact ⟨h1, by rw [h2, hl], fun j hj ho => h3 j hj (by simpa using ho)⟩
  · intro s s' run done hP hstep hch
    obtain ⟨h1, h2, h3⟩ := hP fun m hm => hch m (by simp [hm])
    obtain ⟨g1, g2, g3⟩ := smoothStep_outside sqrt ls tol r z bounds plot s s' run h1 h2 (hch run (by simp)) hstep
    refine ⟨g1, g2, fun j hj ho => ?_⟩
    obtain ⟨e1, e2⟩ := g3 j hj fun i hi => ho run (by simp) i hi
    obtain ⟨e3, e4⟩ := h3 j hj fun m hm i hi => ho m (by simp [hm]) i hi
    exact ⟨e1.trans e3, e2.trans e4⟩

/-- **C163.** One pass of `smooth` changes only points within `bounds` of an outlier (cyclically). -/
theorem C163_pass (sqrt : K → K) (ls : CubicSolver K) (tol cutoff : K) (boundsFind bounds : ℕ) (plot : Bool) (r z : List K) (s : SmoothState K) (hl : r.length = z.length)
    (h : smoothPass sqrt ls tol cutoff boundsFind bounds plot r z = .ok s) : ∃ outliers, allOutliers sqrt r z cutoff boundsFind = .ok outliers ∧ s.r.length = r.length ∧ s.z.length = z.length ∧
      ∀ j < r.length, (∀ d ∈ outliers, ∀ i : ℤ, d - bounds ≤ i → i ≤ d + bounds → i % (r.length : ℤ) ≠ j) → s.r.getD j 0 = r.getD j 0 ∧ s.z.getD j 0 = z.getD j 0 := by
  unfold smoothPass at h
  obtain ⟨outliers, ho, h⟩ := bind_ok h
  obtain ⟨runs, hruns, h⟩ := bind_ok h
  obtain ⟨h1, h2, h3⟩ := C88_runs bounds r.length outliers runs hruns
  obtain ⟨g1, g2, g3⟩ := C163_outside sqrt ls tol r z runs bounds plot s hl (fun m hm => (h2.2.1 m hm).2) h
  refine ⟨outliers, ho, g1, g2, fun j hj hout => g3 j hj fun m hm i hi => ?_⟩
  obtain ⟨⟨d, hd, hd1, hd2⟩, -⟩ := (h3 i).mp (List.mem_flatten.mpr ⟨m, hm, hi⟩)
  exact hout d hd i hd1 hd2

/-! ### C164: the curve -/

variable [IsStrictOrderedRing K]

theorem linspace01_ends (n : ℕ) : (0 < n → (linspaceClosed (0 : K) 1 n).getD 0 0 = 0) ∧ (2 ≤ n → (linspaceClosed (0 : K) 1 n).getD (n - 1) 0 = 1) := by
  constructor
  · intro hn
    rw [List.getD_eq_getElem _ _ (by unfold linspaceClosed; simpa using hn)]
    simp [linspaceClosed]
  · intro h2
    have hne : ((n : K) - 1) ≠ 0 := by
      have : (2 : K) ≤ (n : K) := by exact_mod_cast h2
      linarith
    rw [List.getD_eq_getElem _ _ (by unfold linspaceClosed; simp; omega)]
    simp only [linspaceClosed, List.getElem_map, List.getElem_range]
    rw [if_neg (by omega), Nat.cast_sub (by omega)]
    push_cast
    field_simp
    ring

theorem curvePoints_ends (p0 : K × K) (x : Cubic K) (n : ℕ) : (0 < n → (curvePoints p0 x n).getD 0 (0, 0) = p0) ∧
    (2 ≤ n → (curvePoints p0 x n).getD (n - 1) (0, 0) = (p0.1 + (x.at 1).1, p0.2 + (x.at 1).2)) := by
  have hl : (linspaceClosed (0 : K) 1 n).length = n := by unfold linspaceClosed; simp
  constructor
  · intro hn
    have h := (linspace01_ends (K := K) n).1 hn
    rw [List.getD_eq_getElem _ _ (by rw [hl]; exact hn)] at h
    rw [List.getD_eq_getElem _ _ (by rw [curvePoints_length]; exact hn)]
    unfold curvePoints
    rw [List.getElem_map, h]
    simp [Cubic.at]
  · intro hn
    have h := (linspace01_ends (K := K) n).2 hn
    rw [List.getD_eq_getElem _ _ (by rw [hl]; omega)] at h
    rw [List.getD_eq_getElem _ _ (by rw [curvePoints_length]; omega)]
    unfold curvePoints
    rw [List.getElem_map, h]

/-- The derivative of the curve. -/
def Cubic.deriv (x : Cubic K) (s : K) : K × K := (x.r1 + x.r2 * s + x.r3 * s ^ 2, x.z1 + x.z2 * s + x.z3 * s ^ 2)

/-- The second derivative of the curve. -/
def Cubic.deriv2 (x : Cubic K) (s : K) : K × K := (x.r2 + 2 * x.r3 * s, x.z2 + 2 * x.z3 * s)

/-- **C164.** The first four residuals vanish exactly if the curve ends in the last point of the run and its directions at the two ends are those of the neighbouring segments. -/
theorem C164_residual (dm dp end0 : K × K) (x : Cubic K) : smoothRes dm dp end0 x = [0, 0, 0, 0] ↔ x.at 1 = end0 ∧ (x.deriv 0).1 * dm.2 = (x.deriv 0).2 * dm.1 ∧ (x.deriv 1).1 * dp.2 = (x.deriv 1).2 * dp.1 := by
  obtain ⟨a, b⟩ := end0
  unfold smoothRes Cubic.at Cubic.deriv
  simp only [List.cons.injEq, and_true, Prod.mk.injEq]
  constructor
  · rintro ⟨h1, h2, h3, h4⟩
    refine ⟨⟨by linear_combination h1, by linear_combination h2⟩, by linear_combination h3, by linear_combination h4⟩
  · rintro ⟨⟨h1, h2⟩, h3, h4⟩
    refine ⟨by linear_combination h1, by linear_combination h2, by linear_combination h3, by linear_combination h4⟩

theorem smoothSetup_ok (r z : List K) (start stop : ℤ) (q : (K × K) × (K × K) × (K × K) × (K × K)) (hl : r.length = z.length) (h : smoothSetup r z start stop = .ok q) :
    q.2.2.2 = (r.getD (start % (r.length : ℤ)).toNat 0, z.getD (start % (r.length : ℤ)).toNat 0) ∧
      q.2.2.1 = (r.getD (stop % (r.length : ℤ)).toNat 0 - r.getD (start % (r.length : ℤ)).toNat 0, z.getD (stop % (r.length : ℤ)).toNat 0 - z.getD (start % (r.length : ℤ)).toNat 0) ∧
      q.1 = (r.getD (start % (r.length : ℤ)).toNat 0 - r.getD ((start - 1) % (r.length : ℤ)).toNat 0, z.getD (start % (r.length : ℤ)).toNat 0 - z.getD ((start - 1) % (r.length : ℤ)).toNat 0) ∧
      q.2.1 = (r.getD (stop % (r.length : ℤ)).toNat 0 - r.getD ((stop + 1) % (r.length : ℤ)).toNat 0, z.getD (stop % (r.length : ℤ)).toNat 0 - z.getD ((stop + 1) % (r.length : ℤ)).toNat 0) := by
  unfold smoothSetup at h
  obtain ⟨rs, h1, h⟩ := bind_ok h
  obtain ⟨rm, h2, h⟩ := bind_ok h
  obtain ⟨zs, h3, h⟩ := bind_ok h
  obtain ⟨zm, h4, h⟩ := bind_ok h
  obtain ⟨re, h5, h⟩ := bind_ok h
  obtain ⟨rp, h6, h⟩ := bind_ok h
  obtain ⟨ze, h7, h⟩ := bind_ok h
  cases h8 : npGet z (if stop < (r.length : ℤ) - 1 then stop + 1 else 0) with
  | error e => rw [h8] at h; cases h
  | ok zp =>
    rw [h8] at h
    cases h
    have b5 := npGet_val _ _ _ h5
    have e : (if stop < (r.length : ℤ) - 1 then stop + 1 else 0) % (r.length : ℤ) = (stop + 1) % (r.length : ℤ) := by
      split_ifs with hc
      · rfl
      · have : stop + 1 = (r.length : ℤ) := by omega
        rw [this]
        simp
    have v6 := (npGet_val _ _ _ h6).1
    have v8 := (npGet_val _ _ _ h8).1
    rw [e] at v6
    rw [← hl, e] at v8
    have v3 := (npGet_val _ _ _ h3).1
    have v4 := (npGet_val _ _ _ h4).1
    have v7 := (npGet_val _ _ _ h7).1
    rw [← hl] at v3 v4 v7
    rw [(npGet_val _ _ _ h1).1, (npGet_val _ _ _ h2).1, v3, v4, b5.1, v6, v7, v8]
    exact ⟨rfl, rfl, rfl, rfl⟩

/-- **C164.** A smoothed run starts in its old first point; if the first four residuals vanish it ends in its old last point, and there and at the start it has the direction of the neighbouring segments. -/
theorem C164_run (sqrt : K → K) (ls : CubicSolver K) (tol : K) (r z : List K) (bounds : ℕ) (plot : Bool) (s s' : SmoothState K) (run : List ℤ) (start : ℤ) (hl : r.length = z.length) (hr : s.r.length = r.length)
    (hz : s.z.length = r.length) (hc : run.IsChain fun a b => a + 1 = b) (hs : run.head? = some start) (h : smoothStep sqrt ls tol r z bounds plot s run = .ok s') :
    (s'.r = s.r ∧ s'.z = s.z ∧ s'.failed = true) ∨
      (s'.r.getD (start % (r.length : ℤ)).toNat 0 = r.getD (start % (r.length : ℤ)).toNat 0 ∧ s'.z.getD (start % (r.length : ℤ)).toNat 0 = z.getD (start % (r.length : ℤ)).toNat 0 ∧
        ∃ q res, smoothSetup r z start (start + run.length - 1) = .ok q ∧ ls (smoothFun sqrt q.1 q.2.1 q.2.2.1) = .ok res ∧ (2 ≤ run.length → smoothRes q.1 q.2.1 q.2.2.1 res.x = [0, 0, 0, 0] →
          s'.r.getD ((start + run.length - 1) % (r.length : ℤ)).toNat 0 = r.getD ((start + run.length - 1) % (r.length : ℤ)).toNat 0 ∧
          s'.z.getD ((start + run.length - 1) % (r.length : ℤ)).toNat 0 = z.getD ((start + run.length - 1) % (r.length : ℤ)).toNat 0)) := by
  obtain ⟨start', q, res, hs', h2, hq, hres, h | h⟩ := smoothStep_ok sqrt ls tol r z bounds plot s s' run hc h
  · left
    rw [h.2]
    exact ⟨rfl, rfl, rfl⟩
  · right
    rw [hs] at hs'
    cases hs'
    obtain ⟨-, h3, h4, h5, h6, hp, -⟩ := smoothRun_ok s s' run start _ _ plot h.2
    rw [hr] at h5 h6
    have hX : ((curvePoints q.2.2.2 res.x run.length).map Prod.fst).length = run.length := by rw [List.length_map, curvePoints_length]
    have hY : ((curvePoints q.2.2.2 res.x run.length).map Prod.snd).length = run.length := by rw [List.length_map, curvePoints_length]
    obtain ⟨b, hb1, hb2, hb3⟩ := smoothStore_spec s.r ((curvePoints q.2.2.2 res.x run.length).map Prod.fst) start (by rw [hr]; omega) (by rw [hX, hr]; omega) (by rw [hX, hr]; omega)
    obtain ⟨c, hc1, hc2, hc3⟩ := smoothStore_spec s.z ((curvePoints q.2.2.2 res.x run.length).map Prod.snd) start (by rw [hz]; omega) (by rw [hY, hz]; omega) (by rw [hY, hz]; omega)
    rw [h3] at hb1
    rw [h4] at hc1
    cases hb1
    cases hc1
    rw [hr, hX] at hb3
    rw [hz, hY] at hc3
    have hn : 0 < r.length := by omega
    obtain ⟨q1, q2, -⟩ := smoothSetup_ok r z start _ q hl hq
    have hi : ∀ i < run.length, s'.r.getD ((start + i) % (r.length : ℤ)).toNat 0 = ((curvePoints q.2.2.2 res.x run.length).getD i (0, 0)).1 ∧
        s'.z.getD ((start + i) % (r.length : ℤ)).toNat 0 = ((curvePoints q.2.2.2 res.x run.length).getD i (0, 0)).2 := by
      intro i hi
      have e : ((((start + i) % (r.length : ℤ)).toNat : ℤ) - start) % (r.length : ℤ) = i := by
        rw [emod_toNat_cast _ _ hn, Int.emod_sub_emod, show start + (i : ℤ) - start = i by ring, Int.emod_eq_of_lt (by omega) (by omega)]
      rw [hb3 _ (emod_toNat_lt _ _ hn), hc3 _ (emod_toNat_lt _ _ hn), e, Int.toNat_natCast, if_pos hi, if_pos hi]
      rw [List.getD_eq_getElem _ _ (by rw [hX]; exact hi), List.getD_eq_getElem _ _ (by rw [curvePoints_length]; exact hi), List.getD_eq_getElem _ _ (by rw [hY]; exact hi)]
      simp
    have h0 := hi 0 hp
    rw [(curvePoints_ends _ _ _).1 hp, q1] at h0
    simp only [Nat.cast_zero, add_zero] at h0
    refine ⟨h0.1, h0.2, q, res, hq, hres, fun h2r hres0 => ?_⟩
    have h1 := hi (run.length - 1) (by omega)
    have e : start + ((run.length - 1 : ℕ) : ℤ) = start + run.length - 1 := by omega
    rw [(curvePoints_ends _ _ _).2 h2r, e, ((C164_residual _ _ _ _).mp hres0).1, q1, q2] at h1
    refine ⟨by rw [h1.1]; ring, by rw [h1.2]; ring⟩

/-! ### C165: length and curvature -/

/-- **C165.** `deriv` and `deriv2` are the derivatives. -/
theorem C165_deriv (x : Cubic ℝ) (s : ℝ) : HasDerivAt (fun s => (x.at s).1) (x.deriv s).1 s ∧ HasDerivAt (fun s => (x.at s).2) (x.deriv s).2 s ∧
    HasDerivAt (fun s => (x.deriv s).1) (x.deriv2 s).1 s ∧ HasDerivAt (fun s => (x.deriv s).2) (x.deriv2 s).2 s := by
  have p2 := hasDerivAt_pow 2 s
  have p3 := hasDerivAt_pow 3 s
  have p1 := hasDerivAt_id' s
  have key : ∀ a b c : ℝ, HasDerivAt (fun s => a * s + b * s ^ 2 * (1 / 2) + c * s ^ 3 / 3) (a + b * s + c * s ^ 2) s := by
    intro a b c
    have := ((p1.const_mul a).add ((p2.const_mul b).mul_const (1 / 2))).add ((p3.const_mul c).div_const 3)
    refine this.congr_deriv ?_
    push_cast
    ring
  have key2 : ∀ a b c : ℝ, HasDerivAt (fun s => a + b * s + c * s ^ 2) (b + 2 * c * s) s := by
    intro a b c
    have := ((p1.const_mul b).const_add a).add (p2.const_mul c)
    refine this.congr_deriv ?_
    push_cast
    ring
  exact ⟨key _ _ _, key _ _ _, key2 _ _ _, key2 _ _ _⟩

/-- **C165.** The integrand of the length is the squared speed. -/
theorem C165_speed (x : Cubic K) (s : K) : lenSq x s = (x.deriv s).1 ^ 2 + (x.deriv s).2 ^ 2 := by
  unfold lenSq Cubic.deriv
  ring

/-- **C165.** `lenofs` is the mean of the speed over the 100 samples. -/
theorem C165_length (sqrt : K → K) (x : Cubic K) : lenOfS sqrt x = ((linspaceClosed (0 : K) 1 100).map fun s => sqrt ((x.deriv s).1 ^ 2 + (x.deriv s).2 ^ 2)).sum / 100 := by
  unfold lenOfS
  simp only [C165_speed]

/-- **C165.** `curv` gives the squared second derivatives at the two ends, the last one first. -/
theorem C165_curv (x : Cubic K) (f : K) : curvEnds x f = (((x.deriv2 1).1 ^ 2 + (x.deriv2 1).2 ^ 2) * f, ((x.deriv2 0).1 ^ 2 + (x.deriv2 0).2 ^ 2) * f) := by
  unfold curvEnds Cubic.deriv2
  ext <;> dsimp only <;> ring

/-- **C165.** The residual that is minimised: four for the ends, the length and the two curvatures. -/
theorem C165_residual (sqrt : K → K) (dm dp end0 : K × K) (x : Cubic K) : smoothFun sqrt dm dp end0 x = [(x.at 1).1 - end0.1, (x.at 1).2 - end0.2, (x.deriv 0).1 * dm.2 - (x.deriv 0).2 * dm.1,
    (x.deriv 1).1 * dp.2 - (x.deriv 1).2 * dp.1, lenOfS sqrt x / 100000, ((x.deriv2 1).1 ^ 2 + (x.deriv2 1).2 ^ 2) / 1000, ((x.deriv2 0).1 ^ 2 + (x.deriv2 0).2 ^ 2) / 1000] := by
  unfold smoothFun
  rw [C165_curv]
  unfold smoothRes Cubic.at Cubic.deriv
  simp only [List.cons_append, List.nil_append, List.cons.injEq, and_true, true_and]
  refine ⟨?_, ?_, ?_, ?_, ?_, ?_⟩ <;> ring

end Zoidberg
