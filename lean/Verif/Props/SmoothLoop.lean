import Verif.Props.SmoothCurve

/-!
# C90, C91, C166-C169: gen_newr and smooth
-/

set_option linter.unusedSectionVars false

namespace Zoidberg

variable {K : Type} [Field K] [LinearOrder K]

/-! ### C90: the indices -/

theorem npGet_at (a : List K) (i : ℤ) (h1 : -(a.length : ℤ) ≤ i) (h2 : i < a.length) : npGet a i = .ok (a.getD (i % (a.length : ℤ)).toNat 0) := by
  obtain ⟨v, hv⟩ := (npGet_ok a i).mpr ⟨h1, h2⟩
  rw [hv, (npGet_val a i v hv).1]

/-- **C90 (refutation).** A run that ends at the last point raises an `IndexError`. -/
theorem C90_end (s : SmoothState K) (run : List ℤ) (start : ℤ) (p0 : K × K) (x : Cubic K) (plot : Bool) (hl : s.r.length = s.z.length) (hp : 0 < run.length) (h0 : 0 ≤ start) (he : start + run.length = s.r.length) :
    smoothRun s run start p0 x plot = .error (.index "index is out of bounds") := by
  unfold smoothRun
  dsimp only
  have lin : (linspaceClosed (0 : K) 1 run.length).length = run.length := by unfold linspaceClosed; simp
  rw [npGet_at _ 0 (by omega) (by rw [List.length_map, lin]; omega), npGet_at s.r (start - 1) (by omega) (by omega), npGet_at _ 0 (by omega) (by rw [List.length_map, lin]; omega),
    npGet_at s.z (start - 1) (by omega) (by omega), npGet_at _ (-1) (by rw [List.length_map, lin]; omega) (by omega)]
  simp only [Except.bind]
  have : npGet s.r (start + run.length) = .error (.index "index is out of bounds") := by
    unfold npGet pyIndex
    rw [if_pos (by omega), if_neg (by omega)]
  rw [this]

/-- **C90 (partial).** A run that ends before the last point is smoothed without an error if the solver returns and nothing is plotted.  Missing: runs that end at the last point (`C90_end`). -/
theorem C90_step_partial (sqrt : K → K) (ls : CubicSolver K) (tol : K) (r z : List K) (bounds : ℕ) (s : SmoothState K) (run : List ℤ) (start : ℤ) (hl : r.length = z.length) (hr : s.r.length = r.length) (hz : s.z.length = r.length)
    (hc : run.IsChain fun a b => a + 1 = b) (hs : run.head? = some start) (h1 : -(r.length : ℤ) < start) (h2 : start + run.length < r.length) (h3 : 2 * run.length < r.length) (hb : bounds ≤ run.length)
    (hls : ∀ f, ∃ res, ls f = .ok res) : ∃ s', smoothStep sqrt ls tol r z bounds false s run = .ok s' := by
  have hp : 0 < run.length := by
    cases run with
    | nil => cases hs
    | cons a l => simp
  obtain ⟨stop, ht⟩ : ∃ t, run.getLast? = some t := by
    cases hg : run.getLast? with
    | none => rw [List.getLast?_eq_none_iff] at hg; rw [hg] at hp; simp at hp
    | some t => exact ⟨t, rfl⟩
  have hstop := chain_last run start stop hs ht hc
  unfold smoothStep
  rw [if_neg (not_not.mpr hb), if_neg (by omega), hs, ht]
  dsimp only
  have hset : ∃ q, smoothSetup r z start stop = .ok q := by
    unfold smoothSetup
    rw [npGet_at r start (by omega) (by omega), npGet_at r (start - 1) (by omega) (by omega), npGet_at z start (by omega) (by omega), npGet_at z (start - 1) (by omega) (by omega)]
    simp only [Except.bind]
    rw [if_pos (by omega), npGet_at r stop (by omega) (by omega), npGet_at r (stop + 1) (by omega) (by omega), npGet_at z stop (by omega) (by omega), npGet_at z (stop + 1) (by omega) (by omega)]
    exact ⟨_, rfl⟩
  obtain ⟨q, hq⟩ := hset
  obtain ⟨res, hres⟩ := hls (smoothFun sqrt q.1 q.2.1 q.2.2.1)
  rw [hq]
  change ∃ s', (ls (smoothFun sqrt q.1 q.2.1 q.2.2.1)).bind _ = .ok s'
  rw [hres]
  change ∃ s', (if tol < res.optimality then _ else _) = Except.ok s'
  split_ifs with ho
  · exact ⟨_, rfl⟩
  · unfold smoothRun
    dsimp only
    have lin : (linspaceClosed (0 : K) 1 run.length).length = run.length := by unfold linspaceClosed; simp
    rw [npGet_at _ 0 (by omega) (by rw [List.length_map, lin]; omega), npGet_at s.r (start - 1) (by omega) (by omega), npGet_at _ 0 (by omega) (by rw [List.length_map, lin]; omega),
      npGet_at s.z (start - 1) (by omega) (by omega), npGet_at _ (-1) (by rw [List.length_map, lin]; omega) (by rw [List.length_map, lin]; omega), npGet_at s.r (start + run.length) (by omega) (by omega),
      npGet_at _ (-1) (by rw [List.length_map, lin]; omega) (by rw [List.length_map, lin]; omega), npGet_at s.z (start + run.length) (by omega) (by omega)]
    simp only [Except.bind]
    obtain ⟨b, hb1, -⟩ := smoothStore_spec s.r ((linspaceClosed (0 : K) 1 run.length).map fun t => q.2.2.2.1 + (res.x.at t).1) start (by omega) (by rw [List.length_map, lin]; omega) (by rw [List.length_map, lin]; omega)
    obtain ⟨c, hc1, -⟩ := smoothStore_spec s.z ((linspaceClosed (0 : K) 1 run.length).map fun t => q.2.2.2.2 + (res.x.at t).2) start (by omega) (by rw [List.length_map, lin]; omega) (by rw [List.length_map, lin]; omega)
    rw [hb1, hc1]
    exact ⟨_, rfl⟩

/-- **C90 (partial).** The same for `gen_newr`.  Missing: runs that end at the last point (`C90_fails`). -/
theorem C90_newr_partial (sqrt : K → K) (ls : CubicSolver K) (tol : K) (r z : List K) (bounds : ℕ) (hl : r.length = z.length) (hls : ∀ f, ∃ res, ls f = .ok res) (runs : List (List ℤ))
    (hruns : ∀ m ∈ runs, m ≠ [] ∧ (m.IsChain fun a b => a + 1 = b) ∧ bounds ≤ m.length ∧ 2 * m.length < r.length ∧ ∀ i ∈ m, -(r.length : ℤ) < i ∧ i < (r.length : ℤ) - 1) :
    ∃ s, genNewr sqrt ls tol r z runs bounds false = .ok s := by
  have key : ∀ (l : List (List ℤ)) (s : SmoothState K), s.r.length = r.length → s.z.length = r.length → (∀ m ∈ l, m ∈ runs) →
      ∃ s', l.foldl (fun (s : Except Err (SmoothState K)) run => s.bind fun s => smoothStep sqrt ls tol r z bounds false s run) (.ok s) = .ok s' := by
    intro l
    induction l with
    | nil => intro s _ _ _; exact ⟨s, rfl⟩
    | cons m l ih =>
      intro s h1 h2 hm
      obtain ⟨g1, g2, g3, g4, g5⟩ := hruns m (hm m (by simp))
      match m, g1 with
      | a :: m, _ =>
        have hlast : a + ((a :: m).length : ℤ) < r.length := by
          obtain ⟨t, ht⟩ : ∃ t, (a :: m).getLast? = some t := ⟨_, List.getLast?_eq_getLast_of_ne_nil (by simp)⟩
          have e := chain_last (a :: m) a t rfl ht g2
          have := (g5 t (List.mem_of_getLast? ht)).2
          omega
        obtain ⟨s', hs'⟩ := C90_step_partial sqrt ls tol r z bounds s (a :: m) a hl h1 h2 g2 rfl (g5 a (by simp)).1 hlast g4 g3 hls
        obtain ⟨k1, k2, -⟩ := smoothStep_outside sqrt ls tol r z bounds false s s' (a :: m) h1 h2 g2 hs'
        obtain ⟨s2, h2'⟩ := ih s' k1 k2 fun n hn => hm n (by simp [hn])
        refine ⟨s2, ?_⟩
        rw [List.foldl_cons]
        change l.foldl _ (smoothStep sqrt ls tol r z bounds false s (a :: m)) = _
        rw [hs']
        exact h2'
  exact key runs ⟨r, z, false, []⟩ rfl hl.symm fun m hm => hm

/-! ### C91: the loop ends -/

/-- **C91.** `4 bounds + 1` passes are always enough. -/
theorem C91_terminates (sqrt : K → K) (ls : CubicSolver K) (tol cutoff : K) (boundsFind bounds0 : ℕ) (plot : Bool) : ∀ (fuel bounds : ℕ) (r z : List K), bounds0 * 5 < bounds + fuel → 0 < fuel →
    smoothLoop sqrt ls tol cutoff boundsFind bounds0 plot fuel bounds r z ≠ .running
  | 0, _, _, _, _, h => absurd h (lt_irrefl 0)
  | fuel + 1, bounds, r, z, h, _ => by
    rw [smoothLoop]
    cases smoothPass sqrt ls tol cutoff boundsFind bounds plot r z with
    | error e => simp
    | ok s =>
      dsimp only
      split_ifs with h1 h2 h3
      · simp
      · simp
      · simp
      · simp
      · exact C91_terminates sqrt ls tol cutoff boundsFind bounds0 plot fuel (bounds + 1) s.r s.z (by omega) (by omega)

/-- **C91.** The bound for `smooth`. -/
theorem C91_smooth (sqrt : K → K) (ls : CubicSolver K) (tol cutoff : K) (bounds : ℕ) (boundsFind : Option ℕ) (plot : Bool) (r z : List K) :
    smoothLine sqrt ls tol cutoff bounds boundsFind plot (4 * bounds + 1) r z ≠ .running := by
  unfold smoothLine
  exact C91_terminates sqrt ls tol cutoff _ bounds plot _ _ r z (by omega) (by omega)

/-- **C91.** The result does not depend on the number of passes that are followed, if they are enough. -/
theorem C91_fuel (sqrt : K → K) (ls : CubicSolver K) (tol cutoff : K) (boundsFind bounds0 : ℕ) (plot : Bool) : ∀ (fuel bounds : ℕ) (r z : List K), smoothLoop sqrt ls tol cutoff boundsFind bounds0 plot fuel bounds r z ≠ .running →
    smoothLoop sqrt ls tol cutoff boundsFind bounds0 plot (fuel + 1) bounds r z = smoothLoop sqrt ls tol cutoff boundsFind bounds0 plot fuel bounds r z
  | 0, _, _, _, h => absurd rfl h
  | fuel + 1, bounds, r, z, h => by
    rw [smoothLoop] at h ⊢
    conv_rhs => rw [smoothLoop]
    cases hp : smoothPass sqrt ls tol cutoff boundsFind bounds plot r z with
    | error e => rfl
    | ok s =>
      rw [hp] at h
      dsimp only at h ⊢
      split_ifs at h ⊢
      · rfl
      · rfl
      · rfl
      · rfl
      · exact C91_fuel sqrt ls tol cutoff boundsFind bounds0 plot fuel (bounds + 1) s.r s.z h

/-! ### C166: nothing to smooth -/

/-- **C166.** Without outliers the data are returned as they are, whatever the solver and the plots. -/
theorem C166_unchanged (sqrt : K → K) (ls : CubicSolver K) (tol cutoff : K) (bounds : ℕ) (plot : Bool) (fuel : ℕ) (r z : List K) (h : allOutliers sqrt r z cutoff bounds = .ok []) :
    smoothLine sqrt ls tol cutoff bounds none plot (fuel + 1) r z = .ok r z ∧ smoothLine sqrt ls tol cutoff bounds (some 0) plot (fuel + 1) r z = .ok r z := by
  have key : smoothLoop sqrt ls tol cutoff bounds bounds plot (fuel + 1) bounds r z = .ok r z := by
    rw [smoothLoop]
    unfold smoothPass
    rw [h]
    rfl
  exact ⟨key, key⟩

/-- **C166.** The same with `bounds_find`. -/
theorem C166_find (sqrt : K → K) (ls : CubicSolver K) (tol cutoff : K) (bounds bf : ℕ) (hbf : bf ≠ 0) (plot : Bool) (fuel : ℕ) (r z : List K) (h : allOutliers sqrt r z cutoff bf = .ok []) :
    smoothLine sqrt ls tol cutoff bounds (some bf) plot (fuel + 1) r z = .ok r z := by
  unfold smoothLine
  dsimp only
  rw [if_neg hbf, smoothLoop]
  unfold smoothPass
  rw [h]
  rfl

/-- **C166.** The outliers are those of all distances up to `bounds_find`. -/
theorem C166_outliers (sqrt : K → K) (r z : List K) (cutoff : K) (bf : ℕ) (out : List ℤ) (h : allOutliers sqrt r z cutoff bf = .ok out) (d : ℤ) :
    d ∈ out ↔ ∃ b, 1 ≤ b ∧ b ≤ bf ∧ ∃ item < z.length, d = (item : ℤ) - b ∧ outlierAt sqrt r z cutoff b item = .ok true := by
  unfold allOutliers at h
  have key : ∀ (l : List ℕ) (o : List (List ℤ)), (l.mapM fun b => findOutliers sqrt r z cutoff (b + 1)) = .ok o →
      ∀ d, d ∈ o.flatten ↔ ∃ b ∈ l, ∃ item < z.length, d = (item : ℤ) - ((b + 1 : ℕ) : ℤ) ∧ outlierAt sqrt r z cutoff (b + 1) item = .ok true := by
    intro l
    induction l with
    | nil => intro o ho d; cases ho; simp
    | cons a l ih =>
      intro o ho d
      rw [List.mapM_cons] at ho
      cases ha : findOutliers sqrt r z cutoff (a + 1) with
      | error e => rw [ha] at ho; cases ho
      | ok v =>
        rw [ha] at ho
        change ((l.mapM fun b => findOutliers sqrt r z cutoff (b + 1)) >>= fun bs => pure (v :: bs)) = .ok o at ho
        cases hlm : l.mapM fun b => findOutliers sqrt r z cutoff (b + 1) with
        | error e => rw [hlm] at ho; cases ho
        | ok w =>
          rw [hlm] at ho
          cases ho
          rw [List.flatten_cons, List.mem_append, ih w hlm d, C162_outliers sqrt r z cutoff (a + 1) v ha d]
          simp
  cases hm : (List.range bf).mapM fun b => findOutliers sqrt r z cutoff (b + 1) with
  | error e => rw [hm] at h; cases h
  | ok o =>
    rw [hm] at h
    cases h
    rw [key _ o hm d]
    constructor
    · rintro ⟨b, hb, h⟩
      exact ⟨b + 1, by omega, by have := List.mem_range.mp hb; omega, h⟩
    · rintro ⟨b, h1, h2, h⟩
      refine ⟨b - 1, List.mem_range.mpr (by omega), ?_⟩
      rw [show b - 1 + 1 = b by omega]
      exact h

/-! ### C167: the end without success -/

/-- **C167 (refutation).** Without plots `smooth` never returns `None`. -/
theorem C167_noplot (sqrt : K → K) (ls : CubicSolver K) (tol cutoff : K) (boundsFind bounds0 : ℕ) : ∀ (fuel bounds : ℕ) (r z : List K), smoothLoop sqrt ls tol cutoff boundsFind bounds0 false fuel bounds r z ≠ .none
  | 0, _, _, _ => by simp [smoothLoop]
  | fuel + 1, bounds, r, z => by
    rw [smoothLoop]
    cases smoothPass sqrt ls tol cutoff boundsFind bounds false r z with
    | error e => simp
    | ok s =>
      dsimp only
      split_ifs
      · simp
      · simp
      · contradiction
      · simp
      · exact C167_noplot sqrt ls tol cutoff boundsFind bounds0 fuel (bounds + 1) s.r s.z

/-- With plots a step that returns has not changed anything. -/
theorem step_plot (sqrt : K → K) (ls : CubicSolver K) (tol : K) (r z : List K) (bounds : ℕ) (s s' : SmoothState K) (run : List ℤ) (h : smoothStep sqrt ls tol r z bounds true s run = .ok s') :
    s'.r = s.r ∧ s'.z = s.z ∧ s'.failed = true := by
  unfold smoothStep at h
  by_cases hb : ¬ bounds ≤ run.length
  · rw [if_pos hb] at h; cases h
  rw [if_neg hb] at h
  by_cases h2 : r.length ≤ 2 * run.length
  · rw [if_pos h2] at h; cases h
  rw [if_neg h2] at h
  cases hs : run.head? with
  | none => rw [hs] at h; cases h
  | some start =>
    cases ht : run.getLast? with
    | none => rw [hs, ht] at h; cases h
    | some stop =>
      rw [hs, ht] at h
      dsimp only at h
      obtain ⟨q, hq, h⟩ := bind_ok h
      obtain ⟨res, hres, h⟩ := bind_ok h
      by_cases ho : tol < res.optimality
      · rw [if_pos ho] at h
        cases h
        exact ⟨rfl, rfl, rfl⟩
      · rw [if_neg ho] at h
        have := (smoothRun_ok s s' run start _ _ true h).1
        cases this

/-- **C167 (refutation).** With plots `smooth` returns data only if it has changed nothing. -/
theorem C167_plot (sqrt : K → K) (ls : CubicSolver K) (tol cutoff : K) (boundsFind bounds0 : ℕ) : ∀ (fuel bounds : ℕ) (r z r' z' : List K), smoothLoop sqrt ls tol cutoff boundsFind bounds0 true fuel bounds r z = .ok r' z' →
    r' = r ∧ z' = z
  | 0, _, _, _, _, _, h => by cases h
  | fuel + 1, bounds, r, z, r', z', h => by
    rw [smoothLoop] at h
    cases hp : smoothPass sqrt ls tol cutoff boundsFind bounds true r z with
    | error e => rw [hp] at h; cases h
    | ok s =>
      have hs : s.r = r ∧ s.z = z := by
        unfold smoothPass at hp
        obtain ⟨o, -, hp⟩ := bind_ok hp
        obtain ⟨runs, -, hp⟩ := bind_ok hp
        exact genNewr_ind sqrt ls tol r z bounds true (fun s _ => s.r = r ∧ s.z = z) (fun s s' run _ hP hst => by
          obtain ⟨h1, h2, -⟩ := step_plot sqrt ls tol r z bounds s s' run hst
          exact ⟨h1.trans hP.1, h2.trans hP.2⟩) runs [] ⟨r, z, false, []⟩ s ⟨rfl, rfl⟩ hp
      rw [hp] at h
      dsimp only at h
      split_ifs at h
      · cases h
        exact hs
      · have := C167_plot sqrt ls tol cutoff boundsFind bounds0 fuel (bounds + 1) s.r s.z r' z' h
        rw [hs.1, hs.2] at this
        exact this

/-- **C167 (partial).** What does hold: lengths are kept by whatever is returned.  Missing: that `None` or data are always returned (`C167_fails`). -/
theorem C167_lengths_partial (sqrt : K → K) (ls : CubicSolver K) (tol cutoff : K) (boundsFind bounds0 : ℕ) (plot : Bool) : ∀ (fuel bounds : ℕ) (r z r' z' : List K), r.length = z.length →
    smoothLoop sqrt ls tol cutoff boundsFind bounds0 plot fuel bounds r z = .ok r' z' → r'.length = r.length ∧ z'.length = z.length
  | 0, _, _, _, _, _, _, h => by cases h
  | fuel + 1, bounds, r, z, r', z', hl, h => by
    rw [smoothLoop] at h
    cases hp : smoothPass sqrt ls tol cutoff boundsFind bounds plot r z with
    | error e => rw [hp] at h; cases h
    | ok s =>
      obtain ⟨-, -, h1, h2, -⟩ := C163_pass sqrt ls tol cutoff boundsFind bounds plot r z s hl hp
      rw [hp] at h
      dsimp only at h
      split_ifs at h
      · cases h
        exact ⟨h1, h2⟩
      · obtain ⟨g1, g2⟩ := C167_lengths_partial sqrt ls tol cutoff boundsFind bounds0 plot fuel (bounds + 1) s.r s.z r' z' (by rw [h1, h2, hl]) h
        exact ⟨g1.trans h1, g2.trans h2⟩

/-! ### C168: overlapping runs -/

/-- **C168 (refutation).** Two runs can contain the same point of the closed line. -/
theorem C168_fails : ¬ ∀ (b len : ℕ) (outliers : List ℤ) (runs : List (List ℤ)), (∀ d ∈ outliers, -(b : ℤ) ≤ d ∧ d < (len : ℤ) - b) → pointsToSmooth b outliers len = .ok runs →
    ∀ m ∈ runs, ∀ n ∈ runs, m ≠ n → ∀ i ∈ m, ∀ j ∈ n, i % (len : ℤ) ≠ j % (len : ℤ) := by
  intro h
  have h1 : (pointsToSmooth 2 [0, 6] 10).toOption = some [[-2, -1, 0, 1, 2], [4, 5, 6, 7, 8]] := by decide +kernel
  cases hp : pointsToSmooth 2 [0, 6] 10 with
  | error e => rw [hp] at h1; cases h1
  | ok r =>
    rw [hp] at h1
    cases h1
    exact h 2 10 [0, 6] _ (by decide) hp [-2, -1, 0, 1, 2] (by simp) [4, 5, 6, 7, 8] (by simp) (by decide) (-2) (by simp) 8 (by simp) (by decide)

/-- **C168 (partial).** They cannot if all outliers are at least `bounds` from the start.  Missing: outliers near the start. -/
theorem C168_partial (b len : ℕ) (outliers : List ℤ) (runs : List (List ℤ)) (ho : ∀ d ∈ outliers, (b : ℤ) ≤ d) (h : pointsToSmooth b outliers len = .ok runs) (m n : List ℤ) (hm : m ∈ runs) (hn : n ∈ runs) (hne : m ≠ n)
    (i j : ℤ) (hi : i ∈ m) (hj : j ∈ n) : i % (len : ℤ) ≠ j % (len : ℤ) := by
  obtain ⟨h1, h2, h3⟩ := C88_runs b len outliers runs h
  obtain ⟨⟨d, hd, hd1, -⟩, hi2⟩ := (h3 i).mp (List.mem_flatten.mpr ⟨m, hm, hi⟩)
  obtain ⟨⟨e, he, he1, -⟩, hj2⟩ := (h3 j).mp (List.mem_flatten.mpr ⟨n, hn, hj⟩)
  have := ho d hd
  have := ho e he
  rw [Int.emod_eq_of_lt (by omega) hi2, Int.emod_eq_of_lt (by omega) hj2]
  rintro rfl
  exact hne (run_unique runs h1 m n hm hn i hi hj)

/-! ### C169: failures leave a trace, the assertion holds -/

/-- **C169.** If `gen_newr` reports a failure then `deb` is not empty, so that `deb[-1]` exists. -/
theorem C169_deb (sqrt : K → K) (ls : CubicSolver K) (tol : K) (r z : List K) (runs : List (List ℤ)) (bounds : ℕ) (plot : Bool) (s : SmoothState K) (hc : ∀ m ∈ runs, m.IsChain fun a b => a + 1 = b)
    (h : genNewr sqrt ls tol r z runs bounds plot = .ok s) (hf : s.failed = true) : s.deb ≠ [] := by
  have := genNewr_ind sqrt ls tol r z bounds plot (fun s done => (∀ m ∈ done, m.IsChain fun a b => a + 1 = b) → s.failed = true → s.deb ≠ []) ?_ runs [] ⟨r, z, false, []⟩ s (fun _ h => by cases h) h
  · exact this (by simpa using hc) hf
  · intro s s' run done hP hst hch hf'
    have hP' := hP fun m hm => hch m (by simp [hm])
    obtain ⟨start, q, res, hs, h2, -, -, h | h⟩ := smoothStep_ok sqrt ls tol r z bounds plot s s' run (hch run (by simp)) hst
    · rw [h.2]
      simp
    · obtain ⟨-, -, -, -, -, -, -, hd⟩ := smoothRun_ok s s' run start _ _ plot h.2
      apply hd hf'
      cases hsf : s.failed with
      | true => exact Or.inl (hP' hsf)
      | false => exact Or.inr rfl

theorem allOutliers_lt (sqrt : K → K) (r z : List K) (cutoff : K) (bf : ℕ) (out : List ℤ) (hl : r.length = z.length) (h : allOutliers sqrt r z cutoff bf = .ok out) (d : ℤ) (hd : d ∈ out) : d < r.length := by
  unfold allOutliers at h
  have key : ∀ (l : List ℕ) (o : List (List ℤ)), (l.mapM fun b => findOutliers sqrt r z cutoff (b + 1)) = .ok o → ∀ m ∈ o, ∀ d ∈ m, d < r.length := by
    intro l
    induction l with
    | nil => intro o ho m hm; cases ho; cases hm
    | cons a l ih =>
      intro o ho
      rw [List.mapM_cons] at ho
      cases ha : findOutliers sqrt r z cutoff (a + 1) with
      | error e => rw [ha] at ho; cases ho
      | ok v =>
        rw [ha] at ho
        change ((l.mapM fun b => findOutliers sqrt r z cutoff (b + 1)) >>= fun bs => pure (v :: bs)) = .ok o at ho
        cases hlm : l.mapM fun b => findOutliers sqrt r z cutoff (b + 1) with
        | error e => rw [hlm] at ho; cases ho
        | ok w =>
          rw [hlm] at ho
          cases ho
          intro m hm d hd
          rcases List.mem_cons.mp hm with rfl | hm
          · have := C162_range sqrt r z cutoff (a + 1) m ha d hd
            rw [hl]
            push_cast at this
            omega
          · exact ih w hlm m hm d hd
  cases hm : (List.range bf).mapM fun b => findOutliers sqrt r z cutoff (b + 1) with
  | error e => rw [hm] at h; cases h
  | ok o =>
    rw [hm] at h
    cases h
    obtain ⟨m, hm1, hm2⟩ := List.mem_flatten.mp hd
    exact key _ o hm m hm1 d hm2

/-- **C169.** In `smooth` every run has more than `bounds` points, so that the assertion of `gen_newr` holds. -/
theorem C169_assertion (sqrt : K → K) (r z : List K) (cutoff : K) (boundsFind bounds : ℕ) (hl : r.length = z.length) (outliers : List ℤ) (runs : List (List ℤ)) (ho : allOutliers sqrt r z cutoff boundsFind = .ok outliers)
    (h : pointsToSmooth bounds outliers r.length = .ok runs) (m : List ℤ) (hm : m ∈ runs) : bounds + 1 ≤ m.length :=
  C88_length_partial bounds r.length outliers (fun d hd => allOutliers_lt sqrt r z cutoff boundsFind outliers hl ho d hd) runs h m hm

/-- **C169.** In `smooth` the points to smooth can always be split. -/
theorem C169_split (sqrt : K → K) (r z : List K) (cutoff : K) (boundsFind bounds : ℕ) (hl : r.length = z.length) (outliers : List ℤ) (ho : allOutliers sqrt r z cutoff boundsFind = .ok outliers) :
    ∃ runs, pointsToSmooth bounds outliers r.length = .ok runs :=
  C88_returns bounds r.length outliers fun d hd => allOutliers_lt sqrt r z cutoff boundsFind outliers hl ho d hd

/-! ### Examples -/

/-- The lengths that occur in the example. -/
def exRoot (x : ℚ) : ℚ := if x = 1 then 1 else if x = 2 then 1414 / 1000 else if x = 4 then 2 else if x = 5 then 2236 / 1000 else 2828 / 1000

/-- A line with one sharp corner, at index `24 - k`. -/
def exDrop (k : ℕ) : List (ℚ × ℚ) :=
  ([(0, 0), (1, 0), (2, 0), (3, 0), (4, 0), (5, 0), (6, 0), (7, 0), (8, 1), (9, 2), (9, 3), (9, 4), (8, 5), (7, 6), (6, 6), (5, 6), (4, 6), (3, 6), (2, 6), (1, 5), (0, 4), (0, 3), (0, 2), (0, 1)] : List (ℚ × ℚ)).rotate k

/-- A solver that returns the straight line. -/
def exStraight : CubicSolver ℚ := fun f =>
  let v := f ⟨0, 0, 0, 0, 0, 0⟩
  .ok ⟨⟨-v.getD 0 0, 0, 0, -v.getD 1 0, 0, 0⟩, 0, 0⟩

/-- A solver that does not converge. -/
def exLost : CubicSolver ℚ := fun _ => .ok ⟨⟨0, 0, 0, 0, 0, 0⟩, 1, 1⟩

/-- The end as a text. -/
def SmoothEnd.show {K : Type} : SmoothEnd K → String
  | .ok _ _ => "ok"
  | .none => "none"
  | .raises (.index _) => "IndexError"
  | .raises (.runtime s) => s
  | .raises _ => "other"
  | .running => "running"

example : (allOutliers exRoot ((exDrop 10).map Prod.fst) ((exDrop 10).map Prod.snd) (3 / 4) 1).toOption = some [14] := by decide +kernel
example : (allOutliers exRoot ((exDrop 10).map Prod.fst) ((exDrop 10).map Prod.snd) (1 / 2) 1).toOption = some [] := by decide +kernel
example : (smoothLine exRoot exStraight (1 / 100000000) (3 / 4) 1 none false 5 ((exDrop 0).map Prod.fst) ((exDrop 0).map Prod.snd)).show = "ok" := by decide +kernel
example : (smoothPass exRoot exStraight (1 / 100000000) (3 / 4) 1 1 false ((exDrop 10).map Prod.fst) ((exDrop 10).map Prod.snd)).toBool = true := by decide +kernel

/-- **C90 (refutation).** A corner before the last point makes `smooth` raise an `IndexError`. -/
theorem C90_fails : ¬ ∀ (r z : List ℚ) (bounds : ℕ), r.length = z.length → 2 * bounds ≤ r.length → (smoothLine exRoot exStraight (1 / 100000000) (3 / 4) bounds none false (4 * bounds + 1) r z).show ≠ "IndexError" := by
  intro h
  exact h ((exDrop 2).map Prod.fst) ((exDrop 2).map Prod.snd) 1 (by decide +kernel) (by decide +kernel) (by decide +kernel)

/-- **C167 (refutation).** Without success an `UnboundLocalError` is raised; with `plot` the first success raises a `NameError`. -/
theorem C167_fails : (smoothLine exRoot exLost (1 / 100000000) (3 / 4) 1 none false 5 ((exDrop 10).map Prod.fst) ((exDrop 10).map Prod.snd)).show = "UnboundLocalError: plt" ∧
    (smoothLine exRoot exStraight (1 / 100000000) (3 / 4) 1 none true 5 ((exDrop 10).map Prod.fst) ((exDrop 10).map Prod.snd)).show = "NameError: name 'plt' is not defined" := by
  constructor <;> decide +kernel

end Zoidberg
