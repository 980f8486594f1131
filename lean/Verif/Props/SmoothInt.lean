import Verif.Model.SmoothInt
import Verif.Props.ParInt
import Verif.Props.SmoothLoop

/-!
# C268: smooth for arrays of integers
-/

set_option linter.unusedSectionVars false

namespace Zoidberg

variable {K : Type} [Field K] [LinearOrder K]

/-! ### The two models are the same code -/

theorem smoothRunCut_id (s : SmoothState K) (run : List ℤ) (start : ℤ) (p0 : K × K) (x : Cubic K) (plot : Bool) :
    smoothRunCut id s run start p0 x plot = smoothRun s run start p0 x plot := by
  unfold smoothRunCut smoothRun
  simp only [List.map_id]

theorem smoothStepCut_id (sqrt : K → K) (ls : CubicSolver K) (tol : K) (r z : List K) (bounds : ℕ) (plot : Bool) (s : SmoothState K) (run : List ℤ) :
    smoothStepCut id sqrt ls tol r z bounds plot s run = smoothStep sqrt ls tol r z bounds plot s run := by
  unfold smoothStepCut smoothStep
  simp only [smoothRunCut_id]
  rfl

theorem genNewrCut_id (sqrt : K → K) (ls : CubicSolver K) (tol : K) (r z : List K) (runs : List (List ℤ)) (bounds : ℕ) (plot : Bool) :
    genNewrCut id sqrt ls tol r z runs bounds plot = genNewr sqrt ls tol r z runs bounds plot := by
  unfold genNewrCut genNewr
  simp only [smoothStepCut_id]

/-- **C268.** Without `cut` this is `smooth`. -/
theorem C268_id (sqrt : K → K) (ls : CubicSolver K) (tol cutoff : K) (bf b0 : ℕ) (plot : Bool) : ∀ (fuel b : ℕ) (r z : List K),
    smoothLoopCut id sqrt ls tol cutoff bf b0 plot fuel b r z = smoothLoop sqrt ls tol cutoff bf b0 plot fuel b r z
  | 0, _, _, _ => rfl
  | fuel + 1, b, r, z => by
    unfold smoothLoopCut smoothLoop smoothPassCut smoothPass
    simp only [genNewrCut_id]
    cases (allOutliers sqrt r z cutoff bf).bind fun outliers => (pointsToSmooth b outliers r.length).bind fun runs => genNewr sqrt ls tol r z runs b plot with
    | error e => rfl
    | ok s => simp only [C268_id sqrt ls tol cutoff bf b0 plot fuel (b + 1) s.r s.z]

variable [IsStrictOrderedRing K] [FloorRing K]

/-- Storing in an array of integers. -/
def intCut (v : K) : K := ((pyInt v : ℤ) : K)

theorem intCut_eq_iff (v : K) : intCut v = v ↔ ∃ k : ℤ, v = k := by
  constructor
  · intro h
    exact ⟨_, h.symm⟩
  · rintro ⟨k, rfl⟩
    unfold intCut
    rw [pyInt_cast]

/-! ### What is stored are integers -/

theorem allInt_iff_mem (a : List K) : AllInt a ↔ ∀ v ∈ a, ∃ k : ℤ, v = k := by
  constructor
  · intro h v hv
    obtain ⟨i, hi, rfl⟩ := List.getElem_of_mem hv
    have := h i
    rwa [List.getD_eq_getElem?_getD, List.getElem?_eq_getElem hi] at this
  · intro h i
    by_cases hi : i < a.length
    · rw [List.getD_eq_getElem?_getD, List.getElem?_eq_getElem hi]
      exact h _ (List.getElem_mem hi)
    · rw [List.getD_eq_getElem?_getD, List.getElem?_eq_none (by omega)]
      exact ⟨0, by simp⟩

theorem allInt_rollZ {a : List K} (h : AllInt a) (k : ℤ) : AllInt (rollZ a k) := by
  rw [allInt_iff_mem]
  intro v hv
  unfold rollZ at hv
  obtain ⟨i, -, rfl⟩ := List.mem_map.1 hv
  exact h _

theorem allInt_assignFirst {a rep b : List K} {n : ℕ} (ha : AllInt a) (hr : AllInt rep) (h : assignFirst a n rep = .ok b) : AllInt b := by
  rw [allInt_iff_mem] at ha hr ⊢
  unfold assignFirst at h
  dsimp only at h
  have hd : ∀ m : ℕ, ∀ v ∈ a.drop m, ∃ k : ℤ, v = k := fun m v hv => ha v (List.mem_of_mem_drop hv)
  split at h
  · injection h with h
    rw [← h]
    intro v hv
    rcases List.mem_append.1 hv with hv | hv
    · exact hr v hv
    · exact hd _ v hv
  · split at h
    · injection h with h
      rw [← h]
      intro v hv
      rcases List.mem_append.1 hv with hv | hv
      · rw [List.eq_of_mem_replicate hv]
        exact hr _ (by simp)
      · exact hd _ v hv
    · simp at h

theorem allInt_store {a X b : List K} {s : ℤ} (ha : AllInt a) (hX : AllInt X) (h : smoothStore a s X = .ok b) : AllInt b := by
  unfold smoothStore at h
  split at h
  · unfold rollup at h
    cases hc : assignFirst (rollZ a (-s)) X.length X with
    | error e => rw [hc] at h; cases h
    | ok c =>
      rw [hc] at h
      cases h
      exact allInt_rollZ (allInt_assignFirst (allInt_rollZ ha _) hX hc) _
  · unfold assignSlice at h
    cases hc : assignFirst (a.drop s.toNat) X.length X with
    | error e => rw [hc] at h; cases h
    | ok c =>
      rw [hc] at h
      cases h
      have hd : AllInt (a.drop s.toNat) := by
        rw [allInt_iff_mem] at ha ⊢
        exact fun v hv => ha v (List.mem_of_mem_drop hv)
      have hc' := allInt_assignFirst hd hX hc
      rw [allInt_iff_mem] at ha hc' ⊢
      intro v hv
      rcases List.mem_append.1 hv with hv | hv
      · exact ha v (List.mem_of_mem_take hv)
      · exact hc' v hv

theorem allInt_map_intCut (X : List K) : AllInt (X.map (intCut (K := K))) := by
  rw [allInt_iff_mem]
  intro v hv
  obtain ⟨w, -, rfl⟩ := List.mem_map.1 hv
  exact ⟨_, rfl⟩

theorem smoothRunCut_ok {cut : K → K} {s s' : SmoothState K} {run : List ℤ} {start : ℤ} {p0 : K × K} {x : Cubic K} {plot : Bool}
    (h : smoothRunCut cut s run start p0 x plot = .ok s') :
    smoothStore s.r start (((curvePoints p0 x run.length).map Prod.fst).map cut) = .ok s'.r ∧
      smoothStore s.z start (((curvePoints p0 x run.length).map Prod.snd).map cut) = .ok s'.z := by
  unfold smoothRunCut at h
  dsimp only at h
  obtain ⟨X0, hX0, h⟩ := bind_ok h
  obtain ⟨ra, hra, h⟩ := bind_ok h
  obtain ⟨Y0, hY0, h⟩ := bind_ok h
  obtain ⟨za, hza, h⟩ := bind_ok h
  obtain ⟨X1, hX1, h⟩ := bind_ok h
  obtain ⟨rb, hrb, h⟩ := bind_ok h
  obtain ⟨Y1, hY1, h⟩ := bind_ok h
  obtain ⟨zb, hzb, h⟩ := bind_ok h
  obtain ⟨r', hr', h⟩ := bind_ok h
  obtain ⟨z', hz', h⟩ := bind_ok h
  have e1 : (curvePoints p0 x run.length).map Prod.fst = (linspaceClosed (0 : K) 1 run.length).map fun t => p0.1 + (x.at t).1 := by
    unfold curvePoints; rw [List.map_map]; rfl
  have e2 : (curvePoints p0 x run.length).map Prod.snd = (linspaceClosed (0 : K) 1 run.length).map fun t => p0.2 + (x.at t).2 := by
    unfold curvePoints; rw [List.map_map]; rfl
  cases plot with
  | true => cases h
  | false =>
    rw [if_neg (by simp)] at h
    cases h
    exact ⟨by rw [e1]; exact hr', by rw [e2]; exact hz'⟩

theorem genNewrInt_allInt (sqrt : K → K) (ls : CubicSolver K) (tol : K) (r z : List K) (bounds : ℕ) (plot : Bool) :
    ∀ (runs : List (List ℤ)) (s s' : SmoothState K), AllInt s.r → AllInt s.z →
      runs.foldl (fun (s : Except Err (SmoothState K)) run => s.bind fun s => smoothStepCut intCut sqrt ls tol r z bounds plot s run) (.ok s) = .ok s' →
      AllInt s'.r ∧ AllInt s'.z
  | [], s, s', h1, h2, h => by
    cases h
    exact ⟨h1, h2⟩
  | run :: runs, s, s', h1, h2, h => by
    rw [List.foldl_cons] at h
    change runs.foldl _ (smoothStepCut intCut sqrt ls tol r z bounds plot s run) = _ at h
    cases hstep : smoothStepCut intCut sqrt ls tol r z bounds plot s run with
    | error e =>
      rw [hstep] at h
      exfalso
      have : ∀ l : List (List ℤ), l.foldl (fun (s : Except Err (SmoothState K)) run => s.bind fun s => smoothStepCut intCut sqrt ls tol r z bounds plot s run) (.error e) = .error e := by
        intro l
        induction l with
        | nil => rfl
        | cons a l ih => exact ih
      rw [this] at h
      cases h
    | ok s1 =>
      rw [hstep] at h
      have key : AllInt s1.r ∧ AllInt s1.z := by
        unfold smoothStepCut at hstep
        split at hstep
        · cases hstep
        · split at hstep
          · cases hstep
          · split at hstep
            · obtain ⟨q, -, hstep⟩ := bind_ok hstep
              obtain ⟨res, -, hstep⟩ := bind_ok hstep
              split at hstep
              · cases hstep
                exact ⟨h1, h2⟩
              · obtain ⟨a, b⟩ := smoothRunCut_ok hstep
                exact ⟨allInt_store h1 (allInt_map_intCut _) a, allInt_store h2 (allInt_map_intCut _) b⟩
            · cases hstep
      exact genNewrInt_allInt sqrt ls tol r z bounds plot runs s1 s' key.1 key.2 h

/-- **C268.** From arrays of integers `smooth` makes arrays of integers, whatever the curve is. -/
theorem C268_integers (sqrt : K → K) (ls : CubicSolver K) (tol cutoff : K) (bounds : ℕ) (boundsFind : Option ℕ) (plot : Bool) (fuel : ℕ) (r z : List K) (hr : AllInt r)
    (hz : AllInt z) (r' z' : List K) (h : smoothLineInt sqrt ls tol cutoff bounds boundsFind plot fuel r z = .ok r' z') : AllInt r' ∧ AllInt z' := by
  have key : ∀ (bf b0 fuel b : ℕ) (r z : List K), AllInt r → AllInt z → smoothLoopCut intCut sqrt ls tol cutoff bf b0 plot fuel b r z = .ok r' z' → AllInt r' ∧ AllInt z' := by
    intro bf b0 fuel
    induction fuel with
    | zero => intro b r z _ _ h; cases h
    | succ fuel ih =>
      intro b r z hr hz h
      unfold smoothLoopCut at h
      cases hp : smoothPassCut intCut sqrt ls tol cutoff bf b plot r z with
      | error e => rw [hp] at h; cases h
      | ok s =>
        rw [hp] at h
        have hs : AllInt s.r ∧ AllInt s.z := by
          unfold smoothPassCut at hp
          obtain ⟨o, -, hp⟩ := bind_ok hp
          obtain ⟨runs, -, hp⟩ := bind_ok hp
          exact genNewrInt_allInt sqrt ls tol r z b plot runs _ s hr hz hp
        dsimp only at h
        split at h
        · cases h
          exact hs
        · split at h
          · cases h
          · split at h
            · split at h <;> cases h
            · exact ih _ _ _ hs.1 hs.2 h
  exact key _ _ _ _ _ _ hr hz h

/-- **C268**, the exact condition: if `smooth` of the floating point numbers is done, the result for integers can only be the same if all new coordinates
are integers. -/
theorem C268_only_if (sqrt : K → K) (ls : CubicSolver K) (tol cutoff : K) (bounds : ℕ) (boundsFind : Option ℕ) (plot : Bool) (fuel : ℕ) (r z : List K) (hr : AllInt r)
    (hz : AllInt z) (r' z' : List K) (h : smoothLine sqrt ls tol cutoff bounds boundsFind plot fuel r z = .ok r' z') (hn : ¬ (AllInt r' ∧ AllInt z')) :
    smoothLineInt sqrt ls tol cutoff bounds boundsFind plot fuel r z ≠ smoothLine sqrt ls tol cutoff bounds boundsFind plot fuel r z := by
  intro he
  rw [h] at he
  exact hn (C268_integers sqrt ls tol cutoff bounds boundsFind plot fuel r z hr hz r' z' he)

/-- **C268**, one run: with integers exactly the runs give the same whose new points are integers. -/
theorem C268_run_iff (s s' : SmoothState K) (hr : AllInt s.r) (hz : AllInt s.z) (hl : s.r.length = s.z.length) (run : List ℤ) (hn : run.length ≤ s.r.length) (start : ℤ)
    (p0 : K × K) (x : Cubic K) (plot : Bool) (h : smoothRun s run start p0 x plot = .ok s') :
    smoothRunCut intCut s run start p0 x plot = .ok s' ↔
      AllInt ((curvePoints p0 x run.length).map Prod.fst) ∧ AllInt ((curvePoints p0 x run.length).map Prod.snd) := by
  obtain ⟨-, h1, h2, h3, h4, h5, -⟩ := smoothRun_ok s s' run start p0 x plot h
  constructor
  · intro hc
    obtain ⟨c1, c2⟩ := smoothRunCut_ok hc
    have a1 := allInt_store hr (allInt_map_intCut _) c1
    have a2 := allInt_store hz (allInt_map_intCut _) c2
    have gen : ∀ (a X b : List K), a.length = s.r.length → X.length = run.length → smoothStore a start X = .ok b → AllInt b → AllInt X := by
      intro a X b ha hX hb hint i
      by_cases hi : i < X.length
      swap
      · rw [List.getD_eq_getElem?_getD, List.getElem?_eq_none (by omega)]
        exact ⟨0, by simp⟩
      obtain ⟨b', q1, q2, q3⟩ := smoothStore_spec a X start (by rw [ha]; omega) (by rw [hX, ha]; omega) (by rw [hX, ha]; exact hn)
      rw [hb] at q1
      cases q1
      have hpos : 0 < a.length := by omega
      have hpos' : (0 : ℤ) < a.length := by omega
      have hj := emod_toNat_lt (start + i) a.length hpos
      have e : ((((start + i) % (a.length : ℤ)).toNat : ℤ) - start) % (a.length : ℤ) = i := by
        rw [emod_toNat_cast _ _ hpos, Int.emod_sub_emod, show start + (i : ℤ) - start = i by ring, Int.emod_eq_of_lt (by omega) (by omega)]
      have := q3 _ hj
      rw [e, Int.toNat_natCast, if_pos hi] at this
      rw [← this]
      exact hint _
    exact ⟨gen s.r _ s'.r rfl (by rw [List.length_map, curvePoints_length]) h1 a1,
      gen s.z _ s'.z hl.symm (by rw [List.length_map, curvePoints_length]) h2 a2⟩
  · rintro ⟨i1, i2⟩
    have e1 : (curvePoints p0 x run.length).map Prod.fst = (linspaceClosed (0 : K) 1 run.length).map fun t => p0.1 + (x.at t).1 := by
      unfold curvePoints; rw [List.map_map]; rfl
    have e2 : (curvePoints p0 x run.length).map Prod.snd = (linspaceClosed (0 : K) 1 run.length).map fun t => p0.2 + (x.at t).2 := by
      unfold curvePoints; rw [List.map_map]; rfl
    have cutId : ∀ X : List K, AllInt X → X.map intCut = X := by
      intro X hX
      rw [allInt_iff_mem] at hX
      conv_rhs => rw [← List.map_id X]
      exact List.map_congr_left fun v hv => (intCut_eq_iff v).2 (hX v hv)
    rw [e1] at i1
    rw [e2] at i2
    rw [← h]
    unfold smoothRunCut smoothRun
    simp only [cutId _ i1, cutId _ i2]

/-- The full claim: `smooth` gives the same for integers. -/
def SmoothIntRight : Prop := ∀ (sqrt : ℚ → ℚ) (ls : CubicSolver ℚ) (tol cutoff : ℚ) (bounds : ℕ) (boundsFind : Option ℕ) (plot : Bool) (fuel : ℕ) (r z : List ℚ),
  AllInt r → AllInt z → smoothLineInt sqrt ls tol cutoff bounds boundsFind plot fuel r z = smoothLine sqrt ls tol cutoff bounds boundsFind plot fuel r z

/-- The coordinates after `smooth`. -/
def SmoothEnd.rz {K : Type} : SmoothEnd K → Option (List K × List K)
  | .ok r z => some (r, z)
  | _ => Option.none

theorem exDrop_int (i : ℕ) : (∃ k : ℤ, ((exDrop 10).map Prod.fst).getD i 0 = k) ∧ ∃ k : ℤ, ((exDrop 10).map Prod.snd).getD i 0 = k := by
  constructor
  · refine ⟨(((exDrop 10).map Prod.fst).getD i 0).num, ?_⟩
    have : ∀ i < 24, (((exDrop 10).map Prod.fst).getD i 0).den = 1 := by decide +kernel
    by_cases hi : i < 24
    · exact (Rat.den_eq_one_iff _).1 (this i hi) |>.symm
    · rw [List.getD_eq_getElem?_getD, List.getElem?_eq_none (by
        have : ((exDrop 10).map Prod.fst).length = 24 := by decide +kernel
        omega)]
      simp
  · refine ⟨(((exDrop 10).map Prod.snd).getD i 0).num, ?_⟩
    have : ∀ i < 24, (((exDrop 10).map Prod.snd).getD i 0).den = 1 := by decide +kernel
    by_cases hi : i < 24
    · exact (Rat.den_eq_one_iff _).1 (this i hi) |>.symm
    · rw [List.getD_eq_getElem?_getD, List.getElem?_eq_none (by
        have : ((exDrop 10).map Prod.snd).length = 24 := by decide +kernel
        omega)]
      simp

/-- **C268 is false**: of this line of integers the corner is cut off if the numbers are floating point numbers, and nothing changes at all if they are
integers. -/
theorem C268_fails : ¬ SmoothIntRight ∧
    (smoothLineInt exRoot exStraight (1 / 100000000) (3 / 4) 1 none false 5 ((exDrop 10).map Prod.fst) ((exDrop 10).map Prod.snd)).rz =
      some ((exDrop 10).map Prod.fst, (exDrop 10).map Prod.snd) := by
  constructor
  · intro hall
    have h := hall exRoot exStraight (1 / 100000000) (3 / 4) 1 none false 5 ((exDrop 10).map Prod.fst) ((exDrop 10).map Prod.snd)
      (fun i => (exDrop_int i).1) fun i => (exDrop_int i).2
    have h1 : (smoothLine exRoot exStraight (1 / 100000000) (3 / 4) 1 none false 5 ((exDrop 10).map Prod.fst) ((exDrop 10).map Prod.snd)).rz ≠
        (smoothLineInt exRoot exStraight (1 / 100000000) (3 / 4) 1 none false 5 ((exDrop 10).map Prod.fst) ((exDrop 10).map Prod.snd)).rz := by
      decide +kernel
    rw [h] at h1
    exact h1 rfl
  · decide +kernel

/-- **C268.** `bounds_find = 0` means the same as `None`, and `bounds_find` equal to `bounds` as well, for integers as for floating point numbers. -/
theorem C268_find (sqrt : K → K) (ls : CubicSolver K) (tol cutoff : K) (bounds : ℕ) (plot : Bool) (fuel : ℕ) (r z : List K) :
    smoothLineInt sqrt ls tol cutoff bounds (some 0) plot fuel r z = smoothLineInt sqrt ls tol cutoff bounds none plot fuel r z ∧
      smoothLineInt sqrt ls tol cutoff bounds (some bounds) plot fuel r z = smoothLineInt sqrt ls tol cutoff bounds none plot fuel r z := by
  refine ⟨rfl, ?_⟩
  unfold smoothLineInt
  dsimp only
  split_ifs with h
  · rfl
  · rfl

/-- **C268 (partial).** Lines without corners come back unchanged, also as integers.  Missing: all lines with a new point that is not an integer
(`C268_run_iff`, `C268_only_if`, `C268_fails`). -/
theorem C268_partial (sqrt : K → K) (ls : CubicSolver K) (tol cutoff : K) (bounds : ℕ) (plot : Bool) (fuel : ℕ) (r z : List K)
    (h : allOutliers sqrt r z cutoff bounds = .ok []) : smoothLineInt sqrt ls tol cutoff bounds none plot (fuel + 1) r z = .ok r z ∧
      smoothLine sqrt ls tol cutoff bounds none plot (fuel + 1) r z = .ok r z := by
  constructor
  · unfold smoothLineInt smoothLoopCut smoothPassCut
    simp only [h]
    rfl
  · unfold smoothLine smoothLoop smoothPass
    simp only [h]
    rfl

/-- A case for it. -/
example : smoothLineInt exRoot exStraight (1 / 100000000) (1 / 2) 1 none false 5 ((exDrop 10).map Prod.fst) ((exDrop 10).map Prod.snd) =
    .ok ((exDrop 10).map Prod.fst) ((exDrop 10).map Prod.snd) := by
  have h : (allOutliers exRoot ((exDrop 10).map Prod.fst) ((exDrop 10).map Prod.snd) (1 / 2) 1).toOption = some [] := by decide +kernel
  refine (C268_partial exRoot exStraight _ _ 1 false 4 _ _ ?_).1
  cases hq : allOutliers exRoot ((exDrop 10).map Prod.fst) ((exDrop 10).map Prod.snd) (1 / 2) 1 with
  | error e => rw [hq] at h; simp [Except.toOption] at h
  | ok l => rw [hq] at h; simp [Except.toOption] at h; rw [h]

/-- A case for the exact condition: the new points of a run that are not integers. -/
example : ¬ AllInt ((curvePoints ((0, 1) : ℚ × ℚ) ⟨1, 0, 0, -1, 0, 0⟩ 3).map Prod.fst) := by
  intro h
  obtain ⟨k, hk⟩ := h 1
  have : ((curvePoints ((0, 1) : ℚ × ℚ) ⟨1, 0, 0, -1, 0, 0⟩ 3).map Prod.fst).getD 1 0 = 1 / 2 := by decide +kernel
  rw [this] at hk
  have h2 := congrArg Rat.den hk
  have h3 : (1 / 2 : ℚ).den = 2 := by decide +kernel
  rw [h3, Rat.den_intCast] at h2
  exact absurd h2 (by decide)

end Zoidberg
