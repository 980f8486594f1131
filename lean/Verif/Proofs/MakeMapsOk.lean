import Verif.Proofs.Jacobian
import Verif.Proofs.MakeMapsDict

/-! # `make_maps` succeeds -/

set_option linter.unusedSectionVars false

namespace Zoidberg

variable {K : Type} [Field K] [LinearOrder K] [IsStrictOrderedRing K] [FloorRing K]

/-- The quadrature rule passes the test of `make_maps`: its weights sum to 2. -/
def GaussOk (e : MmEnv K) (n : ℕ) : Prop := 1 < n → ((e.gauss n).map (·.2)).sum = 2

theorem sum_map_half : ∀ l : List (K × K),
    (((l.map fun p => (p.1 * (1 / 2), p.2 * (1 / 2)))).map (·.2)).sum = (l.map (·.2)).sum / 2 := by
  intro l
  induction l with
  | nil => simp
  | cons p t ih =>
    simp only [List.map_cons, List.sum_cons]
    rw [ih]
    ring

theorem samples_ok (e : MmEnv K) (n : ℕ) (hn : 1 ≤ n) (hgs : GaussOk e n) :
    ∃ smp, samples e n = .ok smp ∧ (n ^ 2 ≠ 1 → ∃ l, smp = some l) := by
  unfold samples
  by_cases h : n > 1
  · rw [if_pos h]
    simp only
    rw [sum_map_half, hgs h]
    have e0 : (2 : K) / 2 - 1 = 0 := by norm_num
    rw [e0, abs_zero, if_pos (by positivity)]
    exact ⟨_, rfl, fun _ => ⟨_, rfl⟩⟩
  · rw [if_neg h]
    refine ⟨none, rfl, fun hne => ?_⟩
    have : n = 1 := by omega
    subst this
    simp at hne

theorem target_ok (e : MmEnv K) (hg : GridOk e) (j : ℕ) (o : PyNum K) (ho : SliceOffset o) :
    ∃ t, e.grid.getPoloidalGrid ((j : K) + o.val) = .ok t := by
  have hy : ∀ k : ℤ, ∃ y, e.grid.HasY k y := by
    intro k
    obtain ⟨p, y, h⟩ := getPoloidalGrid_int_ok e.grid hg.length hg.pos k
    exact ⟨y, p, h⟩
  rcases ho with ⟨n, _, rfl⟩ | rfl | rfl
  · obtain ⟨p, y, h⟩ := getPoloidalGrid_int_ok e.grid hg.length hg.pos ((j : ℤ) + n)
    push_cast at h
    exact ⟨_, h⟩
  · obtain ⟨a, ha⟩ := hy (j : ℤ)
    obtain ⟨b, hb⟩ := hy ((j : ℤ) + 1)
    have := fractional_lookup e.grid (j : ℤ) (1 / 2) a b (by norm_num) (by norm_num) ha hb
    rw [Int.cast_natCast] at this
    exact ⟨_, this⟩
  · obtain ⟨a, ha⟩ := hy ((j : ℤ) - 1)
    obtain ⟨b, hb⟩ := hy ((j : ℤ) - 1 + 1)
    have := fractional_lookup e.grid ((j : ℤ) - 1) (1 / 2) a b (by norm_num) (by norm_num) ha hb
    push_cast at this
    have e1 : (j : K) + (PyNum.float (-1 / 2) : PyNum K).val = (j : K) - 1 + 1 / 2 := by
      change (j : K) + -1 / 2 = _
      ring
    rw [e1]
    exact ⟨_, this⟩

theorem mapM_ok {A B : Type} {f : A → Except Err B} : ∀ l : List A, (∀ a ∈ l, ∃ b, f a = .ok b) →
    ∃ r, l.mapM f = .ok r := by
  intro l
  induction l with
  | nil => intro _; exact ⟨[], rfl⟩
  | cons a t ih =>
    intro h
    obtain ⟨b, hb⟩ := h a (by simp)
    obtain ⟨r, hr⟩ := ih fun x hx => h x (by simp [hx])
    exact ⟨b :: r, by rw [List.mapM_cons, hb, hr]; rfl⟩

theorem sampleFold_ok (e : MmEnv K) (hf : FollowOk e) (nx nz j : ℕ) (pol : MapPol K) (y yl : K)
    (tp : MapPol K) : ∀ (l : List ((K × K × K) × ℕ)) (ps : PSlice K),
    ∃ ps', l.foldlM (sampleStep e nx nz j pol y yl tp) ps = .ok ps' := by
  intro l
  induction l with
  | nil => intro ps; exact ⟨ps, rfl⟩
  | cons p t ih =>
    intro ps
    have : ∃ q, sampleStep e nx nz j pol y yl tp ps p = .ok q := by
      unfold sampleStep
      simp only
      rw [List.getElem?_eq_getElem (by rw [hf]; simp)]
      exact ⟨_, rfl⟩
    obtain ⟨q, hq⟩ := this
    rw [List.foldlM_cons, hq]
    exact ih q

theorem storeSamples_succeeds (e : MmEnv K) (hf : FollowOk e) (nx nz : ℕ)
    (smp : Option (List (K × K × K))) (ns : ℕ) (hs : ns ≠ 1 → ∃ l, smp = some l) (j : ℕ)
    (pol : MapPol K) (y yl : K) (ps : PSlice K) (ind : ℕ → ℕ → K × K) (t : Option (MapPol K)) :
    ∃ new, storeSamples e nx nz smp ns j pol y yl ps ind t = .ok new := by
  unfold storeSamples
  by_cases h : ns = 1
  · rw [if_pos h]; exact ⟨_, rfl⟩
  · rw [if_neg h]
    obtain ⟨l, rfl⟩ := hs h
    cases t with
    | none => exact ⟨_, rfl⟩
    | some tp => exact sampleFold_ok e hf nx nz j pol y yl tp l.zipIdx ps

theorem tracePlane_succeeds (e : MmEnv K) (hf : FollowOk e) (hg : GridOk e) (nx nz : ℕ)
    (smp : Option (List (K × K × K))) (ns : ℕ) (hs : ns ≠ 1 → ∃ l, smp = some l)
    (pss : List (PSlice K)) (hne : pss ≠ []) (ho : ∀ ps ∈ pss, SliceOffset ps.offset) (j : ℕ)
    (hj : j < e.grid.ny) : ∃ L, tracePlane e nx nz smp ns pss j = .ok L := by
  obtain ⟨pol, y, h1, _⟩ := plane_ok e hg j hj
  obtain ⟨targets, h2⟩ := mapM_ok (f := fun ps : PSlice K =>
    e.grid.getPoloidalGrid ((j : K) + ps.offset.val)) pss fun ps hps => target_ok e hg j _ (ho ps hps)
  have hlt : targets.length = pss.length := mapM_length h2
  have hlc : ((e.follow nx nz pol.R pol.Z (y :: targets.map (·.2))).drop 1).length = pss.length := by
    rw [List.length_drop, hf]; simp [hlt]
  obtain ⟨a, ps, c, t, s1, _⟩ := storeAll_eq e j ((targets.map (·.2)).getLastD y)
        pss _ (targets.map (·.1)) hlc (by simp [hlt]) hne
  obtain ⟨new, hn⟩ := storeSamples_succeeds e hf nx nz smp ns hs j pol y
    ((targets.map (·.2)).getLastD y) (storeSlice e j ((targets.map (·.2)).getLastD y) ps c t).1
    (storeSlice e j ((targets.map (·.2)).getLastD y) ps c t).2 t
  unfold tracePlane
  rw [h1]
  simp only
  rw [h2]
  simp only
  rw [s1]
  simp only
  rw [hn]
  exact ⟨_, rfl⟩

theorem traceDir_succeeds (e : MmEnv K) (hf : FollowOk e) (hg : GridOk e) (nx nz : ℕ)
    (smp : Option (List (K × K × K))) (ns : ℕ) (hs : ns ≠ 1 → ∃ l, smp = some l)
    (os : List (PyNum K)) (hne : os ≠ []) (ho : ∀ o ∈ os, SliceOffset o) : ∀ n ≤ e.grid.ny,
    ∃ L, (List.range n).foldlM (tracePlane e nx nz smp ns) (os.map PSlice.zero) = .ok L := by
  intro n
  induction n with
  | zero => intro _; exact ⟨_, rfl⟩
  | succ n ih =>
    intro hn
    obtain ⟨L, hL⟩ := ih (by omega)
    have hLo := (traceDir_ok e hf nx nz smp ns os hne n L hL).1
    have hLne : L ≠ [] := by
      rintro rfl
      exact hne hLo.symm
    obtain ⟨L', h'⟩ := tracePlane_succeeds e hf hg nx nz smp ns hs L hLne (fun ps hps =>
      ho _ (by rw [← hLo]; exact List.mem_map.2 ⟨ps, hps, rfl⟩)) n (by omega)
    refine ⟨L', ?_⟩
    rw [List.range_succ, List.foldlM_append, hL]
    change (tracePlane e nx nz smp ns L n).bind (fun x => Except.ok x) = .ok L'
    rw [h']; rfl

theorem gridArray_ok (e : MmEnv K) (hg : GridOk e) (f : MapPol K → ℕ → ℕ → K) :
    ∃ a, gridArray e f = .ok a ∧ ∀ (j : ℕ) (pol : MapPol K), e.grid.polGrids[j]? = some pol →
      ∀ x z, a (x, j, z) = f pol x z := by
  have key : ∀ n ≤ e.grid.ny, ∃ a, (List.range n).foldlM
      (fun (a : Cell → K) j => (e.plane j).map fun p => setSlice a j (f p.1)) (fun _ => 0) = .ok a ∧
      ∀ (j : ℕ) (pol : MapPol K), j < n → e.grid.polGrids[j]? = some pol →
        ∀ x z, a (x, j, z) = f pol x z := by
    intro n
    induction n with
    | zero => intro _; exact ⟨_, rfl, fun j pol h => absurd h (by omega)⟩
    | succ n ih =>
      intro hn
      obtain ⟨a, ha, hb⟩ := ih (by omega)
      obtain ⟨pol, y, h1, h2, _⟩ := plane_ok e hg n (by omega)
      refine ⟨setSlice a n (f pol), ?_, ?_⟩
      · rw [List.range_succ, List.foldlM_append, ha]
        change ((e.plane n).map fun p => setSlice a n (f p.1)).bind (fun x => Except.ok x) = _
        rw [h1]; rfl
      · intro j pol' hj hp x z
        unfold setSlice
        by_cases hjn : j = n
        · subst hjn
          rw [h2] at hp
          injection hp with hp
          subst hp
          simp
        · simp only [hjn, if_false]
          exact hb j pol' (by omega) hp x z
  obtain ⟨a, ha, hb⟩ := key e.grid.ny (le_refl _)
  refine ⟨a, ha, fun j pol hp => hb j pol ?_ hp⟩
  have hl := hg.length
  have : j < e.grid.polGrids.length := by
    by_contra h
    rw [List.getElem?_eq_none (by omega)] at hp
    simp at hp
  change j < e.grid.ycoords.length
  omega

theorem makeMaps_succeeds (e : MmEnv K) (hf : FollowOk e) (hg : GridOk e) (nslice mxg n r nc : ℕ)
    (hn : 1 ≤ n) (hgs : GaussOk e n) (hr : 1 ≤ r) (hc : 1 ≤ nc) (empty : JState K) :
    ∃ m, makeMaps e nslice mxg n r nc empty = .ok m := by
  obtain ⟨pol, y, h1, _⟩ := plane_ok e hg 0 hg.pos
  obtain ⟨R, h2, _⟩ := gridArray_ok e hg (fun p => p.R)
  obtain ⟨Z, h3, _⟩ := gridArray_ok e hg (fun p => p.Z)
  obtain ⟨smp, h4, hs⟩ := samples_ok e n hn hgs
  obtain ⟨A, h5⟩ := traceDir_succeeds e hf hg pol.nx pol.nz smp (n ^ 2) hs (offsetsOf nslice 1)
    (by simp [offsetsOf]) (offsetsOf_slice nslice 1 (Or.inl rfl)) _ (le_refl _)
  obtain ⟨B, h6⟩ := traceDir_succeeds e hf hg pol.nx pol.nz smp (n ^ 2) hs (offsetsOf nslice (-1))
    (by simp [offsetsOf]) (offsetsOf_slice nslice (-1) (Or.inr rfl)) _ (le_refl _)
  have oA := (traceDir_ok e hf pol.nx pol.nz smp (n ^ 2) (offsetsOf nslice 1)
    (by simp [offsetsOf]) _ _ h5).1
  have oB := (traceDir_ok e hf pol.nx pol.nz smp (n ^ 2) (offsetsOf nslice (-1))
    (by simp [offsetsOf]) _ _ h6).1
  have hsl : ∀ ps ∈ A ++ B, SliceOffset ps.offset := by
    intro ps hps
    refine allOffsets_slice nslice _ ?_
    unfold allOffsets
    rw [← oA, ← oB, ← List.map_append]
    exact List.mem_map.2 ⟨ps, hps, rfl⟩
  obtain ⟨s, h7, _⟩ := jacAll_prefix e hf hg pol.nx r nc hr hc empty _ (le_refl _)
  have h7 : jacAll e pol.nx r nc empty = .ok s := h7
  unfold makeMaps
  simp only [bind, Except.bind]
  rw [h1]
  simp only
  rw [h2]
  simp only
  rw [h3]
  simp only
  rw [h4]
  simp only [traceAll, List.mapM_cons, List.mapM_nil, bind, Except.bind, pure, Except.pure]
  rw [h5]
  simp only
  rw [h6]
  simp only [List.flatten_cons, List.flatten_nil, List.append_nil]
  rw [sliceEntries_all e (A ++ B) hsl]
  simp only
  rw [h7]
  exact ⟨_, rfl⟩

end Zoidberg
