import Verif.Model.MakeMapsInPlace
import Verif.Props.MakeMaps

/-! # `make_maps` with tracers that change their arguments -/

set_option linter.unusedSectionVars false

namespace Zoidberg

variable {K : Type} [Field K] [LinearOrder K] [IsStrictOrderedRing K] [FloorRing K]

/-- The same objects with another grid. -/
def MmEnv.on (e : MmEnv K) (g : Grid (MapPol K) K) : MmEnv K := { e with grid := g }

/-- The grid after the call of the tracer for plane `j`. -/
def stepGrid (e : MmEnv K) (after : After K) (share : ℕ → ℕ) (nx nz : ℕ) (os : List (PyNum K)) (g : Grid (MapPol K) K) (j : ℕ) : Grid (MapPol K) K :=
  match (e.on g).plane j with
  | .error _ => g
  | .ok (pol, y) =>
    match os.mapM fun o => g.getPoloidalGrid ((j : K) + o.val) with
    | .error _ => g
    | .ok targets =>
      let new := after nx nz pol.R pol.Z (y :: targets.map (·.2))
      g.overwrite share j new.1 new.2

theorem tracePlaneS_eq (e : MmEnv K) (after : After K) (share : ℕ → ℕ) (nx nz : ℕ) (smp : Option (List (K × K × K))) (pss : List (PSlice K))
    (g : Grid (MapPol K) K) (j : ℕ) : tracePlaneS e after share nx nz smp 1 (pss, g) j =
      (tracePlane (e.on g) nx nz smp 1 pss j).map fun L => (L, stepGrid e after share nx nz (pss.map (·.offset)) g j) := by
  unfold tracePlaneS tracePlane stepGrid
  simp only [MmEnv.on]
  cases hp : MmEnv.plane { e with grid := g } j with
  | error err => rfl
  | ok py =>
    obtain ⟨pol, y⟩ := py
    simp only
    rw [List.mapM_map]
    simp only [Function.comp_def]
    cases ht : pss.mapM fun ps => g.getPoloidalGrid ((j : K) + ps.offset.val) with
    | error err => rfl
    | ok targets =>
      simp only
      split
      · rename_i hs
        rw [hs]; rfl
      · rename_i a ps ind t b hs
        rw [hs]
        simp only [storeSamples, if_pos]
        rfl

/-- The grid before plane `n` of a direction. -/
def gridBefore (e : MmEnv K) (after : After K) (share : ℕ → ℕ) (nx nz : ℕ) (os : List (PyNum K)) (g : Grid (MapPol K) K) (n : ℕ) : Grid (MapPol K) K :=
  (List.range n).foldl (stepGrid e after share nx nz os) g

theorem gridBefore_succ (e : MmEnv K) (after : After K) (share : ℕ → ℕ) (nx nz : ℕ) (os : List (PyNum K)) (g : Grid (MapPol K) K) (n : ℕ) :
    gridBefore e after share nx nz os g (n + 1) = stepGrid e after share nx nz os (gridBefore e after share nx nz os g n) n := by
  unfold gridBefore
  rw [List.range_succ, List.foldl_append]; rfl

/-- All planes of one direction. -/
theorem traceDirS_ok (e : MmEnv K) (hf : FollowOk e) (after : After K) (share : ℕ → ℕ) (nx nz : ℕ) (smp : Option (List (K × K × K)))
    (os : List (PyNum K)) (hne : os ≠ []) (g : Grid (MapPol K) K) : ∀ (n : ℕ) (s : List (PSlice K) × Grid (MapPol K) K),
    (List.range n).foldlM (tracePlaneS e after share nx nz smp 1) (os.map PSlice.zero, g) = .ok s →
    s.1.map (·.offset) = os ∧ s.2 = gridBefore e after share nx nz os g n ∧ ∀ (i : ℕ) (ps : PSlice K), s.1[i]? = some ps →
      (∀ c : Cell, n ≤ c.2.1 → ∀ s, ps.xts c s = 0 ∧ ps.zts c s = 0) ∧
      ∀ j < n, Filled (e.on (gridBefore e after share nx nz os g j)) nx nz smp 1 os j i ps := by
  intro n
  induction n with
  | zero =>
    intro s h
    have : (os.map PSlice.zero, g) = s := by simpa [pure, Except.pure] using h
    subst this
    refine ⟨by simp [PSlice.zero, Function.comp_def], rfl, ?_⟩
    intro i ps hi
    rw [List.getElem?_map] at hi
    obtain ⟨o, _, rfl⟩ := Option.map_eq_some_iff.1 hi
    exact ⟨fun c _ s => ⟨rfl, rfl⟩, by simp⟩
  | succ n ih =>
    intro s h
    rw [List.range_succ, List.foldlM_append] at h
    cases hL : (List.range n).foldlM (tracePlaneS e after share nx nz smp 1) (os.map PSlice.zero, g) with
    | error err => rw [hL] at h; simp [bind, Except.bind] at h
    | ok s0 =>
      rw [hL] at h
      have h : tracePlaneS e after share nx nz smp 1 s0 n = .ok s := by
        change (tracePlaneS e after share nx nz smp 1 s0 n).bind (fun x => Except.ok x) = .ok s at h
        cases hx : tracePlaneS e after share nx nz smp 1 s0 n with
        | error err => rw [hx] at h; simp [Except.bind] at h
        | ok v => rw [hx] at h; simpa [Except.bind] using h
      obtain ⟨ih1, ih2, ih3⟩ := ih s0 hL
      obtain ⟨L0, g0⟩ := s0
      rw [tracePlaneS_eq] at h
      simp only at ih1 ih2 ih3
      cases hx : tracePlane (e.on g0) nx nz smp 1 L0 n with
      | error err => rw [hx] at h; cases h
      | ok L =>
        rw [hx] at h
        have hs : (L, stepGrid e after share nx nz (L0.map (·.offset)) g0 n) = s := by simpa [Except.map] using h
        subst hs
        obtain ⟨s1, s2⟩ := tracePlane_ok (e.on g0) hf nx nz smp 1 os hne L0 L n ih1 hx
        refine ⟨s1, ?_, ?_⟩
        · rw [gridBefore_succ, ← ih2, ih1]
        · intro i ps hi
          obtain ⟨ps0, h0, hframe, hfill⟩ := s2 i ps hi
          obtain ⟨z1, z2⟩ := ih3 i ps0 h0
          refine ⟨?_, ?_⟩
          · intro c hc s
            obtain ⟨_, _, _, _, w⟩ := hframe c (by omega)
            rw [(w s).1, (w s).2]
            exact z1 c (by omega) s
          · intro j hj
            rcases Nat.lt_succ_iff_lt_or_eq.1 hj with hj | rfl
            · exact (z2 j hj).congr fun c hc => hframe c (by omega)
            · rw [← ih2]
              exact hfill fun x z s => z1 (x, j, z) (le_refl _) s

/-! ## The grids -/

/-- Two grids that differ in the poloidal grids only. -/
structure SameY (g g' : Grid (MapPol K) K) : Prop where
  y : g'.ycoords = g.ycoords
  Ly : g'.Ly = g.Ly
  per : g'.yperiodic = g.yperiodic
  length : g'.polGrids.length = g.polGrids.length

theorem SameY.refl (g : Grid (MapPol K) K) : SameY g g := ⟨rfl, rfl, rfl, rfl⟩

theorem SameY.trans {a b c : Grid (MapPol K) K} (h : SameY a b) (h' : SameY b c) : SameY a c :=
  ⟨h'.y.trans h.y, h'.Ly.trans h.Ly, h'.per.trans h.per, h'.length.trans h.length⟩

theorem SameY.overwrite (g : Grid (MapPol K) K) (share : ℕ → ℕ) (j : ℕ) (R Z : ℕ → ℕ → K) : SameY g (g.overwrite share j R Z) :=
  ⟨rfl, rfl, rfl, by simp [Grid.overwrite]⟩

theorem SameY.step (e : MmEnv K) (after : After K) (share : ℕ → ℕ) (nx nz : ℕ) (os : List (PyNum K)) (g : Grid (MapPol K) K) (j : ℕ) :
    SameY g (stepGrid e after share nx nz os g j) := by
  unfold stepGrid
  split
  · exact SameY.refl g
  · split
    · exact SameY.refl g
    · exact SameY.overwrite _ _ _ _ _

theorem SameY.before (e : MmEnv K) (after : After K) (share : ℕ → ℕ) (nx nz : ℕ) (os : List (PyNum K)) (g : Grid (MapPol K) K) (n : ℕ) :
    SameY g (gridBefore e after share nx nz os g n) := by
  induction n with
  | zero => exact SameY.refl g
  | succ n ih => rw [gridBefore_succ]; exact ih.trans (SameY.step _ _ _ _ _ _ _ _)

theorem SameY.at {g g' : Grid (MapPol K) K} (h : SameY g g') (i : ℤ) : (g'.at i).map (·.2) = (g.at i).map (·.2) := by
  unfold Grid.at
  rw [h.length, h.y]
  cases h1 : pyIndex g.polGrids.length i with
  | none => simp
  | some a =>
    simp only [Option.bind_some]
    by_cases ha : a < g.polGrids.length
    · rw [List.getElem?_eq_getElem ha, List.getElem?_eq_getElem (by rw [h.length]; exact ha)]
      split <;> simp_all [Except.map]
    · have hl := h.length
      rw [List.getElem?_eq_none (l := g'.polGrids) (by omega), List.getElem?_eq_none (l := g.polGrids) (by omega)]

theorem SameY.getInt {g g' : Grid (MapPol K) K} (h : SameY g g') (a : K) : (g'.getInt a).map (·.2) = (g.getInt a).map (·.2) := by
  have hny : g'.ny = g.ny := by unfold Grid.ny; rw [h.y]
  have e1 : ∀ (i : ℤ) (f : K → K), ((g'.at i).map fun p => ((some p.1 : Option (MapPol K)), f p.2)).map (·.2) =
      ((g.at i).map fun p => ((some p.1 : Option (MapPol K)), f p.2)).map (·.2) := by
    intro i f
    have := h.at i
    cases h1 : g'.at i with
    | error a =>
      rw [h1] at this
      cases h2 : g.at i with
      | error b => rw [h2] at this; simpa [Except.map] using this
      | ok b => rw [h2] at this; simp [Except.map] at this
    | ok a =>
      rw [h1] at this
      cases h2 : g.at i with
      | error b => rw [h2] at this; simp [Except.map] at this
      | ok b =>
        rw [h2] at this
        simp only [Except.map, Except.ok.injEq] at this ⊢
        rw [this]
  unfold Grid.getInt
  simp only [hny, h.per, h.Ly]
  split
  · exact e1 _ (fun y => y)
  · split
    · exact e1 _ (fun y => y + _)
    · split <;> rfl

/-- The values of `y` do not depend on the arrays of the poloidal grids. -/
theorem SameY.getPoloidalGrid {g g' : Grid (MapPol K) K} (h : SameY g g') (a : K) :
    (g'.getPoloidalGrid a).map (·.2) = (g.getPoloidalGrid a).map (·.2) := by
  unfold Grid.getPoloidalGrid
  split
  · have h1 := h.getInt ((⌊a⌋ : K) + 1)
    have h2 := h.getInt (⌊a⌋ : K)
    simp only
    cases e1 : g'.getInt ((⌊a⌋ : K) + 1) <;> cases e2 : g.getInt ((⌊a⌋ : K) + 1) <;>
      cases e3 : g'.getInt (⌊a⌋ : K) <;> cases e4 : g.getInt (⌊a⌋ : K) <;>
      rw [e1, e2] at h1 <;> rw [e3, e4] at h2 <;> simp_all [Except.map]
  · exact h.getInt a

/-- The `y` that `getPoloidalGrid` gives for an index. -/
def Grid.yAt {G : Type} (g : Grid G K) (a : K) : K := match g.getPoloidalGrid a with
  | .ok p => p.2
  | .error _ => 0

theorem SameY.yAt {g g' : Grid (MapPol K) K} (h : SameY g g') (a : K) : g'.yAt a = g.yAt a := by
  have := h.getPoloidalGrid a
  unfold Grid.yAt
  cases e1 : g'.getPoloidalGrid a <;> cases e2 : g.getPoloidalGrid a <;> rw [e1, e2] at this <;> simp_all [Except.map]

theorem Grid.yAt_eq {G : Type} {g : Grid G K} {a : K} {t : Option G} {y : K} (h : g.getPoloidalGrid a = .ok (t, y)) : y = g.yAt a := by
  unfold Grid.yAt; rw [h]

theorem GridOk.on {e : MmEnv K} (hg : GridOk e) {g : Grid (MapPol K) K} (h : SameY e.grid g) (hp : ∀ p ∈ g.polGrids, HasPerp p) : GridOk (e.on g) :=
  ⟨by change g.polGrids.length = g.ycoords.length; rw [h.length, h.y]; exact hg.length, by change 0 < g.ycoords.length; rw [h.y]; exact hg.pos, hp⟩

/-! ## The parts of a run -/

theorem makeMapsS_parts {e : MmEnv K} {after : After K} {share : ℕ → ℕ} {nslice mxg n r nc : ℕ} {empty : JState K} {m : ODict (MapVal K)}
    {gF : Grid (MapPol K) K} (h : makeMapsS e after share nslice mxg n r nc empty = .ok (m, gF)) (hn : n = 1) (hf : FollowOk e) :
    ∃ pol y R Z smp A B s, e.plane 0 = .ok (pol, y) ∧ gridArray e (·.R) = .ok R ∧
      gridArray e (·.Z) = .ok Z ∧ samples e n = .ok smp ∧
      (List.range e.grid.ny).foldlM (tracePlaneS e after share pol.nx pol.nz smp 1)
        ((offsetsOf nslice 1).map PSlice.zero, e.grid) = .ok A ∧
      (List.range e.grid.ny).foldlM (tracePlaneS e after share pol.nx pol.nz smp 1)
        ((offsetsOf nslice (-1)).map PSlice.zero, A.2) = .ok B ∧
      jacAll (e.on B.2) pol.nx r nc empty = .ok s ∧ gF = B.2 ∧ (A.1 ++ B.1).map (·.offset) = allOffsets nslice ∧
      ((baseEntries R Z mxg nslice (sampleWeights smp) ++ (A.1 ++ B.1).flatMap (entryList e)).map
        (·.1)).Nodup ∧
      m = (finalEntries e s).foldl (fun d p => ODict.set d p.1 p.2)
        ((baseEntries R Z mxg nslice (sampleWeights smp) ++ (A.1 ++ B.1).flatMap (entryList e)).filter
          fun p => !isHalfIndex p.1) := by
  subst hn
  unfold makeMapsS traceDirS at h
  simp only [one_pow] at h
  cases h1 : e.plane 0 with
  | error err => rw [h1] at h; cases h
  | ok py =>
  obtain ⟨pol, y⟩ := py
  rw [h1] at h
  simp only [Except.bind] at h
  cases h2 : gridArray e (·.R) with
  | error err => rw [h2] at h; cases h
  | ok R =>
  rw [h2] at h
  simp only at h
  cases h3 : gridArray e (·.Z) with
  | error err => rw [h3] at h; cases h
  | ok Z =>
  rw [h3] at h
  simp only at h
  cases h4 : samples e 1 with
  | error err => rw [h4] at h; cases h
  | ok smp =>
  rw [h4] at h
  simp only at h
  cases h5 : (List.range e.grid.ny).foldlM (tracePlaneS e after share pol.nx pol.nz smp 1)
        ((offsetsOf nslice 1).map PSlice.zero, e.grid) with
  | error err => rw [h5] at h; cases h
  | ok A =>
  rw [h5] at h
  simp only at h
  cases h6 : (List.range e.grid.ny).foldlM (tracePlaneS e after share pol.nx pol.nz smp 1)
        ((offsetsOf nslice (-1)).map PSlice.zero, A.2) with
  | error err => rw [h6] at h; cases h
  | ok B =>
  rw [h6] at h
  simp only [List.flatten_cons, List.flatten_nil, List.append_nil] at h
  have oA := (traceDirS_ok e hf after share pol.nx pol.nz smp (offsetsOf nslice 1)
    (by simp [offsetsOf]) _ _ _ h5).1
  have oB := (traceDirS_ok e hf after share pol.nx pol.nz smp (offsetsOf nslice (-1))
    (by simp [offsetsOf]) _ _ _ h6).1
  have hoff : (A.1 ++ B.1).map (·.offset) = allOffsets nslice := by
    rw [List.map_append, oA, oB]; rfl
  have hsl : ∀ ps ∈ A.1 ++ B.1, SliceOffset ps.offset := by
    intro ps hps
    refine allOffsets_slice nslice _ ?_
    rw [← hoff]
    exact List.mem_map.2 ⟨ps, hps, rfl⟩
  rw [sliceEntries_all e (A.1 ++ B.1) hsl] at h
  simp only at h
  cases h7 : jacAll { e with grid := B.2 } pol.nx r nc empty with
  | error err => rw [h7] at h; cases h
  | ok s =>
  rw [h7] at h
  simp only [Except.map] at h
  injection h with h
  injection h with h hgF
  have hk : ((baseEntries R Z mxg nslice (sampleWeights smp) ++
      ((A.1 ++ B.1).map (entryList e)).flatten).map (·.1)).Nodup := by
    have e1 : (((A.1 ++ B.1).map (entryList e)).flatten).map (·.1) =
        (allOffsets nslice : List (PyNum K)).flatMap fun o => sixFields.map fun f => nm e f o := by
      rw [← hoff, ← List.flatMap_def, List.map_flatMap, List.flatMap_map]
      rfl
    rw [List.map_append, e1]
    refine List.Nodup.append (show ["R", "Z", "MXG", "MYG", "subcell_weights"].Nodup by decide)
      (slice_names_nodup e nslice) ?_
    intro k hk1 hk2
    obtain ⟨o, ho, hk2⟩ := List.mem_flatMap.1 hk2
    obtain ⟨f, hfm, rfl⟩ := List.mem_map.1 hk2
    rcases (mem_allOffsets nslice o).1 ho with rfl | rfl | ⟨k, hk0, _, rfl⟩
    · rw [(nm_half e f).1] at hk1
      exact base_ne_half f hfm _ (by simp) hk1
    · rw [(nm_half e f).2] at hk1
      exact base_ne_half f hfm _ (by simp) hk1
    · have hh := nm_int_head e f k hk0
      have hb : ∀ s ∈ (baseEntries R Z mxg nslice (sampleWeights smp)).map (·.1),
          ¬ (s.toList.head? = some 'f' ∨ s.toList.head? = some 'b') := by
        change ∀ s ∈ ["R", "Z", "MXG", "MYG", "subcell_weights"], _
        decide
      exact hb _ hk1 hh
  refine ⟨pol, y, R, Z, smp, A, B, s, rfl, rfl, rfl, rfl, h5, h6, h7, hgF.symm, hoff,
    by rw [List.flatMap_def]; exact hk, ?_⟩
  rw [← h]
  have hof := ODict.ofList_nodup _ hk
  rw [List.flatMap_def]
  exact congrArg (fun d : ODict (MapVal K) => (finalEntries e s).foldl (fun d p => ODict.set d p.1 p.2)
    (d.filter fun p => !isHalfIndex p.1)) hof

/-- The grid before plane `j` of a direction in a run of `make_maps`. -/
def gridAtPlane (e : MmEnv K) (after : After K) (share : ℕ → ℕ) (nx nz nslice : ℕ) (dir : ℤ) (j : ℕ) : Grid (MapPol K) K :=
  if dir = 1 then gridBefore e after share nx nz (offsetsOf nslice 1) e.grid j
  else gridBefore e after share nx nz (offsetsOf nslice (-1)) (gridBefore e after share nx nz (offsetsOf nslice 1) e.grid e.grid.ny) j

theorem SameY.atPlane (e : MmEnv K) (after : After K) (share : ℕ → ℕ) (nx nz nslice : ℕ) (dir : ℤ) (j : ℕ) :
    SameY e.grid (gridAtPlane e after share nx nz nslice dir j) := by
  unfold gridAtPlane
  split
  · exact SameY.before _ _ _ _ _ _ _ _
  · exact (SameY.before _ _ _ _ _ _ _ _).trans (SameY.before _ _ _ _ _ _ _ _)

/-- The slice for an offset, and the grid after the run. -/
theorem makeMapsS_slice {e : MmEnv K} {after : After K} {share : ℕ → ℕ} {nslice mxg r nc : ℕ} {empty : JState K} {m : ODict (MapVal K)}
    {gF : Grid (MapPol K) K} (h : makeMapsS e after share nslice mxg 1 r nc empty = .ok (m, gF)) (hf : FollowOk e) :
    ∃ pol y smp, e.plane 0 = .ok (pol, y) ∧ samples e 1 = .ok smp ∧ gF = gridAtPlane e after share pol.nx pol.nz nslice (-1) e.grid.ny ∧
      ∀ (dir : ℤ) (_ : dir = 1 ∨ dir = -1) (i : ℕ) (o : PyNum K) (_ : (offsetsOf nslice dir)[i]? = some o), ∃ ps : PSlice K, ps.offset = o ∧
      (∀ j < e.grid.ny, Filled (e.on (gridAtPlane e after share pol.nx pol.nz nslice dir j)) pol.nx pol.nz smp 1 (offsetsOf nslice dir) j i ps) ∧
      ∀ k v, (k, v) ∈ entryList e ps → isHalfIndex k = false → m.get? k = some v := by
  obtain ⟨pol, y, R, Z, smp, A, B, s, h1, h2, h3, h4, h5, h6, h7, hg, h8, h9, h10⟩ := makeMapsS_parts h rfl hf
  obtain ⟨oA, gA, fA⟩ := traceDirS_ok e hf after share pol.nx pol.nz smp (offsetsOf nslice 1)
    (by simp [offsetsOf]) _ _ _ h5
  obtain ⟨oB, gB, fB⟩ := traceDirS_ok e hf after share pol.nx pol.nz smp (offsetsOf nslice (-1))
    (by simp [offsetsOf]) _ _ _ h6
  refine ⟨pol, y, smp, h1, h4, ?_, ?_⟩
  · rw [hg, gB, gA]; rfl
  intro dir hd i o ho
  obtain ⟨ps, g1, g2, g3⟩ := getElem?_of_offset oA oB hd ho
  refine ⟨ps, g2, ?_, ?_⟩
  · intro j hj
    rcases hd with rfl | rfl
    · exact (fA i ps (by simpa using g1)).2 j hj
    · have := (fB i ps (by simpa using g1)).2 j hj
      rw [gA] at this
      exact this
  · intro k v hkv hh
    rw [h10]
    refine lookup_kept _ _ h9 k v ?_ hh ?_
    · exact List.mem_append_right _ (List.mem_flatMap.2 ⟨ps, g3, hkv⟩)
    · rw [finalEntries_keys]
      have hk : ∃ f ∈ sixFields, k = nm e f o := by
        rw [← g2]
        have : k ∈ (entryList e ps).map (·.1) := List.mem_map.2 ⟨_, hkv, rfl⟩
        have e1 : (entryList e ps).map (·.1) = sixFields.map fun f => nm e f ps.offset := rfl
        rw [e1] at this
        obtain ⟨f, hf1, hf2⟩ := List.mem_map.1 this
        exact ⟨f, hf1, hf2.symm⟩
      obtain ⟨f, hf1, rfl⟩ := hk
      refine nm_not_final e _ f hf1 nslice o ?_
      have := List.mem_of_getElem? ho
      unfold allOffsets
      rcases hd with rfl | rfl
      · exact List.mem_append_left _ this
      · exact List.mem_append_right _ this

/-! ## Success -/

theorem overwrite_polGrids (g : Grid (MapPol K) K) (share : ℕ → ℕ) (j : ℕ) (R Z : ℕ → ℕ → K) (k : ℕ) :
    (g.overwrite share j R Z).polGrids[k]? = g.polGrids[k]?.map fun p => if share k = share j then { p with R := R, Z := Z } else p := by
  unfold Grid.overwrite
  rw [List.getElem?_map, List.getElem?_zipIdx]
  cases g.polGrids[k]? <;> simp

theorem HasPerp.overwrite {g : Grid (MapPol K) K} (h : ∀ p ∈ g.polGrids, HasPerp p) (share : ℕ → ℕ) (j : ℕ) (R Z : ℕ → ℕ → K) :
    ∀ p ∈ (g.overwrite share j R Z).polGrids, HasPerp p := by
  intro p hp
  obtain ⟨k, hk⟩ := List.getElem?_of_mem hp
  rw [overwrite_polGrids] at hk
  obtain ⟨q, hq, rfl⟩ := Option.map_eq_some_iff.1 hk
  have := h q (List.mem_of_getElem? hq)
  split
  · exact this
  · exact this

theorem HasPerp.step (e : MmEnv K) (after : After K) (share : ℕ → ℕ) (nx nz : ℕ) (os : List (PyNum K)) {g : Grid (MapPol K) K} (j : ℕ)
    (h : ∀ p ∈ g.polGrids, HasPerp p) : ∀ p ∈ (stepGrid e after share nx nz os g j).polGrids, HasPerp p := by
  unfold stepGrid
  split
  · exact h
  · split
    · exact h
    · exact HasPerp.overwrite h _ _ _ _

theorem HasPerp.before (e : MmEnv K) (after : After K) (share : ℕ → ℕ) (nx nz : ℕ) (os : List (PyNum K)) {g : Grid (MapPol K) K}
    (h : ∀ p ∈ g.polGrids, HasPerp p) (n : ℕ) : ∀ p ∈ (gridBefore e after share nx nz os g n).polGrids, HasPerp p := by
  induction n with
  | zero => exact h
  | succ n ih => rw [gridBefore_succ]; exact HasPerp.step _ _ _ _ _ _ _ ih

theorem traceDirS_succeeds (e : MmEnv K) (hf : FollowOk e) (after : After K) (share : ℕ → ℕ) (nx nz : ℕ) (smp : Option (List (K × K × K)))
    (os : List (PyNum K)) (hne : os ≠ []) (ho : ∀ o ∈ os, SliceOffset o) (g : Grid (MapPol K) K) (hg : GridOk (e.on g)) : ∀ n ≤ g.ny,
    ∃ s, (List.range n).foldlM (tracePlaneS e after share nx nz smp 1) (os.map PSlice.zero, g) = .ok s := by
  intro n
  induction n with
  | zero => intro _; exact ⟨_, rfl⟩
  | succ n ih =>
    intro hn
    obtain ⟨s, hs⟩ := ih (by omega)
    obtain ⟨h1, h2, _⟩ := traceDirS_ok e hf after share nx nz smp os hne g n s hs
    obtain ⟨L, g'⟩ := s
    simp only at h1 h2
    have hLne : L ≠ [] := by
      rintro rfl
      exact hne h1.symm
    have hS : SameY g g' := by rw [h2]; exact SameY.before _ _ _ _ _ _ _ _
    have hG : GridOk (e.on g') := GridOk.on (e := e.on g) hg hS (by rw [h2]; exact HasPerp.before _ _ _ _ _ _ hg.perp _)
    obtain ⟨L', hL'⟩ := tracePlane_succeeds (e.on g') hf hG nx nz smp 1 (by simp) L hLne (by
      intro ps hps
      refine ho _ ?_
      rw [← h1]
      exact List.mem_map.2 ⟨ps, hps, rfl⟩) n (by
        change n < g'.ycoords.length
        rw [hS.y]; exact hn)
    refine ⟨(L', stepGrid e after share nx nz (L.map (·.offset)) g' n), ?_⟩
    rw [List.range_succ, List.foldlM_append, hs]
    change (tracePlaneS e after share nx nz smp 1 (L, g') n).bind (fun x => Except.ok x) = _
    rw [tracePlaneS_eq, hL']
    rfl

theorem makeMapsS_succeeds (e : MmEnv K) (hf : FollowOk e) (hg : GridOk e) (after : After K) (share : ℕ → ℕ) (nslice mxg r nc : ℕ)
    (hr : 1 ≤ r) (hc : 1 ≤ nc) (empty : JState K) : ∃ m gF, makeMapsS e after share nslice mxg 1 r nc empty = .ok (m, gF) := by
  obtain ⟨m0, h0⟩ := makeMaps_succeeds e hf hg nslice mxg 1 r nc (le_refl _) (fun h => absurd h (by norm_num)) hr hc empty
  obtain ⟨pol, y, R, Z, smp, _, _, _, h1, h2, h3, h4, _⟩ := makeMaps_parts h0 hf
  obtain ⟨A, h5⟩ := traceDirS_succeeds e hf after share pol.nx pol.nz smp (offsetsOf nslice 1)
    (by simp [offsetsOf]) (offsetsOf_slice nslice 1 (Or.inl rfl)) e.grid hg _ (le_refl _)
  obtain ⟨oA, gA, _⟩ := traceDirS_ok e hf after share pol.nx pol.nz smp (offsetsOf nslice 1) (by simp [offsetsOf]) _ _ _ h5
  have hSA : SameY e.grid A.2 := by rw [gA]; exact SameY.before _ _ _ _ _ _ _ _
  have hGA : GridOk (e.on A.2) := hg.on hSA (by rw [gA]; exact HasPerp.before _ _ _ _ _ _ hg.perp _)
  have hny : e.grid.ny ≤ A.2.ny := by unfold Grid.ny; rw [hSA.y]
  obtain ⟨B, h6⟩ := traceDirS_succeeds e hf after share pol.nx pol.nz smp (offsetsOf nslice (-1))
    (by simp [offsetsOf]) (offsetsOf_slice nslice (-1) (Or.inr rfl)) A.2 hGA _ hny
  obtain ⟨oB, gB, _⟩ := traceDirS_ok e hf after share pol.nx pol.nz smp (offsetsOf nslice (-1)) (by simp [offsetsOf]) _ _ _ h6
  have hSB : SameY A.2 B.2 := by rw [gB]; exact SameY.before _ _ _ _ _ _ _ _
  have hGB : GridOk (e.on B.2) := hg.on (hSA.trans hSB) (by rw [gB]; exact HasPerp.before _ _ _ _ _ _ hGA.perp _)
  have hsl : ∀ ps ∈ A.1 ++ B.1, SliceOffset ps.offset := by
    intro ps hps
    refine allOffsets_slice nslice _ ?_
    unfold allOffsets
    rw [← oA, ← oB, ← List.map_append]
    exact List.mem_map.2 ⟨ps, hps, rfl⟩
  obtain ⟨s, h7, _⟩ := jacAll_prefix (e.on B.2) hf hGB pol.nx r nc hr hc empty _ (le_refl _)
  have h7 : jacAll { e with grid := B.2 } pol.nx r nc empty = .ok s := h7
  unfold makeMapsS traceDirS
  simp only [one_pow]
  rw [h1]
  simp only [Except.bind]
  rw [h2]
  simp only
  rw [h3]
  simp only
  rw [h4]
  simp only
  rw [h5]
  simp only
  rw [h6]
  simp only [List.flatten_cons, List.flatten_nil, List.append_nil]
  rw [sliceEntries_all e (A.1 ++ B.1) hsl]
  simp only
  rw [h7]
  exact ⟨_, _, rfl⟩

end Zoidberg
