import Verif.Proofs.MakeMaps
import Verif.Props.SliceNames

/-! # The dictionary returned by `make_maps` -/

set_option linter.unusedSectionVars false

namespace Zoidberg

variable {K : Type} [Field K] [LinearOrder K] [IsStrictOrderedRing K] [FloorRing K]

/-- `parallel_slice_field_name(f, o)` for an accepted offset. -/
def nm (e : MmEnv K) (f : String) (o : PyNum K) : String :=
  match parallelSliceFieldName e.repr f o with
  | .ok s => s
  | .error _ => ""

theorem nm_eq (e : MmEnv K) (f : String) (o : PyNum K) (ho : SliceOffset o) :
    parallelSliceFieldName e.repr f o = .ok (nm e f o) := by
  obtain ⟨s, h⟩ := C30_accepts e.repr f o ho
  unfold nm
  rw [h]

theorem nm_inj (e : MmEnv K) (f f' : String) (o o' : PyNum K) (hf : Plain f) (hf' : Plain f')
    (ho : SliceOffset o) (ho' : SliceOffset o') (h : nm e f o = nm e f' o') : f = f' ∧ o = o' := by
  refine C30_unique e.repr f f' o o' hf hf' ho ho' ?_
  rw [nm_eq e f o ho, nm_eq e f' o' ho', h]

/-- The names of the six arrays. -/
def sixFields : List String := ["R", "Z", "xt_prime", "zt_prime", "xt_primes", "zt_primes"]

/-- The six arrays of a slice. -/
def entryList (e : MmEnv K) (ps : PSlice K) : List (String × MapVal K) :=
  [(nm e "R" ps.offset, .f3 ps.R), (nm e "Z" ps.offset, .f3 ps.Z),
    (nm e "xt_prime" ps.offset, .f3 ps.xt), (nm e "zt_prime" ps.offset, .f3 ps.zt),
    (nm e "xt_primes" ps.offset, .f4 ps.xts), (nm e "zt_primes" ps.offset, .f4 ps.zts)]

theorem sliceEntries_eq (e : MmEnv K) (ps : PSlice K) (ho : SliceOffset ps.offset) :
    sliceEntries e ps = .ok (entryList e ps) := by
  unfold sliceEntries entryList
  simp only [List.mapM_cons, List.mapM_nil, nm_eq e _ _ ho, Except.map, bind, Except.bind, pure,
    Except.pure]

theorem sliceEntries_all (e : MmEnv K) : ∀ (L : List (PSlice K)), (∀ ps ∈ L, SliceOffset ps.offset) →
    L.mapM (sliceEntries e) = .ok (L.map (entryList e)) := by
  intro L
  induction L with
  | nil => intro _; rfl
  | cons p t ih =>
    intro h
    rw [List.mapM_cons, sliceEntries_eq e p (h p (by simp)), ih fun q hq => h q (by simp [hq])]
    rfl

/-- All offsets in the order of `make_maps`. -/
def allOffsets (nslice : ℕ) : List (PyNum K) := offsetsOf nslice 1 ++ offsetsOf nslice (-1)

theorem offsetsOf_slice (nslice : ℕ) (d : ℤ) (hd : d = 1 ∨ d = -1) :
    ∀ o ∈ (offsetsOf nslice d : List (PyNum K)), SliceOffset o := by
  intro o ho
  unfold offsetsOf at ho
  rcases List.mem_cons.1 ho with rfl | ho
  · right
    rcases hd with rfl | rfl
    · left; norm_num
    · right; norm_num
  · obtain ⟨i, _, rfl⟩ := List.mem_map.1 ho
    left
    refine ⟨_, ?_, rfl⟩
    rcases hd with rfl | rfl <;> omega

theorem allOffsets_slice (nslice : ℕ) : ∀ o ∈ (allOffsets nslice : List (PyNum K)), SliceOffset o := by
  intro o ho
  rcases List.mem_append.1 ho with h | h
  · exact offsetsOf_slice nslice 1 (Or.inl rfl) o h
  · exact offsetsOf_slice nslice (-1) (Or.inr rfl) o h

theorem mem_allOffsets (nslice : ℕ) (o : PyNum K) : o ∈ (allOffsets nslice : List (PyNum K)) ↔
    o = .float (1 / 2) ∨ o = .float (-1 / 2) ∨
      ∃ k : ℤ, k ≠ 0 ∧ k.natAbs ≤ nslice ∧ o = .int k := by
  unfold allOffsets offsetsOf
  have e1 : ((1 : ℤ) : K) * (1 / 2) = 1 / 2 := by norm_num
  have e2 : ((-1 : ℤ) : K) * (1 / 2) = -1 / 2 := by norm_num
  rw [e1, e2]
  simp only [List.mem_append, List.mem_cons, List.mem_map, List.mem_range]
  constructor
  · rintro ((h | ⟨i, hi, rfl⟩) | h | ⟨i, hi, rfl⟩)
    · exact Or.inl h
    · exact Or.inr (Or.inr ⟨_, by omega, by omega, rfl⟩)
    · exact Or.inr (Or.inl h)
    · exact Or.inr (Or.inr ⟨_, by omega, by omega, rfl⟩)
  · rintro (h | h | ⟨k, h1, h2, rfl⟩)
    · exact Or.inl (Or.inl h)
    · exact Or.inr (Or.inl h)
    · rcases lt_or_gt_of_ne h1 with h | h
      · refine Or.inr (Or.inr ⟨k.natAbs - 1, by omega, ?_⟩)
        congr 1; omega
      · refine Or.inl (Or.inr ⟨k.natAbs - 1, by omega, ?_⟩)
        congr 1; omega

theorem offsetsOf_nodup (nslice : ℕ) (d : ℤ) (hd : d = 1 ∨ d = -1) :
    (offsetsOf nslice d : List (PyNum K)).Nodup := by
  unfold offsetsOf
  refine List.nodup_cons.2 ⟨?_, ?_⟩
  · intro h
    obtain ⟨i, _, h⟩ := List.mem_map.1 h
    simp at h
  · refine (List.nodup_map_iff_inj_on List.nodup_range).2 ?_
    intro a _ b _ hab
    injection hab with hab
    rcases hd with rfl | rfl <;> omega

theorem allOffsets_nodup (nslice : ℕ) : (allOffsets nslice : List (PyNum K)).Nodup := by
  unfold allOffsets
  refine List.Nodup.append (offsetsOf_nodup nslice 1 (Or.inl rfl))
    (offsetsOf_nodup nslice (-1) (Or.inr rfl)) ?_
  intro o h1 h2
  unfold offsetsOf at h1 h2
  rcases List.mem_cons.1 h1 with rfl | h1 <;> rcases List.mem_cons.1 h2 with h2 | h2
  · injection h2 with h2
    norm_num at h2
  · obtain ⟨i, _, h⟩ := List.mem_map.1 h2
    simp at h
  · obtain ⟨i, _, h⟩ := List.mem_map.1 h1
    rw [h2] at h
    simp at h
  · obtain ⟨i, _, rfl⟩ := List.mem_map.1 h1
    obtain ⟨i', _, h⟩ := List.mem_map.1 h2
    injection h with h
    omega

/-- The names of all slice arrays are different. -/
theorem slice_names_nodup (e : MmEnv K) (nslice : ℕ) :
    ((allOffsets nslice : List (PyNum K)).flatMap fun o => sixFields.map fun f => nm e f o).Nodup := by
  refine List.nodup_flatMap.2 ⟨?_, ?_⟩
  · intro o ho
    refine (List.nodup_map_iff_inj_on (by decide)).2 ?_
    intro a ha b hb hab
    exact (nm_inj e a b o o (plain_fields a ha) (plain_fields b hb) (allOffsets_slice nslice o ho)
      (allOffsets_slice nslice o ho) hab).1
  · refine List.Pairwise.imp_of_mem ?_ (allOffsets_nodup nslice)
    intro o o' ho ho' hne s hs hs'
    obtain ⟨f, hf, rfl⟩ := List.mem_map.1 hs
    obtain ⟨f', hf', h⟩ := List.mem_map.1 hs'
    exact hne (nm_inj e f' f o' o (plain_fields f' hf') (plain_fields f hf)
      (allOffsets_slice nslice o' ho') (allOffsets_slice nslice o ho) h).2.symm

/-- Names for whole offsets start with `f` or `b`; names for half cells end with
`w` or `h`. -/
theorem nm_int_head (e : MmEnv K) (f : String) (k : ℤ) (hk : k ≠ 0) :
    (nm e f (.int k)).toList.head? = some 'f' ∨ (nm e f (.int k)).toList.head? = some 'b' := by
  obtain ⟨s, h1, h2⟩ := name_int e.repr f k hk
  have : nm e f (.int k) = s := by unfold nm; rw [h1]
  rw [this, h2]
  by_cases a : 0 < k
  · left; rw [if_pos a]; rfl
  · right; rw [if_neg a]; rfl

theorem nm_half (e : MmEnv K) (f : String) :
    nm e f (.float (1 / 2)) = f ++ "_cell_yhigh" ∧ nm e f (.float (-1 / 2)) = f ++ "_cell_ylow" := by
  constructor
  · obtain ⟨s, h1, h2⟩ := name_half e.repr f (.float (1 / 2)) (Or.inl rfl)
    have : nm e f (.float (1 / 2)) = s := by unfold nm; rw [h1]
    rw [this]
    apply String.toList_inj.1
    rw [h2]
    have : ¬ (PyNum.float (1 / 2) : PyNum K).val < 0 := by
      change ¬ (1 / 2 : K) < 0; norm_num
    rw [if_neg this, String.toList_append, List.append_assoc]
    rfl
  · obtain ⟨s, h1, h2⟩ := name_half e.repr f (.float (-1 / 2)) (Or.inr rfl)
    have : nm e f (.float (-1 / 2)) = s := by unfold nm; rw [h1]
    rw [this]
    apply String.toList_inj.1
    rw [h2]
    have : (PyNum.float (-1 / 2) : PyNum K).val < 0 := by
      change (-1 / 2 : K) < 0; norm_num
    rw [if_pos this, String.toList_append, List.append_assoc]
    rfl

/-- Arrays at whole offsets are not deleted. -/
theorem not_half_int (e : MmEnv K) (f : String) (hf : 'l' ∉ f.toList) (k : ℤ) (hk : k ≠ 0) :
    isHalfIndex (nm e f (.int k)) = false := by
  obtain ⟨s, h1, h2⟩ := name_int e.repr f k hk
  have hs : nm e f (.int k) = s := by unfold nm; rw [h1]
  have hd : 'l' ∉ (toString k.natAbs).toList := by
    intro h
    have e : (toString k.natAbs).toList = Nat.toDigits 10 k.natAbs := by
      change (Nat.repr k.natAbs).toList = _
      exact Nat.toList_repr
    rw [e] at h
    have := Nat.isDigit_of_mem_toDigits (by norm_num) (le_refl 10) h
    exact absurd this (by decide)
  have h3 : 'l' ∉ (if 0 < k then "forward_".toList else "backward_".toList) := by
    split <;> decide
  have hl : 'l' ∉ s.toList := by
    rw [h2]
    intro h
    rcases List.mem_append.1 h with h | h
    · rcases List.mem_append.1 h with h | h
      · exact h3 h
      · exact hf h
    · split at h
      · rcases List.mem_cons.1 h with h | h
        · exact absurd h (by decide)
        · exact hd h
      · exact absurd h List.not_mem_nil
  have hi : ¬ "_cell_y".toList <:+: s.toList := fun h => hl (h.subset (by decide))
  unfold isHalfIndex contains
  rw [hs, decide_eq_false hi]
  rfl

theorem get?_filter {V : Type} (q : String → Bool) (d : ODict V) (k : String) (hq : q k = true) :
    ODict.get? (d.filter fun p => q p.1) k = d.get? k := by
  induction d with
  | nil => rfl
  | cons p t ih =>
    obtain ⟨a, b⟩ := p
    by_cases h : q a = true
    · rw [List.filter_cons_of_pos (by simpa using h), ODict.get?_cons, ODict.get?_cons, ih]
    · rw [List.filter_cons_of_neg (by simpa using h), ODict.get?_cons, ih, if_neg]
      rintro rfl
      exact h hq

/-- The first five entries. -/
def baseEntries (R Z : Cell → K) (mxg nslice : ℕ) (w : List K) : List (String × MapVal K) :=
  [("R", MapVal.f3 R), ("Z", .f3 Z), ("MXG", .num mxg), ("MYG", .num nslice), ("subcell_weights", .arr w)]

theorem base_ne_half : ∀ f ∈ sixFields, ∀ p ∈ ["_cell_yhigh", "_cell_ylow"],
    f ++ p ∉ ["R", "Z", "MXG", "MYG", "subcell_weights"] := by decide

/-- Parts of a successful run of `make_maps`. -/
theorem makeMaps_parts {e : MmEnv K} {nslice mxg n r nc : ℕ} {empty : JState K} {m : ODict (MapVal K)}
    (h : makeMaps e nslice mxg n r nc empty = .ok m) (hf : FollowOk e) :
    ∃ pol y R Z smp A B s, e.plane 0 = .ok (pol, y) ∧ gridArray e (·.R) = .ok R ∧
      gridArray e (·.Z) = .ok Z ∧ samples e n = .ok smp ∧
      (List.range e.grid.ny).foldlM (tracePlane e pol.nx pol.nz smp (n ^ 2))
        ((offsetsOf nslice 1).map PSlice.zero) = .ok A ∧
      (List.range e.grid.ny).foldlM (tracePlane e pol.nx pol.nz smp (n ^ 2))
        ((offsetsOf nslice (-1)).map PSlice.zero) = .ok B ∧
      jacAll e pol.nx r nc empty = .ok s ∧ (A ++ B).map (·.offset) = allOffsets nslice ∧
      ((baseEntries R Z mxg nslice (sampleWeights smp) ++ (A ++ B).flatMap (entryList e)).map
        (·.1)).Nodup ∧
      m = (finalEntries e s).foldl (fun d p => ODict.set d p.1 p.2)
        ((baseEntries R Z mxg nslice (sampleWeights smp) ++ (A ++ B).flatMap (entryList e)).filter
          fun p => !isHalfIndex p.1) := by
  unfold makeMaps at h
  simp only [bind, Except.bind] at h
  cases h1 : e.plane 0 with
  | error err => rw [h1] at h; simp at h
  | ok py =>
  obtain ⟨pol, y⟩ := py
  rw [h1] at h
  simp only at h
  cases h2 : gridArray e (·.R) with
  | error err => rw [h2] at h; simp at h
  | ok R =>
  rw [h2] at h
  simp only at h
  cases h3 : gridArray e (·.Z) with
  | error err => rw [h3] at h; simp at h
  | ok Z =>
  rw [h3] at h
  simp only at h
  cases h4 : samples e n with
  | error err => rw [h4] at h; simp at h
  | ok smp =>
  rw [h4] at h
  simp only [traceAll, List.mapM_cons, List.mapM_nil, bind, Except.bind, pure, Except.pure] at h
  cases h5 : (List.range e.grid.ny).foldlM (tracePlane e pol.nx pol.nz smp (n ^ 2))
        ((offsetsOf nslice 1).map PSlice.zero) with
  | error err => rw [h5] at h; simp at h
  | ok A =>
  rw [h5] at h
  simp only at h
  cases h6 : (List.range e.grid.ny).foldlM (tracePlane e pol.nx pol.nz smp (n ^ 2))
        ((offsetsOf nslice (-1)).map PSlice.zero) with
  | error err => rw [h6] at h; simp at h
  | ok B =>
  rw [h6] at h
  simp only [List.flatten_cons, List.flatten_nil, List.append_nil] at h
  have oA := (traceDir_ok e hf pol.nx pol.nz smp (n ^ 2) (offsetsOf nslice 1)
    (by simp [offsetsOf]) _ _ h5).1
  have oB := (traceDir_ok e hf pol.nx pol.nz smp (n ^ 2) (offsetsOf nslice (-1))
    (by simp [offsetsOf]) _ _ h6).1
  have hoff : (A ++ B).map (·.offset) = allOffsets nslice := by
    rw [List.map_append, oA, oB]; rfl
  have hsl : ∀ ps ∈ A ++ B, SliceOffset ps.offset := by
    intro ps hps
    refine allOffsets_slice nslice _ ?_
    rw [← hoff]
    exact List.mem_map.2 ⟨ps, hps, rfl⟩
  rw [sliceEntries_all e (A ++ B) hsl] at h
  simp only at h
  cases h7 : jacAll e pol.nx r nc empty with
  | error err => rw [h7] at h; simp at h
  | ok s =>
  rw [h7] at h
  simp only at h
  injection h with h
  have hk : ((baseEntries R Z mxg nslice (sampleWeights smp) ++
      ((A ++ B).map (entryList e)).flatten).map (·.1)).Nodup := by
    have e1 : (((A ++ B).map (entryList e)).flatten).map (·.1) =
        (allOffsets nslice : List (PyNum K)).flatMap fun o => sixFields.map fun f => nm e f o := by
      rw [← hoff, ← List.flatMap_def, List.map_flatMap, List.flatMap_map]
      rfl
    rw [List.map_append, e1]
    refine List.Nodup.append (show ["R", "Z", "MXG", "MYG", "subcell_weights"].Nodup by decide)
      (slice_names_nodup e nslice) ?_
    intro k hk1 hk2
    obtain ⟨o, ho, hk2⟩ := List.mem_flatMap.1 hk2
    obtain ⟨f, hfm, rfl⟩ := List.mem_map.1 hk2
    rcases (mem_allOffsets nslice o).1 ho with rfl | rfl | ⟨k, hk0, _, rfl⟩
    · rw [(nm_half e f).1] at hk1
      exact base_ne_half f hfm _ (by simp) hk1
    · rw [(nm_half e f).2] at hk1
      exact base_ne_half f hfm _ (by simp) hk1
    · have hh := nm_int_head e f k hk0
      have hb : ∀ s ∈ (baseEntries R Z mxg nslice (sampleWeights smp)).map (·.1),
          ¬ (s.toList.head? = some 'f' ∨ s.toList.head? = some 'b') := by
        change ∀ s ∈ ["R", "Z", "MXG", "MYG", "subcell_weights"], _
        decide
      exact hb _ hk1 hh
  refine ⟨pol, y, R, Z, smp, A, B, s, rfl, rfl, rfl, rfl, h5, h6, h7, hoff,
    by rw [List.flatMap_def]; exact hk, ?_⟩
  rw [← h]
  have hof := ODict.ofList_nodup _ hk
  rw [List.flatMap_def]
  exact congrArg (fun d : ODict (MapVal K) => (finalEntries e s).foldl (fun d p => ODict.set d p.1 p.2)
    (d.filter fun p => !isHalfIndex p.1)) hof

end Zoidberg
