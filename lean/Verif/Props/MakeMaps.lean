import Verif.Proofs.MakeMapsLookup
import Verif.Props.MakeMapsExample

/-! # Properties C31, C32 and C33: the arrays returned by `make_maps` -/

set_option linter.unusedSectionVars false

namespace Zoidberg

variable {K : Type} [Field K] [LinearOrder K] [IsStrictOrderedRing K] [FloorRing K]

/-! ## C31: the set of arrays -/

/-- The documented name of field `f` at the whole offset `d`: `forward_R`,
`backward_R_2` and so on. -/
def sliceName (f : String) (d : ℤ) : String :=
  (if 0 < d then "forward" else "backward") ++ "_" ++ f ++
    (if d.natAbs = 1 then "" else "_" ++ toString d.natAbs)

theorem nm_sliceName (e : MmEnv K) (f : String) (d : ℤ) (hd : d ≠ 0) :
    nm e f (.int d) = sliceName f d := by
  have h1 : ¬ |(PyNum.int d : PyNum K).val| < 1 := by
    change ¬ |(d : K)| < 1
    rw [← Int.cast_abs]
    have : (1 : ℤ) ≤ |d| := Int.one_le_abs hd
    exact not_lt.2 (by exact_mod_cast this)
  have h2 : ((PyNum.int d : PyNum K).val > 0) ↔ 0 < d := by
    change (0 : K) < (d : K) ↔ _
    exact Int.cast_pos
  have h3 : (|(PyNum.int d : PyNum K).val| > 1) ↔ ¬ d.natAbs = 1 := by
    change (1 : K) < |(d : K)| ↔ _
    rw [← Int.cast_abs]
    have : ((1 : K) < ((|d| : ℤ) : K)) ↔ (1 : ℤ) < |d| := by exact_mod_cast Iff.rfl
    rw [this, Int.abs_eq_natAbs]
    omega
  unfold nm parallelSliceFieldName sliceName
  rw [if_neg h1]
  simp only
  by_cases a : 0 < d
  · rw [if_pos (h2.2 a), if_pos a]
    by_cases b : d.natAbs = 1
    · rw [if_neg (fun h => h3.1 h b), if_pos b]
    · rw [if_pos (h3.2 b), if_neg b]; rfl
  · rw [if_neg (fun h => a (h2.1 h)), if_neg a]
    by_cases b : d.natAbs = 1
    · rw [if_neg (fun h => h3.1 h b), if_pos b]
    · rw [if_pos (h3.2 b), if_neg b]; rfl

/-- The names `make_maps` is documented to return. -/
def Documented (slab : Bool) (nslice : ℕ) (k : String) : Prop :=
  k ∈ ["R", "Z", "MXG", "MYG", "subcell_weights"] ∨
  (∃ d : ℤ, d ≠ 0 ∧ d.natAbs ≤ nslice ∧
    k ∈ ["R", "Z", "xt_prime", "zt_prime", "xt_primes", "zt_primes"].map (sliceName · d)) ∨
  k ∈ ["R_cell_ylow", "R_cell_yhigh", "Z_cell_ylow", "Z_cell_yhigh"] ∨
  k ∈ ["By_cell_ylow", "By", "By_cell_yhigh"] ∨
  (slab = false ∧ k ∈ ["J", "Ly_cell_ylow", "Ly", "Ly_cell_yhigh"])

theorem half_kept : ∀ f ∈ sixFields, ∀ p ∈ ["_cell_yhigh", "_cell_ylow"],
    (isHalfIndex (f ++ p) = false ↔
      f ++ p ∈ ["R_cell_ylow", "R_cell_yhigh", "Z_cell_ylow", "Z_cell_yhigh"]) := by decide +kernel

theorem base_kept : ∀ k ∈ ["R", "Z", "MXG", "MYG", "subcell_weights"], isHalfIndex k = false := by
  decide +kernel

theorem six_no_l : ∀ f ∈ sixFields, 'l' ∉ f.toList := by decide

theorem mem_keys_filter {V : Type} (d : ODict V) (k : String) :
    k ∈ ODict.keys (d.filter fun p => !isHalfIndex p.1) ↔
      k ∈ d.map (·.1) ∧ isHalfIndex k = false := by
  unfold ODict.keys
  simp only [List.mem_map, List.mem_filter, Bool.not_eq_true']
  constructor
  · rintro ⟨p, ⟨h1, h2⟩, rfl⟩
    exact ⟨⟨p, h1, rfl⟩, h2⟩
  · rintro ⟨⟨p, h1, rfl⟩, h2⟩
    exact ⟨p, ⟨h1, h2⟩, rfl⟩

/-- **C31.** The keys of the result are exactly the documented names, each once.
In particular there is no `*t_prime*` array for the half cells. -/
theorem C31_keys (e : MmEnv K) (hf : FollowOk e) (nslice mxg n r nc : ℕ) (empty : JState K)
    (m : ODict (MapVal K)) (h : makeMaps e nslice mxg n r nc empty = .ok m) :
    m.keys.Nodup ∧ ∀ k, k ∈ m.keys ↔ Documented e.isSlab nslice k := by
  obtain ⟨pol, y, R, Z, smp, A, B, s, h1, h2, h3, h4, h5, h6, h7, h8, h9, h10⟩ := makeMaps_parts h hf
  have hnd : m.keys.Nodup := by
    rw [h10]
    refine ODict.nodup_foldl_set _ _ ?_
    exact List.Nodup.sublist (List.Sublist.map _ List.filter_sublist) h9
  refine ⟨hnd, ?_⟩
  intro k
  rw [h10, ODict.mem_keys_foldl_set, finalEntries_keys, mem_keys_filter, List.map_append,
    List.mem_append]
  have e1 : ((A ++ B).flatMap (entryList e)).map (·.1) =
      (allOffsets nslice : List (PyNum K)).flatMap fun o => sixFields.map fun f => nm e f o := by
    rw [← h8, List.map_flatMap, List.flatMap_map]
    rfl
  have e2 : (baseEntries R Z mxg nslice (sampleWeights smp)).map (·.1) =
      ["R", "Z", "MXG", "MYG", "subcell_weights"] := rfl
  rw [e1, e2]
  unfold Documented
  constructor
  · rintro (⟨hk | hk, hh⟩ | hk)
    · exact Or.inl hk
    · obtain ⟨o, ho, hk⟩ := List.mem_flatMap.1 hk
      obtain ⟨f, hfm, rfl⟩ := List.mem_map.1 hk
      rcases (mem_allOffsets nslice o).1 ho with rfl | rfl | ⟨d, hd0, hd1, rfl⟩
      · rw [(nm_half e f).1] at hh ⊢
        exact Or.inr (Or.inr (Or.inl ((half_kept f hfm _ (by simp)).1 hh)))
      · rw [(nm_half e f).2] at hh ⊢
        exact Or.inr (Or.inr (Or.inl ((half_kept f hfm _ (by simp)).1 hh)))
      · refine Or.inr (Or.inl ⟨d, hd0, hd1, ?_⟩)
        rw [nm_sliceName e f d hd0]
        exact List.mem_map.2 ⟨f, hfm, rfl⟩
    · unfold finalNames at hk
      rcases List.mem_append.1 hk with hk | hk
      · cases hs : e.isSlab with
        | true => rw [hs] at hk; simp at hk
        | false => rw [hs] at hk; exact Or.inr (Or.inr (Or.inr (Or.inr ⟨rfl, hk⟩)))
      · exact Or.inr (Or.inr (Or.inr (Or.inl hk)))
  · have half : ∀ f ∈ sixFields, ∀ o : PyNum K, o = .float (1 / 2) ∨ o = .float (-1 / 2) →
        nm e f o ∈ (allOffsets nslice : List (PyNum K)).flatMap
          fun o => sixFields.map fun f => nm e f o := by
      intro f hfm o ho
      refine List.mem_flatMap.2 ⟨o, (mem_allOffsets nslice o).2 ?_, List.mem_map.2 ⟨f, hfm, rfl⟩⟩
      rcases ho with rfl | rfl
      · exact Or.inl rfl
      · exact Or.inr (Or.inl rfl)
    rintro (hk | ⟨d, hd0, hd1, hk⟩ | hk | hk | ⟨hs, hk⟩)
    · exact Or.inl ⟨Or.inl hk, base_kept k hk⟩
    · obtain ⟨f, hfm, rfl⟩ := List.mem_map.1 hk
      rw [← nm_sliceName e f d hd0]
      refine Or.inl ⟨Or.inr (List.mem_flatMap.2 ⟨.int d, (mem_allOffsets nslice _).2
        (Or.inr (Or.inr ⟨d, hd0, hd1, rfl⟩)), List.mem_map.2 ⟨f, hfm, rfl⟩⟩), ?_⟩
      exact not_half_int e f (six_no_l f hfm) d hd0
    · have hm : ∃ f ∈ sixFields, ∃ p ∈ ["_cell_yhigh", "_cell_ylow"], k = f ++ p := by
        simp only [List.mem_cons, List.not_mem_nil, or_false] at hk
        rcases hk with rfl | rfl | rfl | rfl
        · exact ⟨"R", by decide, "_cell_ylow", by decide, rfl⟩
        · exact ⟨"R", by decide, "_cell_yhigh", by decide, rfl⟩
        · exact ⟨"Z", by decide, "_cell_ylow", by decide, rfl⟩
        · exact ⟨"Z", by decide, "_cell_yhigh", by decide, rfl⟩
      obtain ⟨f, hfm, p, hp, rfl⟩ := hm
      refine Or.inl ⟨Or.inr ?_, (half_kept f hfm p hp).2 hk⟩
      simp only [List.mem_cons, List.not_mem_nil, or_false] at hp
      rcases hp with rfl | rfl
      · rw [← (nm_half e f).1]; exact half f hfm _ (Or.inl rfl)
      · rw [← (nm_half e f).2]; exact half f hfm _ (Or.inr rfl)
    · exact Or.inr (List.mem_append_right _ hk)
    · refine Or.inr (List.mem_append_left _ ?_)
      rw [hs]; exact hk

/-- **C31.** `make_maps` does return for every number of slices, given a grid with
one poloidal grid per y coordinate, a tracer that returns one plane per requested
y, a quadrature rule whose weights sum to 2, and positive `samples_per_dim`,
`refine_parallel_integral` and `n_chunks`. -/
theorem C31_succeeds (e : MmEnv K) (hf : FollowOk e) (hg : GridOk e) (nslice mxg n r nc : ℕ)
    (hn : 1 ≤ n) (hgs : GaussOk e n) (hr : 1 ≤ r) (hc : 1 ≤ nc) (empty : JState K) :
    ∃ m, makeMaps e nslice mxg n r nc empty = .ok m :=
  makeMaps_succeeds e hf hg nslice mxg n r nc hn hgs hr hc empty

/-- **C31.** The entries that are not slices: `R` and `Z` are the grid points,
`MXG` and `MYG` the numbers of guard cells. -/
theorem C31_grid_points (e : MmEnv K) (hf : FollowOk e) (hg : GridOk e) (nslice mxg n r nc : ℕ)
    (empty : JState K) (m : ODict (MapVal K)) (h : makeMaps e nslice mxg n r nc empty = .ok m) :
    m.get? "MXG" = some (.num mxg) ∧ m.get? "MYG" = some (.num nslice) ∧
    ∃ R Z, m.get? "R" = some (.f3 R) ∧ m.get? "Z" = some (.f3 Z) ∧
      ∀ (j : ℕ) (pol : MapPol K), e.grid.polGrids[j]? = some pol →
        ∀ x z, R (x, j, z) = pol.R x z ∧ Z (x, j, z) = pol.Z x z := by
  obtain ⟨pol, y, R, Z, smp, A, B, s, h1, h2, h3, h4, h5, h6, h7, h8, h9, h10⟩ := makeMaps_parts h hf
  have get : ∀ k v, (k, v) ∈ baseEntries R Z mxg nslice (sampleWeights smp) → m.get? k = some v := by
    intro k v hkv
    have hk : k ∈ ["R", "Z", "MXG", "MYG", "subcell_weights"] := by
      have : k ∈ (baseEntries R Z mxg nslice (sampleWeights smp)).map (·.1) :=
        List.mem_map.2 ⟨_, hkv, rfl⟩
      exact this
    rw [h10]
    refine lookup_kept _ _ h9 k v (List.mem_append_left _ hkv) (base_kept k hk) ?_
    rw [finalEntries_keys]
    exact base_not_final _ k hk
  obtain ⟨R', hR1, hR2⟩ := gridArray_ok e hg (fun p => p.R)
  obtain ⟨Z', hZ1, hZ2⟩ := gridArray_ok e hg (fun p => p.Z)
  have eR : R' = R := by
    have := hR1.symm.trans h2
    injection this
  have eZ : Z' = Z := by
    have := hZ1.symm.trans h3
    injection this
  subst eR eZ
  refine ⟨get _ _ (by simp [baseEntries]), get _ _ (by simp [baseEntries]), R', Z',
    get _ _ (by simp [baseEntries]), get _ _ (by simp [baseEntries]), ?_⟩
  intro j pol hp x z
  exact ⟨hR2 j pol hp x z, hZ2 j pol hp x z⟩

example (empty : JState ℚ) : ∃ m, makeMaps (exMm [0, 1] true false) 2 2 2 1 3 empty = .ok m ∧
    "backward_xt_primes_2" ∈ m.keys ∧ "xt_prime_cell_ylow" ∉ m.keys ∧ "J" ∈ m.keys := by
  obtain ⟨m, h⟩ := exMm_succeeds [0, 1] true false (by simp) 2 2 2 1 3 (by norm_num) (by norm_num)
    (by norm_num) empty
  obtain ⟨_, hk⟩ := C31_keys _ (exMm_follow _ _ _) _ _ _ _ _ _ m h
  refine ⟨m, h, ?_, ?_, ?_⟩
  · refine (hk _).2 (Or.inr (Or.inl ⟨-2, by norm_num, by norm_num, ?_⟩))
    refine List.mem_map.2 ⟨"xt_primes", by decide, ?_⟩
    decide +kernel
  · intro hc
    have hlow : ∀ d : ℤ, ∀ f, sliceName f d ≠ "xt_prime_cell_ylow" := by
      intro d f hs
      have : (sliceName f d).toList.head? = some 'x' := by rw [hs]; decide
      unfold sliceName at this
      by_cases a : 0 < d
      · rw [if_pos a] at this; simp [String.toList_append] at this
      · rw [if_neg a] at this; simp [String.toList_append] at this
    rcases (hk _).1 hc with h | ⟨d, _, _, h⟩ | h | h | ⟨_, h⟩
    · exact absurd h (by decide)
    · obtain ⟨f, _, hf⟩ := List.mem_map.1 h
      exact hlow d f hf
    · exact absurd h (by decide)
    · exact absurd h (by decide)
    · exact absurd h (by decide)
  · exact (hk _).2 (Or.inr (Or.inr (Or.inr (Or.inr ⟨rfl, by decide⟩))))

/-! ## C32: the slice indices -/

/-- `coord` is the plane that the tracer returns for the `y` value of offset number
`i`, when it is started on the grid points of plane `j` and asked for the `y`
values of all `offsets`. -/
def TracedTo (e : MmEnv K) (offsets : List K) (j i : ℕ) (coord : ℕ → ℕ → K × K) : Prop :=
  ∃ first y0 pol y ys, e.grid.getPoloidalGrid ((0 : ℕ) : K) = .ok (some first, y0) ∧
    e.grid.getPoloidalGrid (j : K) = .ok (some pol, y) ∧
    ys.length = offsets.length ∧
    (∀ (k : ℕ) (o : K), offsets[k]? = some o →
      ∃ t yt, e.grid.getPoloidalGrid ((j : K) + o) = .ok (t, yt) ∧ ys[k]? = some yt) ∧
    (e.follow first.nx first.nz pol.R pol.Z (y :: ys))[i + 1]? = some coord

/-- The offsets of the slices in the direction of the sign of `d`. -/
def offsetValues (nslice : ℕ) (sign : ℤ) : List K :=
  (sign : K) * (1 / 2) :: (List.range nslice).map fun i : ℕ => (sign : K) * ((i : K) + 1)

theorem offsetValues_eq (nslice : ℕ) (sign : ℤ) :
    (offsetsOf nslice sign).map (PyNum.val (K := K)) = offsetValues nslice sign := by
  unfold offsetsOf offsetValues
  simp [PyNum.val, Function.comp_def]

theorem plane_eq {e : MmEnv K} {j : ℕ} {pol : MapPol K} {y : K} (h : e.plane j = .ok (pol, y)) :
    e.grid.getPoloidalGrid (j : K) = .ok (some pol, y) := by
  unfold MmEnv.plane at h
  split at h
  · simp at h
  · simp at h
  · rename_i p y' hp
    injection h with h
    injection h with h1 h2
    rw [hp, h1, h2]

/-- What `Filled` means for a slice, in terms of the grid and the tracer. -/
theorem filled_traced {e : MmEnv K} {first : MapPol K} {y0 : K}
    (h0 : e.plane 0 = .ok (first, y0)) {smp : Option (List (K × K × K))} {ns nslice : ℕ} {dir : ℤ}
    {j i : ℕ} {ps : PSlice K} {o : PyNum K} (ho : (offsetsOf nslice dir)[i]? = some o)
    (h : Filled e first.nx first.nz smp ns (offsetsOf nslice dir) j i ps) :
    ∃ coord t yt yl, TracedTo e (offsetValues nslice dir) j i coord ∧
      e.grid.getPoloidalGrid ((j : K) + o.val) = .ok (t, yt) ∧
      (i = nslice → yl = yt) ∧
      ∀ x z, ps.R (x, j, z) = (coord x z).1 ∧ ps.Z (x, j, z) = (coord x z).2 ∧
        ps.xt (x, j, z) = (indexOf e yl t coord x z).1 ∧
        ps.zt (x, j, z) = (indexOf e yl t coord x z).2 := by
  obtain ⟨pol, y, targets, coord, t, g1, g2, g3, g4, g5, _, _⟩ := h
  obtain ⟨b, hb1, hb2⟩ := mapM_getElem? g2 i o ho
  rw [g4] at hb1
  injection hb1 with hb1
  subst hb1
  have hlen := mapM_length g2
  refine ⟨coord, t.1, t.2, (targets.map (·.2)).getLastD y, ?_, hb2, ?_, g5⟩
  · refine ⟨first, y0, pol, y, targets.map (·.2), plane_eq h0, plane_eq g1, ?_, ?_, g3⟩
    · rw [← offsetValues_eq]; simp [hlen]
    · intro k o' hk
      rw [← offsetValues_eq, List.getElem?_map] at hk
      obtain ⟨o'', ho1, ho2⟩ := Option.map_eq_some_iff.1 hk
      subst ho2
      obtain ⟨b, hb1, hb2⟩ := mapM_getElem? g2 k o'' ho1
      exact ⟨b.1, b.2, hb2, by rw [List.getElem?_map, hb1]; rfl⟩
  · rintro rfl
    have hl : (targets.map (·.2)).length = i + 1 := by
      rw [List.length_map, hlen, length_offsetsOf]
    have hg : (targets.map (·.2))[i]? = some t.2 := by rw [List.getElem?_map, g4]; rfl
    rw [List.getLastD_eq_getLast?, List.getLast?_eq_getElem?, hl, Nat.add_sub_cancel, hg]
    rfl

/-- **C32.** For every whole offset `d` and plane `j` the stored `R`, `Z` are the
traced end points; the stored index is `-1` if there is no target plane or the end
point is outside the boundary, and else the index of the end point in the target
plane. -/
theorem C32_slice_index (e : MmEnv K) (hf : FollowOk e)
    (hb : ∀ x y y' z, e.outside x y z = e.outside x y' z) (nslice mxg n r nc : ℕ) (empty : JState K)
    (m : ODict (MapVal K)) (h : makeMaps e nslice mxg n r nc empty = .ok m)
    (d : ℤ) (hd0 : d ≠ 0) (hd : d.natAbs ≤ nslice) :
    ∃ R Z xt zt, m.get? (sliceName "R" d) = some (.f3 R) ∧ m.get? (sliceName "Z" d) = some (.f3 Z) ∧
      m.get? (sliceName "xt_prime" d) = some (.f3 xt) ∧
      m.get? (sliceName "zt_prime" d) = some (.f3 zt) ∧
      ∀ j < e.grid.ny, ∃ coord target yt,
        TracedTo e (offsetValues nslice d.sign) j d.natAbs coord ∧
        e.grid.getPoloidalGrid ((j : K) + (d : K)) = .ok (target, yt) ∧
        ∀ x z, R (x, j, z) = (coord x z).1 ∧ Z (x, j, z) = (coord x z).2 ∧
          (target = none → xt (x, j, z) = -1 ∧ zt (x, j, z) = -1) ∧
          (e.outside (coord x z).1 yt (coord x z).2 = true → xt (x, j, z) = -1 ∧ zt (x, j, z) = -1) ∧
          ∀ pol, target = some pol → e.outside (coord x z).1 yt (coord x z).2 = false →
            (xt (x, j, z), zt (x, j, z)) =
              pol.findIndex (fun x z => (coord x z).1) (fun x z => (coord x z).2) x z := by
  obtain ⟨ho, hs⟩ := offsetsOf_int (K := K) nslice d hd0 hd
  obtain ⟨first, y0, smp, ps, h1, _, h3, h4, h5⟩ := makeMaps_slice h hf hs ho
  have names : ∀ f ∈ sixFields, isHalfIndex (nm e f (.int d)) = false := fun f hfm =>
    not_half_int e f (six_no_l f hfm) d hd0
  refine ⟨ps.R, ps.Z, ps.xt, ps.zt, ?_, ?_, ?_, ?_, ?_⟩
  · rw [← nm_sliceName e _ d hd0]
    exact h5 _ _ (by rw [← h3]; simp [entryList]) (names _ (by decide))
  · rw [← nm_sliceName e _ d hd0]
    exact h5 _ _ (by rw [← h3]; simp [entryList]) (names _ (by decide))
  · rw [← nm_sliceName e _ d hd0]
    exact h5 _ _ (by rw [← h3]; simp [entryList]) (names _ (by decide))
  · rw [← nm_sliceName e _ d hd0]
    exact h5 _ _ (by rw [← h3]; simp [entryList]) (names _ (by decide))
  · intro j hj
    obtain ⟨coord, t, yt, yl, k1, k2, _, k4⟩ := filled_traced h1 ho (h4 j hj)
    refine ⟨coord, t, yt, k1, k2, ?_⟩
    intro x z
    obtain ⟨a1, a2, a3, a4⟩ := k4 x z
    refine ⟨a1, a2, ?_, ?_, ?_⟩
    · rintro rfl
      exact ⟨a3, a4⟩
    · intro hout
      cases t with
      | none => exact ⟨a3, a4⟩
      | some pol =>
        unfold indexOf indicesOf at a3 a4
        simp only at a3 a4
        rw [hb _ yl yt, hout] at a3 a4
        exact ⟨a3, a4⟩
    · rintro pol rfl hout
      unfold indexOf indicesOf at a3 a4
      simp only at a3 a4
      rw [hb _ yl yt, hout] at a3 a4
      simp only [Bool.false_eq_true, if_false] at a3 a4
      rw [a3, a4]

/-- A tracer that moves every point on its own: `φ R Z y y'` is the position at `y'`
of the field line through `(R, Z)` at `y`. -/
def PointTracer (e : MmEnv K) (φ : K → K → K → K → K × K) : Prop :=
  ∀ n m R Z y ys, e.follow n m R Z (y :: ys) =
    (y :: ys).map fun y' x z => φ (R x z) (Z x z) y y'

theorem traced_point {e : MmEnv K} {φ : K → K → K → K → K × K} (hφ : PointTracer e φ)
    {offsets : List K} {j i : ℕ} {coord : ℕ → ℕ → K × K} (h : TracedTo e offsets j i coord)
    {o : K} (ho : offsets[i]? = some o) :
    ∃ pol y t yt, e.grid.getPoloidalGrid (j : K) = .ok (some pol, y) ∧
      e.grid.getPoloidalGrid ((j : K) + o) = .ok (t, yt) ∧
      ∀ x z, coord x z = φ (pol.R x z) (pol.Z x z) y yt := by
  obtain ⟨first, y0, pol, y, ys, _, h2, h3, h4, h5⟩ := h
  obtain ⟨t, yt, g1, g2⟩ := h4 i o ho
  refine ⟨pol, y, t, yt, h2, g1, ?_⟩
  rw [hφ, List.getElem?_map, List.getElem?_cons_succ, g2] at h5
  simp only [Option.map_some] at h5
  injection h5 with h5
  intro x z
  rw [← h5]

/-- **C32**, for a tracer that moves every point on its own: the stored end point
of plane `j` and offset `d` is the position, at the `y` of plane `j + d`, of the
field line through the grid point of plane `j`. -/
theorem C32_end_points (e : MmEnv K) (hf : FollowOk e) (φ : K → K → K → K → K × K)
    (hφ : PointTracer e φ) (nslice mxg n r nc : ℕ) (empty : JState K)
    (m : ODict (MapVal K)) (h : makeMaps e nslice mxg n r nc empty = .ok m)
    (d : ℤ) (hd0 : d ≠ 0) (hd : d.natAbs ≤ nslice) :
    ∃ R Z, m.get? (sliceName "R" d) = some (.f3 R) ∧ m.get? (sliceName "Z" d) = some (.f3 Z) ∧
      ∀ j < e.grid.ny, ∃ pol y target yt, e.grid.getPoloidalGrid (j : K) = .ok (some pol, y) ∧
        e.grid.getPoloidalGrid ((j : K) + (d : K)) = .ok (target, yt) ∧
        ∀ x z, (R (x, j, z), Z (x, j, z)) = φ (pol.R x z) (pol.Z x z) y yt := by
  obtain ⟨ho, hs⟩ := offsetsOf_int (K := K) nslice d hd0 hd
  obtain ⟨first, y0, smp, ps, h1, _, h3, h4, h5⟩ := makeMaps_slice h hf hs ho
  have names : ∀ f ∈ sixFields, isHalfIndex (nm e f (.int d)) = false := fun f hfm =>
    not_half_int e f (six_no_l f hfm) d hd0
  refine ⟨ps.R, ps.Z, ?_, ?_, ?_⟩
  · rw [← nm_sliceName e _ d hd0]
    exact h5 _ _ (by rw [← h3]; simp [entryList]) (names _ (by decide))
  · rw [← nm_sliceName e _ d hd0]
    exact h5 _ _ (by rw [← h3]; simp [entryList]) (names _ (by decide))
  · intro j hj
    obtain ⟨coord, t, yt, yl, k1, k2, _, k4⟩ := filled_traced h1 ho (h4 j hj)
    have hov : (offsetValues nslice d.sign : List K)[d.natAbs]? = some (d : K) := by
      rw [← offsetValues_eq, List.getElem?_map, ho]; rfl
    obtain ⟨pol, y, t', yt', q1, q2, q3⟩ := traced_point hφ k1 hov
    refine ⟨pol, y, t', yt', q1, q2, ?_⟩
    intro x z
    obtain ⟨a1, a2, _, _⟩ := k4 x z
    rw [a1, a2, ← q3]

/-- **C32**, the half cells: `R_cell_yhigh`, `Z_cell_yhigh` (`R_cell_ylow`,
`Z_cell_ylow`) are the traced positions at the `y` that the grid gives for
`j + 1/2` (`j - 1/2`). -/
theorem C32_half_cells (e : MmEnv K) (hf : FollowOk e) (φ : K → K → K → K → K × K)
    (hφ : PointTracer e φ) (nslice mxg n r nc : ℕ) (empty : JState K)
    (m : ODict (MapVal K)) (h : makeMaps e nslice mxg n r nc empty = .ok m)
    (sign : ℤ) (hs : sign = 1 ∨ sign = -1) :
    ∃ R Z, m.get? (if sign = 1 then "R_cell_yhigh" else "R_cell_ylow") = some (.f3 R) ∧
      m.get? (if sign = 1 then "Z_cell_yhigh" else "Z_cell_ylow") = some (.f3 Z) ∧
      ∀ j < e.grid.ny, ∃ pol y t yt, e.grid.getPoloidalGrid (j : K) = .ok (some pol, y) ∧
        e.grid.getPoloidalGrid ((j : K) + (sign : K) * (1 / 2)) = .ok (t, yt) ∧
        ∀ x z, (R (x, j, z), Z (x, j, z)) = φ (pol.R x z) (pol.Z x z) y yt := by
  have ho : (offsetsOf nslice sign : List (PyNum K))[0]? = some (.float ((sign : K) * (1 / 2))) := rfl
  obtain ⟨first, y0, smp, ps, h1, _, h3, h4, h5⟩ := makeMaps_slice h hf hs ho
  have hname : ∀ f, nm e f ps.offset = f ++ if sign = 1 then "_cell_yhigh" else "_cell_ylow" := by
    intro f
    rw [h3]
    rcases hs with rfl | rfl
    · have : ((1 : ℤ) : K) * (1 / 2) = 1 / 2 := by norm_num
      rw [this, (nm_half e f).1]; rfl
    · have : ((-1 : ℤ) : K) * (1 / 2) = -1 / 2 := by norm_num
      rw [this, (nm_half e f).2]; rfl
  have hR := h5 (nm e "R" ps.offset) (.f3 ps.R) (by simp [entryList]) (by
    rw [hname]; rcases hs with rfl | rfl <;> decide +kernel)
  have hZ := h5 (nm e "Z" ps.offset) (.f3 ps.Z) (by simp [entryList]) (by
    rw [hname]; rcases hs with rfl | rfl <;> decide +kernel)
  rw [hname] at hR hZ
  refine ⟨ps.R, ps.Z, ?_, ?_, ?_⟩
  · rcases hs with rfl | rfl <;> exact hR
  · rcases hs with rfl | rfl <;> exact hZ
  · intro j hj
    obtain ⟨coord, t, yt, yl, k1, k2, _, k4⟩ := filled_traced h1 ho (h4 j hj)
    have hov : (offsetValues nslice sign : List K)[0]? = some ((sign : K) * (1 / 2)) := rfl
    obtain ⟨pol, y, t', yt', q1, q2, q3⟩ := traced_point hφ k1 hov
    refine ⟨pol, y, t', yt', q1, q2, ?_⟩
    intro x z
    obtain ⟨a1, a2, _, _⟩ := k4 x z
    rw [a1, a2, ← q3]

/-- The example tracer moves every point on its own. -/
theorem exMm_point (ys : List ℚ) (per slab : Bool) :
    PointTracer (exMm ys per slab) fun R Z y y' => (R, Z + (y' - y) / 2) := by
  intro n m R Z y ys
  rfl

example (empty : JState ℚ) : ∃ m, makeMaps (exMm [0, 1] false false) 1 2 1 1 3 empty = .ok m ∧
    FollowOk (exMm [0, 1] false false) ∧
    (∀ x y y' z, (exMm [0, 1] false false).outside x y z = (exMm [0, 1] false false).outside x y' z) := by
  obtain ⟨m, h⟩ := exMm_succeeds [0, 1] false false (by simp) 1 2 1 1 3 (by norm_num) (by norm_num)
    (by norm_num) empty
  exact ⟨m, h, exMm_follow _ _ _, fun _ _ _ _ => rfl⟩

/-! ## C33: sub-sample maps with one sample per cell -/

/-- The full claim of C33 for one result. -/
def SubMapsFilled (e : MmEnv K) (nslice : ℕ) (m : ODict (MapVal K)) : Prop :=
  ∀ d : ℤ, d ≠ 0 → d.natAbs ≤ nslice → ∃ xt zt xts zts,
    m.get? (sliceName "xt_prime" d) = some (.f3 xt) ∧
    m.get? (sliceName "zt_prime" d) = some (.f3 zt) ∧
    m.get? (sliceName "xt_primes" d) = some (.f4 xts) ∧
    m.get? (sliceName "zt_primes" d) = some (.f4 zts) ∧
    ∀ j < e.grid.ny, ∀ x z, xts (x, j, z) 0 = xt (x, j, z) ∧ zts (x, j, z) 0 = zt (x, j, z)

theorem sub_arrays {e : MmEnv K} {nslice mxg n r nc : ℕ} {empty : JState K}
    {m : ODict (MapVal K)} (h : makeMaps e nslice mxg n r nc empty = .ok m) (hf : FollowOk e)
    {d : ℤ} (hd0 : d ≠ 0) (hd : d.natAbs ≤ nslice) :
    ∃ first y0 smp ps, e.plane 0 = .ok (first, y0) ∧ samples e n = .ok smp ∧
      m.get? (sliceName "xt_prime" d) = some (.f3 ps.xt) ∧
      m.get? (sliceName "zt_prime" d) = some (.f3 ps.zt) ∧
      m.get? (sliceName "xt_primes" d) = some (.f4 ps.xts) ∧
      m.get? (sliceName "zt_primes" d) = some (.f4 ps.zts) ∧
      ∀ j < e.grid.ny, Filled e first.nx first.nz smp (n ^ 2) (offsetsOf nslice d.sign) j d.natAbs ps := by
  obtain ⟨ho, hs⟩ := offsetsOf_int (K := K) nslice d hd0 hd
  obtain ⟨first, y0, smp, ps, h1, h2, h3, h4, h5⟩ := makeMaps_slice h hf hs ho
  have names : ∀ f ∈ sixFields, isHalfIndex (nm e f (.int d)) = false := fun f hfm =>
    not_half_int e f (six_no_l f hfm) d hd0
  refine ⟨first, y0, smp, ps, h1, h2, ?_, ?_, ?_, ?_, h4⟩
  · rw [← nm_sliceName e _ d hd0]
    exact h5 _ _ (by rw [← h3]; simp [entryList]) (names _ (by decide))
  · rw [← nm_sliceName e _ d hd0]
    exact h5 _ _ (by rw [← h3]; simp [entryList]) (names _ (by decide))
  · rw [← nm_sliceName e _ d hd0]
    exact h5 _ _ (by rw [← h3]; simp [entryList]) (names _ (by decide))
  · rw [← nm_sliceName e _ d hd0]
    exact h5 _ _ (by rw [← h3]; simp [entryList]) (names _ (by decide))

/-- **C33** holds for the slices farthest away (`|d| = nslice`), so for all slices
when `nslice = 1`.  Missing: the slices in between, for which it is false, see
`C33_zero_between` and `C33_fails`. -/
theorem C33_farthest_partial (e : MmEnv K) (hf : FollowOk e) (nslice mxg r nc : ℕ) (empty : JState K)
    (m : ODict (MapVal K)) (h : makeMaps e nslice mxg 1 r nc empty = .ok m)
    (d : ℤ) (hd0 : d ≠ 0) (hd : d.natAbs = nslice) :
    ∃ xt zt xts zts, m.get? (sliceName "xt_prime" d) = some (.f3 xt) ∧
      m.get? (sliceName "zt_prime" d) = some (.f3 zt) ∧
      m.get? (sliceName "xt_primes" d) = some (.f4 xts) ∧
      m.get? (sliceName "zt_primes" d) = some (.f4 zts) ∧
      ∀ j < e.grid.ny, ∀ x z, xts (x, j, z) 0 = xt (x, j, z) ∧ zts (x, j, z) 0 = zt (x, j, z) := by
  obtain ⟨first, y0, smp, ps, h1, h2, h3, h4, h5, h6, h7⟩ := sub_arrays h hf hd0 hd.le
  refine ⟨ps.xt, ps.zt, ps.xts, ps.zts, h3, h4, h5, h6, ?_⟩
  intro j hj x z
  obtain ⟨pol, y, targets, coord, t, g1, g2, g3, g4, g5, _, g7⟩ := h7 j hj
  have hs := (g7 (by rw [length_offsetsOf, hd])).single (by norm_num) x z
  obtain ⟨_, _, a3, a4⟩ := g5 x z
  rw [hs.1, hs.2, a3, a4]
  exact ⟨rfl, rfl⟩

/-- **C33** for one slice in each direction. -/
theorem C33_one_slice_partial (e : MmEnv K) (hf : FollowOk e) (mxg r nc : ℕ) (empty : JState K)
    (m : ODict (MapVal K)) (h : makeMaps e 1 mxg 1 r nc empty = .ok m) : SubMapsFilled e 1 m :=
  fun d hd0 hd => C33_farthest_partial e hf 1 mxg r nc empty m h d hd0 (by omega)

/-- What the code does for all other slices: whatever `samples_per_dim` is, their
sub-sample maps are zero everywhere. -/
theorem C33_zero_between (e : MmEnv K) (hf : FollowOk e) (nslice mxg n r nc : ℕ) (empty : JState K)
    (m : ODict (MapVal K)) (h : makeMaps e nslice mxg n r nc empty = .ok m)
    (d : ℤ) (hd0 : d ≠ 0) (hd : d.natAbs < nslice) :
    ∃ xts zts, m.get? (sliceName "xt_primes" d) = some (.f4 xts) ∧
      m.get? (sliceName "zt_primes" d) = some (.f4 zts) ∧
      ∀ j < e.grid.ny, ∀ x z s, xts (x, j, z) s = 0 ∧ zts (x, j, z) s = 0 := by
  obtain ⟨first, y0, smp, ps, h1, h2, h3, h4, h5, h6, h7⟩ := sub_arrays h hf hd0 hd.le
  refine ⟨ps.xts, ps.zts, h5, h6, ?_⟩
  intro j hj x z s
  obtain ⟨pol, y, targets, coord, t, g1, g2, g3, g4, g5, g6, _⟩ := h7 j hj
  exact g6 (by rw [length_offsetsOf]; omega) x z s

/-- **C33** is false for every `nslice >= 2`: on a grid of one plane that is not
periodic every field line leaves the domain, so `xt_prime` is -1, but
`xt_primes` of the nearest slice is 0. -/
theorem C33_fails (nslice : ℕ) (hn : 2 ≤ nslice) (empty : JState ℚ) :
    ∃ m, makeMaps (exMm [0] false false) nslice 0 1 1 1 empty = .ok m ∧
      ¬ SubMapsFilled (exMm [0] false false) nslice m := by
  obtain ⟨m, h⟩ := exMm_succeeds [0] false false (by simp) nslice 0 1 1 1 (by norm_num) (by norm_num)
    (by norm_num) empty
  refine ⟨m, h, ?_⟩
  intro hsub
  obtain ⟨xt, zt, xts, zts, s1, _, s3, _, s5⟩ := hsub 1 (by norm_num) (by simp; omega)
  obtain ⟨R, Z, xt', zt', _, _, i3, _, i5⟩ := C32_slice_index _ (exMm_follow _ _ _)
    (fun _ _ _ _ => rfl) nslice 0 1 1 1 empty m h 1 (by norm_num) (by simp; omega)
  obtain ⟨xts', zts', z1, _, z3⟩ := C33_zero_between _ (exMm_follow _ _ _) nslice 0 1 1 1 empty m h 1
    (by norm_num) (by simp; omega)
  have e1 : xt = xt' := by
    have := s1.symm.trans i3
    injection this with this
    injection this
  have e2 : xts = xts' := by
    have := s3.symm.trans z1
    injection this with this
    injection this
  subst e1 e2
  have hny : 0 < (exMm [0] false false).grid.ny := by
    change 0 < ([0] : List ℚ).length
    simp
  obtain ⟨coord, target, yt, _, t2, t3⟩ := i5 0 hny
  have ht : target = none := by
    have hlook : (exMm [0] false false).grid.getPoloidalGrid (((0 : ℕ) : ℚ) + ((1 : ℤ) : ℚ)) =
        .ok (none, 1) := by
      have : (((0 : ℕ) : ℚ) + ((1 : ℤ) : ℚ)) = ((1 : ℤ) : ℚ) := by norm_num
      rw [this, Grid.getPoloidalGrid_int]
      rfl
    rw [hlook] at t2
    injection t2 with t2
    injection t2 with t2 _
    exact t2.symm
  have h1 := (t3 0 0).2.2.1 ht
  have h2 := s5 0 hny 0 0
  have h3 := z3 0 hny 0 0 0
  rw [h3.1, h1.1] at h2
  exact absurd h2.1 (by norm_num)

end Zoidberg
