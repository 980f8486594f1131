import Verif.Proofs.MakeMapsOk

/-! # Looking up the arrays returned by `make_maps` -/

set_option linter.unusedSectionVars false

namespace Zoidberg

variable {K : Type} [Field K] [LinearOrder K] [IsStrictOrderedRing K] [FloorRing K]

/-- Names added at the end. -/
def finalNames (slab : Bool) : List String :=
  (if slab then [] else ["J", "Ly_cell_ylow", "Ly", "Ly_cell_yhigh"]) ++
    ["By_cell_ylow", "By", "By_cell_yhigh"]

theorem finalEntries_keys (e : MmEnv K) (s : JState K) :
    (finalEntries e s).map (·.1) = finalNames e.isSlab := by
  unfold finalEntries finalNames
  cases e.isSlab <;> rfl

theorem finalNames_nodup (b : Bool) : (finalNames b).Nodup := by cases b <;> decide

theorem finalNames_head (b : Bool) : ∀ k ∈ finalNames b,
    k.toList.head? = some 'J' ∨ k.toList.head? = some 'L' ∨ k.toList.head? = some 'B' := by
  cases b <;> decide

theorem half_head : ∀ f ∈ sixFields, ∀ p ∈ ["_cell_yhigh", "_cell_ylow"],
    ¬ ((f ++ p).toList.head? = some 'J' ∨ (f ++ p).toList.head? = some 'L' ∨
      (f ++ p).toList.head? = some 'B') := by decide

theorem nm_not_final (e : MmEnv K) (b : Bool) (f : String) (hf : f ∈ sixFields) (nslice : ℕ)
    (o : PyNum K) (ho : o ∈ (allOffsets nslice : List (PyNum K))) : nm e f o ∉ finalNames b := by
  intro h
  have hh := finalNames_head b _ h
  rcases (mem_allOffsets nslice o).1 ho with rfl | rfl | ⟨k, hk0, _, rfl⟩
  · rw [(nm_half e f).1] at hh
    exact half_head f hf _ (by simp) hh
  · rw [(nm_half e f).2] at hh
    exact half_head f hf _ (by simp) hh
  · rcases nm_int_head e f k hk0 with h1 | h1 <;> rw [h1] at hh <;> revert hh <;> decide

theorem base_not_final (b : Bool) : ∀ k ∈ ["R", "Z", "MXG", "MYG", "subcell_weights"],
    k ∉ finalNames b := by cases b <;> decide

/-- Looking up an entry that is not deleted or overwritten. -/
theorem lookup_kept {V : Type} (l fin : ODict V) (hn : (l.map (·.1)).Nodup) (k : String) (v : V)
    (hk : (k, v) ∈ l) (hh : isHalfIndex k = false) (hf : k ∉ fin.map (·.1)) :
    ODict.get? (fin.foldl (fun d p => ODict.set d p.1 p.2) (l.filter fun p => !isHalfIndex p.1)) k =
      some v := by
  rw [ODict.get?_foldl_set_of_not_mem fin k hf,
    get?_filter (fun k => !isHalfIndex k) l k (by simp [hh])]
  exact (ODict.get?_eq_some_iff l hn k v).2 hk

/-- Looking up one of the entries added at the end. -/
theorem lookup_final {V : Type} (d fin : ODict V) (hn : (fin.map (·.1)).Nodup) (k : String) (v : V)
    (hk : (k, v) ∈ fin) :
    ODict.get? (fin.foldl (fun d p => ODict.set d p.1 p.2) d) k = some v := by
  rw [ODict.get?_foldl_set fin hn, (ODict.get?_eq_some_iff fin hn k v).2 hk]
  rfl

theorem getElem?_of_offset {A B : List (PSlice K)} {nslice : ℕ}
    (hA : A.map (·.offset) = offsetsOf nslice 1) (hB : B.map (·.offset) = offsetsOf nslice (-1))
    {dir : ℤ} (hd : dir = 1 ∨ dir = -1) {i : ℕ} {o : PyNum K}
    (ho : (offsetsOf nslice dir)[i]? = some o) :
    ∃ ps, (if dir = 1 then A else B)[i]? = some ps ∧ ps.offset = o ∧ ps ∈ A ++ B := by
  rcases hd with rfl | rfl
  · rw [← hA, List.getElem?_map] at ho
    obtain ⟨ps, h1, h2⟩ := Option.map_eq_some_iff.1 ho
    exact ⟨ps, by simpa using h1, h2, List.mem_append_left _ (List.mem_of_getElem? h1)⟩
  · rw [← hB, List.getElem?_map] at ho
    obtain ⟨ps, h1, h2⟩ := Option.map_eq_some_iff.1 ho
    exact ⟨ps, by simpa using h1, h2, List.mem_append_right _ (List.mem_of_getElem? h1)⟩

/-- The slice for an offset in the result of `make_maps`. -/
theorem makeMaps_slice {e : MmEnv K} {nslice mxg n r nc : ℕ} {empty : JState K}
    {m : ODict (MapVal K)} (h : makeMaps e nslice mxg n r nc empty = .ok m) (hf : FollowOk e)
    {dir : ℤ} (hd : dir = 1 ∨ dir = -1) {i : ℕ} {o : PyNum K}
    (ho : (offsetsOf nslice dir)[i]? = some o) :
    ∃ pol y smp ps, e.plane 0 = .ok (pol, y) ∧ samples e n = .ok smp ∧ ps.offset = o ∧
      (∀ j < e.grid.ny, Filled e pol.nx pol.nz smp (n ^ 2) (offsetsOf nslice dir) j i ps) ∧
      ∀ k v, (k, v) ∈ entryList e ps → isHalfIndex k = false → m.get? k = some v := by
  obtain ⟨pol, y, R, Z, smp, A, B, s, h1, h2, h3, h4, h5, h6, h7, h8, h9, h10⟩ := makeMaps_parts h hf
  obtain ⟨oA, fA⟩ := traceDir_ok e hf pol.nx pol.nz smp (n ^ 2) (offsetsOf nslice 1)
    (by simp [offsetsOf]) _ _ h5
  obtain ⟨oB, fB⟩ := traceDir_ok e hf pol.nx pol.nz smp (n ^ 2) (offsetsOf nslice (-1))
    (by simp [offsetsOf]) _ _ h6
  obtain ⟨ps, g1, g2, g3⟩ := getElem?_of_offset oA oB hd ho
  refine ⟨pol, y, smp, ps, h1, h4, g2, ?_, ?_⟩
  · intro j hj
    rcases hd with rfl | rfl
    · exact (fA i ps (by simpa using g1)).2 j hj
    · exact (fB i ps (by simpa using g1)).2 j hj
  · intro k v hkv hh
    rw [h10]
    refine lookup_kept _ _ h9 k v ?_ hh ?_
    · exact List.mem_append_right _ (List.mem_flatMap.2 ⟨ps, g3, hkv⟩)
    · rw [finalEntries_keys]
      have hk : ∃ f ∈ sixFields, k = nm e f o := by
        rw [← g2]
        have : k ∈ (entryList e ps).map (·.1) := List.mem_map.2 ⟨_, hkv, rfl⟩
        have e1 : (entryList e ps).map (·.1) = sixFields.map fun f => nm e f ps.offset := rfl
        rw [e1] at this
        obtain ⟨f, hf1, hf2⟩ := List.mem_map.1 this
        exact ⟨f, hf1, hf2.symm⟩
      obtain ⟨f, hf1, rfl⟩ := hk
      refine nm_not_final e _ f hf1 nslice o ?_
      have := List.mem_of_getElem? ho
      unfold allOffsets
      rcases hd with rfl | rfl
      · exact List.mem_append_left _ this
      · exact List.mem_append_right _ this

/-- The position of a whole offset in its direction. -/
theorem offsetsOf_int (nslice : ℕ) (d : ℤ) (h0 : d ≠ 0) (h : d.natAbs ≤ nslice) :
    (offsetsOf nslice d.sign : List (PyNum K))[d.natAbs]? = some (.int d) ∧
      (d.sign = 1 ∨ d.sign = -1) := by
  constructor
  · unfold offsetsOf
    obtain ⟨k, hk⟩ : ∃ k, d.natAbs = k + 1 := ⟨d.natAbs - 1, by omega⟩
    rw [hk, List.getElem?_cons_succ, List.getElem?_map, List.getElem?_range (by omega)]
    simp only [Option.map_some]
    congr 2
    have h2 := Int.sign_mul_natAbs d
    rw [hk] at h2
    push_cast at h2
    linarith
  · rcases lt_or_gt_of_ne h0 with h | h
    · right; exact Int.sign_eq_neg_one_of_neg h
    · left; exact Int.sign_eq_one_of_pos h

theorem length_offsetsOf (nslice : ℕ) (dir : ℤ) :
    (offsetsOf nslice dir : List (PyNum K)).length = nslice + 1 := by simp [offsetsOf]

end Zoidberg
