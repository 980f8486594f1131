import Verif.Props.InPlace

/-!
# C260: the samples of the cells with a tracer that moves its arguments
-/

set_option linter.unusedSectionVars false

namespace Zoidberg

variable {K : Type} [Field K] [LinearOrder K] [IsStrictOrderedRing K] [FloorRing K]

/-- **C260.** With more than one sample per cell the samples of a plane start from the arrays as the tracer left them, that is with `FieldTracerReversible` from the
ends of the field lines; they are followed once more from the `y` of the plane. -/
theorem C260_samples (e : MmEnv K) (hf : FollowOk e) (after : After K) (share : ℕ → ℕ) (nx nz : ℕ) (l : List (K × K × K)) (ns : ℕ) (hns : ns ≠ 1)
    (pss : List (PSlice K)) (hne : pss ≠ []) (g : Grid (MapPol K) K) (j : ℕ) (L : List (PSlice K)) (g' : Grid (MapPol K) K)
    (h : tracePlaneS e after share nx nz (some l) ns (pss, g) j = .ok (L, g')) :
    ∃ (pol : MapPol K) (y : K) (targets : List (Option (MapPol K) × K)) (t : Option (MapPol K)) (yl : K) (last : PSlice K), (e.on g).plane j = .ok (pol, y) ∧
      pss.mapM (fun ps => g.getPoloidalGrid ((j : K) + ps.offset.val)) = .ok targets ∧ targets.getLast? = some (t, yl) ∧ L.getLast? = some last ∧
      ∀ tp, t = some tp → ∀ (s : ℕ) (p : K × K × K), l[s]? = some p → ∃ coord,
        let new := after nx nz pol.R pol.Z (y :: targets.map (·.2))
        (e.follow nx nz (fun x z => rgInterp nx nz new.1 ((x : K) + p.1) (z : K)) (fun x z => rgInterp nx nz new.2 ((x : K) + p.2.1) (z : K)) [y, yl])[1]? = some coord ∧
        ∀ x z, (last.xts (x, j, z) s, last.zts (x, j, z) s) = if e.outside (coord x z).1 yl (coord x z).2 then (-1, -1)
          else tp.findIndex (fun x z => (coord x z).1) (fun x z => (coord x z).2) x z := by
  unfold tracePlaneS at h
  simp only at h
  have hpl : MmEnv.plane { e with grid := g } j = (e.on g).plane j := rfl
  rw [hpl] at h
  cases hp : (e.on g).plane j with
  | error err => rw [hp] at h; cases h
  | ok py =>
    obtain ⟨pol, y⟩ := py
    rw [hp] at h
    simp only at h
    cases ht : pss.mapM (fun ps => g.getPoloidalGrid ((j : K) + ps.offset.val)) with
    | error err => rw [ht] at h; cases h
    | ok targets =>
      rw [ht] at h
      simp only at h
      have hlt : targets.length = pss.length := mapM_length ht
      have hlc : ((e.follow nx nz pol.R pol.Z (y :: targets.map (·.2))).drop 1).length = pss.length := by
        rw [List.length_drop, hf]; simp [hlt]
      obtain ⟨a, ps, c, t, s1, s2, s3, s4, s5, s6⟩ := storeAll_eq (e.on g) j ((targets.map (·.2)).getLastD y) pss _ (targets.map (·.1)) hlc (by simp [hlt]) hne
      have s1' : storeAll { e with grid := g } j ((targets.map (·.2)).getLastD y) pss ((e.follow nx nz pol.R pol.Z (y :: targets.map (·.2))).drop 1) (targets.map (·.1)) = _ := s1
      rw [s1'] at h
      simp only at h
      have hal : a.length + 1 = targets.length := by rw [hlt]; omega
      have htne : targets ≠ [] := by
        rintro rfl
        simp at hal
      obtain ⟨⟨t', yl⟩, hlast⟩ : ∃ p, targets.getLast? = some p := ⟨_, List.getLast?_eq_some_getLast htne⟩
      have hl1 : targets[a.length]? = some (t', yl) := by
        rw [List.getLast?_eq_getElem?, ← hal, Nat.add_sub_cancel] at hlast
        exact hlast
      have htt : t = t' := by
        rw [List.getElem?_map, hl1] at s5
        simpa using s5.symm
      have hyl : (targets.map (·.2)).getLastD y = yl := by
        rw [List.getLastD_eq_getLast?, List.getLast?_map, hlast]
        rfl
      rw [hyl] at h
      cases hs : storeSamples { e with grid := g } nx nz (some l) ns j
          { pol with R := (after nx nz pol.R pol.Z (y :: targets.map (·.2))).1, Z := (after nx nz pol.R pol.Z (y :: targets.map (·.2))).2 } y yl
          (storeSlice (e.on g) j yl ps c t).1 (storeSlice (e.on g) j yl ps c t).2 t with
      | error err => rw [hs] at h; cases h
      | ok last =>
        rw [hs] at h
        simp only [Except.map] at h
        injection h with h
        injection h with h1 h2
        have hS := (storeSamples_ok _ _ _ _ _ _ _ _ _ _ _ _ _ hs).1
        refine ⟨pol, y, targets, t', yl, last, rfl, rfl, hlast, by rw [← h1]; simp, ?_⟩
        intro tp htp s p hp'
        obtain ⟨l', hl', hmany⟩ := hS.many hns tp (htt.trans htp)
        injection hl' with hl'
        subst hl'
        obtain ⟨coord, g1, g2⟩ := hmany s p hp'
        refine ⟨coord, g1, fun x z => ?_⟩
        rw [(g2 x z).1, (g2 x z).2]
        rfl

/-- The positions of the samples for one plane, with two samples in each direction. -/
def exSamples (after : After ℚ) : Except Err ℚ :=
  (tracePlaneS (exMm [0, 1] false false) after (fun j => j) 3 4 (some [(1 / 4, 1 / 4, 1)]) 4 ([PSlice.zero (.int 1)], (exMm [0, 1] false false).grid) 0).map fun s =>
    match s.1 with
    | ps :: _ => ps.zts (1, 0, 1) 0
    | [] => 0

/-- **C260 (refutation).** Even on the first plane of the forward direction, where the other entries of the maps are right (`C260_forward_partial`), the samples are moved
twice as far as they should be: by 1 instead of 1/2. -/
theorem C260_fails_samples : (exSamples keepsArrays).toOption = some (3 / 2) ∧ (exSamples (movesArrays (exMm [0, 1] false false).follow)).toOption = some 2 := by
  constructor <;> decide +kernel

end Zoidberg
