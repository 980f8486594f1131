import Verif.Props.BoundaryVertex
import Verif.Props.Geqdsk

/-!
# C241: columns of the grid with corners of the plasma
-/

set_option linter.unusedSectionVars false

namespace Zoidberg

variable {K : Type} [Field K] [LinearOrder K] [IsStrictOrderedRing K] [FloorRing K]

/-- **C241 in all columns**: a grid point in the plasma has the profile of the file if there is no corner of the plasma straight above, and the values of the edge otherwise. -/
theorem C241_corner (s : GSplines K) (hs : s.Exact) (d : GFile K) (g : GField K) (h : d.init s = .ok g) (hn : 2 ≤ d.nr) (hc : StrictConvex d.bdry)
    (hw : WideOrVertical d.bdry) (i : ℕ) (hi : i < d.nr) (j : ℕ) (hj : j < d.nz) (hp : 0 < g.r.getD i 0)
    (hin : Interior d.bdry (g.r.getD i 0) (g.z.getD j 0)) :
    (¬ (∃ p ∈ d.bdry, p.1 = g.r.getD i 0 ∧ g.z.getD j 0 < p.2) →
      g.r.getD i 0 * g.By (g.r.getD i 0) (g.z.getD j 0) = g.f (d.norm i j) ∧ g.pressure (g.r.getD i 0) (g.z.getD j 0) = g.p (d.norm i j)) ∧
    ((∃ p ∈ d.bdry, p.1 = g.r.getD i 0 ∧ g.z.getD j 0 < p.2) →
      g.r.getD i 0 * g.By (g.r.getD i 0) (g.z.getD j 0) = d.fpol.getD (d.nr - 1) 0 ∧
      g.pressure (g.r.getD i 0) (g.z.getD j 0) = d.pres.getD (d.nr - 1) 0) := by
  obtain ⟨core, hcore, -⟩ := GFile.init_ok h
  have hv := GField.values hs h hn hcore hi hj hp
  have hb := C125_interior_iff d.bdry core hcore hc hw (g.r.getD i 0) 0 (g.z.getD j 0) hin
  exact ⟨fun h1 => hv.1 (by rw [← Bool.not_eq_true, hb]; exact h1), fun h1 => hv.2 (hb.2 h1)⟩

/-- **C241, the exact condition** for the points in the plasma. -/
theorem C241_iff (s : GSplines K) (hs : s.Exact) (d : GFile K) (g : GField K) (h : d.init s = .ok g) (hn : 2 ≤ d.nr) (hc : StrictConvex d.bdry)
    (hw : WideOrVertical d.bdry) (i : ℕ) (hi : i < d.nr) (j : ℕ) (hj : j < d.nz) (hp : 0 < g.r.getD i 0)
    (hin : Interior d.bdry (g.r.getD i 0) (g.z.getD j 0)) :
    (g.r.getD i 0 * g.By (g.r.getD i 0) (g.z.getD j 0) = g.f (d.norm i j) ∧ g.pressure (g.r.getD i 0) (g.z.getD j 0) = g.p (d.norm i j)) ↔
      ¬ (∃ p ∈ d.bdry, p.1 = g.r.getD i 0 ∧ g.z.getD j 0 < p.2) ∨
        d.fpol.getD (d.nr - 1) 0 = g.f (d.norm i j) ∧ d.pres.getD (d.nr - 1) 0 = g.p (d.norm i j) := by
  obtain ⟨h1, h2⟩ := C241_corner s hs d g h hn hc hw i hi j hj hp hin
  by_cases h3 : ∃ p ∈ d.bdry, p.1 = g.r.getD i 0 ∧ g.z.getD j 0 < p.2
  · obtain ⟨e1, e2⟩ := h2 h3
    rw [e1, e2]
    exact ⟨Or.inr, fun h4 => h4.resolve_left (not_not.2 h3)⟩
  · exact ⟨fun _ => Or.inl h3, fun _ => h1 h3⟩

/-- **C241, the exact condition** for the points outside of the plasma. -/
theorem C241_outside_iff (s : GSplines K) (hs : s.Exact) (d : GFile K) (g : GField K) (h : d.init s = .ok g) (hn : 2 ≤ d.nr) (hc : StrictConvex d.bdry)
    (hw : WideOrVertical d.bdry) (i : ℕ) (hi : i < d.nr) (j : ℕ) (hj : j < d.nz) (hp : 0 < g.r.getD i 0)
    (hout : Exterior d.bdry (g.r.getD i 0) (g.z.getD j 0)) :
    (g.r.getD i 0 * g.By (g.r.getD i 0) (g.z.getD j 0) = d.fpol.getD (d.nr - 1) 0 ∧ g.pressure (g.r.getD i 0) (g.z.getD j 0) = d.pres.getD (d.nr - 1) 0) ↔
      Even (endings d.bdry (g.r.getD i 0) (g.z.getD j 0)) ∨
        g.f (d.norm i j) = d.fpol.getD (d.nr - 1) 0 ∧ g.p (d.norm i j) = d.pres.getD (d.nr - 1) 0 := by
  obtain ⟨core, hcore, -⟩ := GFile.init_ok h
  have hv := GField.values hs h hn hcore hi hj hp
  have hb := (C125_iff d.bdry core hcore hc hw (g.r.getD i 0) 0 (g.z.getD j 0)).2 hout
  by_cases h3 : Even (endings d.bdry (g.r.getD i 0) (g.z.getD j 0))
  · exact ⟨fun _ => Or.inl h3, fun _ => hv.2 (hb.2 h3)⟩
  · obtain ⟨e1, e2⟩ := hv.1 (by rw [← Bool.not_eq_true, hb]; exact h3)
    rw [e1, e2]
    exact ⟨Or.inr, fun h4 => h4.resolve_left h3⟩

/-- A case: the plasma that is a square standing on a corner, with wide edges; the axis is in it and below a corner. -/
example : StrictConvex ([(9 / 2, 0), (3, 3 / 2), (3 / 2, 0), (3, -3 / 2)] : List (ℚ × ℚ)) ∧
    WideOrVertical ([(9 / 2, 0), (3, 3 / 2), (3 / 2, 0), (3, -3 / 2)] : List (ℚ × ℚ)) ∧
    Interior ([(9 / 2, 0), (3, 3 / 2), (3 / 2, 0), (3, -3 / 2)] : List (ℚ × ℚ)) 3 0 ∧
    (∃ p ∈ ([(9 / 2, 0), (3, 3 / 2), (3 / 2, 0), (3, -3 / 2)] : List (ℚ × ℚ)), p.1 = 3 ∧ 0 < p.2) := by
  refine ⟨⟨by decide, by decide +kernel⟩, fun i => vertex_all (fun p q => q.1 = p.1 ∨ Wide p q) (by decide) ?_ i, by unfold Interior; decide +kernel,
    (3, 3 / 2), by simp, rfl, by norm_num⟩
  unfold Wide
  decide +kernel

end Zoidberg
