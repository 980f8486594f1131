import Verif.Props.MapWriter

/-!
# C106: exactly when the sizes in the file are those of the grid
-/

namespace Zoidberg

set_option linter.unusedSectionVars false

variable {K : Type} [Field K] [LinearOrder K] [IsStrictOrderedRing K] [FloorRing K]

/-- A file has only one size. -/
theorem dimsInFile_unique {a b c a' b' c' : ℕ} {file : ODict (Val K)} (h : DimsInFile a b c file)
    (h' : DimsInFile a' b' c' file) : a = a' ∧ b = b' ∧ c = c' := by
  have h1 := h.x.symm.trans h'.x
  have h2 := h.y.symm.trans h'.y
  have h3 := h.z.symm.trans h'.z
  simp only [Option.some.injEq, Val.int.injEq, Nat.cast_inj] at h1 h2 h3
  exact ⟨h1, h2, h3⟩

/-- **C106**, in any state: a successful `add_maps` stores the sizes of the grid exactly when
the writer remembers them. -/
theorem C106_iff (c : MwParams K) (maps : ODict (Val K)) (id : String) (s : Mw K)
    (h : (s.addMaps c maps id).2 = none) (g : Grid (PolGrid K) K) :
    DimsInFile g.nx g.ny g.nz (s.addMaps c maps id).1.file ↔ s.nxyz = some [g.nx, g.ny, g.nz] := by
  obtain ⟨_, _, _, nx, ny, nz, h1, h2⟩ := C42_completed c maps id _ h
  constructor
  · intro h3
    obtain ⟨rfl, rfl, rfl⟩ := dimsInFile_unique h2 h3
    exact h1
  · intro h3
    rw [h3] at h1
    simp only [Option.some.injEq, List.cons.injEq, and_true] at h1
    obtain ⟨rfl, rfl, rfl⟩ := h1
    exact h2

/-- The grid of a writer after `add_grid`. -/
theorem addGrid_sizes (c : MwParams K) (s : Mw K) (g : Grid (PolGrid K) K) (cache : Option (Metric K)) :
    (s.call c (.addGrid g cache)).1.grid = some g ∧
      (s.call c (.addGrid g cache)).1.nxyz = some [g.nx, g.ny, g.nz] := by
  simp only [Mw.call, Mw.addGrid]
  split <;> exact ⟨rfl, rfl⟩

/-- **C106** for all writers, with any value of `create`, whatever was done before the last
`add_grid`: if the file is not opened again after it, the sizes are right. -/
theorem C106_last (c : MwParams K) (s : Mw K) (a t : List (MwOp K)) (g : Grid (PolGrid K) K)
    (cache : Option (Metric K)) (ht : MwOp.enter ∉ t) (maps : ODict (Val K)) (id : String)
    (h : ((s.calls c (a ++ .addGrid g cache :: t)).addMaps c maps id).2 = none)
    (g' : Grid (PolGrid K) K) (hg : (s.calls c (a ++ .addGrid g cache :: t)).grid = some g') :
    DimsInFile g'.nx g'.ny g'.nz ((s.calls c (a ++ .addGrid g cache :: t)).addMaps c maps id).1.file := by
  rw [C106_iff c maps id _ h]
  have e : s.calls c (a ++ .addGrid g cache :: t) =
      (((s.calls c a).call c (.addGrid g cache)).1).calls c t := by
    rw [calls_append]; rfl
  rw [e] at hg ⊢
  refine nxyz_calls c t (Or.inr ht) _ ?_ g' hg
  intro g1 h1
  obtain ⟨e1, e2⟩ := addGrid_sizes c (s.calls c a) g cache
  rw [e1] at h1
  injection h1 with h1
  subst h1
  exact e2

/-- Neither opens the file nor adds a grid. -/
def MwOp.Keeps : MwOp K → Prop
  | .enter => False
  | .addGrid _ _ => False
  | _ => True

/-- `add_maps` keeps the grid and its sizes. -/
theorem addMaps_keeps (c : MwParams K) (s : Mw K) (maps : ODict (Val K)) (id : String) :
    (s.addMaps c maps id).1.grid = s.grid ∧ (s.addMaps c maps id).1.nxyz = s.nxyz := by
  unfold Mw.addMaps
  split
  · exact ⟨rfl, rfl⟩
  · simp only [Mw.writeDict]
    split
    · rename_i h; injection h with h1 h2; subst h1; exact ⟨rfl, rfl⟩
    · rename_i h; injection h with h1 h2; subst h1
      split
      · exact ⟨rfl, rfl⟩
      · split
        · exact ⟨rfl, rfl⟩
        · split
          · exact ⟨rfl, rfl⟩
          · unfold Mw.metrics
            simp only
            split
            · exact ⟨rfl, rfl⟩
            · split
              · exact ⟨rfl, rfl⟩
              · unfold Mw.final
                split
                · exact ⟨rfl, rfl⟩
                · simp only
                  split <;> exact ⟨rfl, rfl⟩

/-- Calls that neither open the file nor add a grid keep both. -/
theorem calls_keeps (c : MwParams K) (t : List (MwOp K)) (ht : ∀ o ∈ t, o.Keeps) (s : Mw K) :
    (s.calls c t).grid = s.grid ∧ (s.calls c t).nxyz = s.nxyz := by
  induction t generalizing s with
  | nil => exact ⟨rfl, rfl⟩
  | cons o t ih =>
    obtain ⟨h1, h2⟩ := ih (fun o ho => ht o (List.mem_cons_of_mem _ ho)) (s.call c o).1
    have ho := ht o List.mem_cons_self
    have h3 : (s.call c o).1.grid = s.grid ∧ (s.call c o).1.nxyz = s.nxyz := by
      cases o with
      | enter => exact ho.elim
      | addGrid g ca => exact ho.elim
      | exit => exact ⟨rfl, rfl⟩
      | addField f => exact ⟨rfl, rfl⟩
      | writeDict d a => exact ⟨rfl, rfl⟩
      | addMaps maps id => exact addMaps_keeps c s maps id
    exact ⟨h1.trans h3.1, h2.trans h3.2⟩

/-- **C106** for writers with `create=False` that are opened again (the case in which it is
false): with a `B` in the file at that time, the sizes stored are those of the grid
exactly when `B` has the size of the grid, and without it exactly when they would have been
right before. -/
theorem C106_reopened (c : MwParams K) (hc : c.create = false) (s : Mw K) (a t : List (MwOp K))
    (ht : ∀ o ∈ t, o.Keeps) (maps : ODict (Val K)) (id : String)
    (h : ((s.calls c (a ++ .enter :: t)).addMaps c maps id).2 = none) (g : Grid (PolGrid K) K) :
    DimsInFile g.nx g.ny g.nz ((s.calls c (a ++ .enter :: t)).addMaps c maps id).1.file ↔
      (∀ B, (s.calls c a).file.get? "B" = some B → c.shape B = [g.nx, g.ny, g.nz]) ∧
      ((s.calls c a).file.get? "B" = none → (s.calls c a).nxyz = some [g.nx, g.ny, g.nz]) := by
  rw [C106_iff c maps id _ h]
  have e : s.calls c (a ++ .enter :: t) = ((s.calls c a).enter c).calls c t := by
    rw [calls_append]; rfl
  rw [e, (calls_keeps c t ht _).2]
  unfold Mw.enter
  rw [hc]
  simp only [Bool.false_eq_true, if_false]
  cases hB : (s.calls c a).file.get? "B" with
  | none => simp
  | some B => simp

/-- A writer with `create=False` that is opened twice before the grid is added. -/
example (file : ODict (Val ℚ))
    (h : (((Mw.new file []).calls (exParams false) ([.enter, .exit, .enter, .addField exField] ++
      .addGrid exUniGrid none :: [])).addMaps (exParams false) exMaps "uuid").2 = none) :
    DimsInFile 2 4 3 (((Mw.new file []).calls (exParams false) ([.enter, .exit, .enter, .addField exField] ++
      .addGrid exUniGrid none :: [])).addMaps (exParams false) exMaps "uuid").1.file :=
  C106_last (exParams false) _ _ [] exUniGrid none (by simp) exMaps "uuid" h exUniGrid
    (by rw [calls_append]; exact (addGrid_sizes _ _ _ _).1)

/-- It does succeed. -/
example (file : ODict (Val ℚ)) :
    (((Mw.new file []).calls (exParams false) ([.enter, .exit, .enter, .addField exField] ++
      .addGrid exUniGrid none :: [])).addMaps (exParams false) exMaps "uuid").2 = none := by
  have hlen : exUniGrid.polGrids.length = exUniGrid.ycoords.length := rfl
  apply exAddMaps_succeeds false "uuid" _ _ _ _ _ 2 4 3
  · exact (addGrid_sizes (exParams false) _ exUniGrid none).2
  all_goals
    simp only [List.cons_append, List.nil_append, Mw.calls, List.foldl_cons, List.foldl_nil, Mw.call, Mw.addGrid,
      fieldOnGrid_eq exUniGrid hlen, Mw.writeDict, Mw.exit, Mw.addField, Mw.enter, exParams, Bool.false_eq_true, if_false]

end Zoidberg
