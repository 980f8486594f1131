import Verif.Proofs.InPlace
import Verif.Props.Reversible
import Mathlib.Tactic.IntervalCases

/-!
# C260: `make_maps` with tracers that change their arguments
-/

set_option linter.unusedSectionVars false

namespace Zoidberg

variable {K : Type} [Field K] [LinearOrder K] [IsStrictOrderedRing K] [FloorRing K]

/-- Planes that are the same object have the same arrays. -/
def SharedOk (g : Grid (MapPol K) K) (share : ℕ → ℕ) : Prop :=
  ∀ a b p q, share a = share b → g.polGrids[a]? = some p → g.polGrids[b]? = some q → p.R = q.R ∧ p.Z = q.Z

/-! ## Tracers that leave their arguments -/

theorem plane_get {e : MmEnv K} {j : ℕ} (hj : j < e.grid.ny) {pol : MapPol K} {y : K} (h : e.plane j = .ok (pol, y)) :
    e.grid.polGrids[j]? = some pol := by
  have h := plane_eq h
  have h1 := Grid.getPoloidalGrid_int e.grid (j : ℤ)
  rw [Int.cast_natCast] at h1
  rw [h1] at h
  unfold Grid.getInt at h
  rw [if_pos ⟨by positivity, by exact_mod_cast hj⟩] at h
  have hp : pyInt ((j : ℕ) : K) = (j : ℤ) := by
    have := pyInt_intCast (K := K) (j : ℤ)
    rwa [Int.cast_natCast] at this
  rw [hp] at h
  unfold Grid.at pyIndex at h
  by_cases hl : j < e.grid.polGrids.length
  · rw [if_pos (by omega), if_pos (by omega)] at h
    simp only [Int.toNat_natCast, Option.bind_some] at h
    rw [List.getElem?_eq_getElem hl] at h ⊢
    split at h
    · rename_i a b h2 h3
      simp only [Except.map, Except.ok.injEq, Prod.mk.injEq, Option.some.injEq] at h h2
      rw [h2, h.1]
    · cases h
  · rw [if_pos (by omega), if_neg (by omega)] at h
    simp [Except.map] at h

theorem overwrite_same {g : Grid (MapPol K) K} {share : ℕ → ℕ} (hs : SharedOk g share) {j : ℕ} {pol : MapPol K} (hp : g.polGrids[j]? = some pol) :
    g.overwrite share j pol.R pol.Z = g := by
  have : (g.overwrite share j pol.R pol.Z).polGrids = g.polGrids := by
    refine List.ext_getElem? ?_
    intro k
    rw [overwrite_polGrids]
    cases hk : g.polGrids[k]? with
    | none => rfl
    | some p =>
      simp only [Option.map_some]
      split
      · rename_i h
        obtain ⟨a, b⟩ := hs k j p pol h hk hp
        rw [← a, ← b]
      · rfl
  unfold Grid.overwrite at this ⊢
  simp only at this
  rw [this]

theorem tracePlaneS_keeps (e : MmEnv K) {share : ℕ → ℕ} (hs : SharedOk e.grid share) (nx nz : ℕ) (smp : Option (List (K × K × K))) (ns : ℕ)
    (pss : List (PSlice K)) (j : ℕ) (hj : j < e.grid.ny) : tracePlaneS e keepsArrays share nx nz smp ns (pss, e.grid) j =
      (tracePlane e nx nz smp ns pss j).map fun L => (L, e.grid) := by
  unfold tracePlaneS tracePlane
  simp only
  cases hp : e.plane j with
  | error err => rfl
  | ok py =>
    obtain ⟨pol, y⟩ := py
    simp only
    cases ht : pss.mapM fun ps => e.grid.getPoloidalGrid ((j : K) + ps.offset.val) with
    | error err => rfl
    | ok targets =>
      simp only
      split
      · rename_i h; rw [h]; rfl
      · rename_i a ps ind t b h
        rw [h]
        simp only [keepsArrays]
        rw [overwrite_same hs (plane_get hj hp)]
        cases storeSamples e nx nz smp ns j pol y ((targets.map (·.2)).getLastD y) ps ind t <;> rfl

theorem traceDirS_keeps (e : MmEnv K) {share : ℕ → ℕ} (hs : SharedOk e.grid share) (nx nz : ℕ) (smp : Option (List (K × K × K))) (ns : ℕ)
    (pss : List (PSlice K)) : ∀ n ≤ e.grid.ny, (List.range n).foldlM (tracePlaneS e keepsArrays share nx nz smp ns) (pss, e.grid) =
      ((List.range n).foldlM (tracePlane e nx nz smp ns) pss).map fun L => (L, e.grid) := by
  intro n
  induction n with
  | zero => intro _; rfl
  | succ n ih =>
    intro hn
    rw [List.range_succ, List.foldlM_append, List.foldlM_append, ih (by omega)]
    cases h : (List.range n).foldlM (tracePlane e nx nz smp ns) pss with
    | error err => rfl
    | ok L =>
      change (tracePlaneS e keepsArrays share nx nz smp ns (L, e.grid) n).bind (fun x => Except.ok x) =
        ((tracePlane e nx nz smp ns L n).bind (fun x => Except.ok x)).map _
      rw [tracePlaneS_keeps e hs nx nz smp ns L n (by omega)]
      cases tracePlane e nx nz smp ns L n <;> rfl

/-- **C260 (partial).** With a tracer that leaves its arguments as they are (`FieldTracer`, `FieldTracerWeb`), the result is that of `makeMaps` and the grid
is unchanged, for all options.  Missing: `FieldTracerReversible` (`C260_fails`). -/
theorem C260_partial (e : MmEnv K) (share : ℕ → ℕ) (hs : SharedOk e.grid share) (nslice mxg n r nc : ℕ) (empty : JState K) :
    makeMapsS e keepsArrays share nslice mxg n r nc empty = (makeMaps e nslice mxg n r nc empty).map fun m => (m, e.grid) := by
  unfold makeMapsS makeMaps
  simp only [bind]
  cases e.plane 0 with
  | error err => rfl
  | ok p =>
    simp only [Except.bind]
    cases gridArray e (·.R) with
    | error err => rfl
    | ok R =>
      simp only
      cases gridArray e (·.Z) with
      | error err => rfl
      | ok Z =>
        simp only
        cases samples e n with
        | error err => rfl
        | ok smp =>
          simp only [traceAll, traceDirS, List.mapM_cons, List.mapM_nil, bind, Except.bind, pure, Except.pure]
          rw [traceDirS_keeps e hs _ _ _ _ _ _ (le_refl _)]
          cases (List.range e.grid.ny).foldlM (tracePlane e p.1.nx p.1.nz smp (n ^ 2)) ((offsetsOf nslice 1).map PSlice.zero) with
          | error err => rfl
          | ok A =>
            simp only [Except.map]
            rw [traceDirS_keeps e hs _ _ _ _ _ _ (le_refl _)]
            cases (List.range e.grid.ny).foldlM (tracePlane e p.1.nx p.1.nz smp (n ^ 2)) ((offsetsOf nslice (-1)).map PSlice.zero) with
            | error err => rfl
            | ok B =>
              simp only [Except.map]
              cases ([A, B].flatten.mapM (sliceEntries e)) with
              | error err => rfl
              | ok E =>
                simp only
                cases jacAll e p.1.nx r nc empty <;> rfl

/-! ## Tracers that move their arguments -/

/-- The last offset of a direction. -/
def lastOffset (nslice : ℕ) (dir : ℤ) : K := if nslice = 0 then (dir : K) * (1 / 2) else (dir : K) * (nslice : K)

theorem offsetsOf_last (nslice : ℕ) (dir : ℤ) (f : K → K) (d : K) :
    ((offsetsOf nslice dir).map fun o => f o.val).getLastD d = f (lastOffset nslice dir : K) := by
  unfold offsetsOf lastOffset
  cases nslice with
  | zero => simp [PyNum.val]
  | succ n =>
    rw [if_neg (by omega), List.range_succ]
    simp only [List.map_cons, List.map_append, List.map_nil, List.map_map, ← List.cons_append]
    rw [List.getLastD_concat]
    simp [PyNum.val]

/-- The poloidal grid with its points moved. -/
def MapPol.moved (p : MapPol K) (f : K → K → K × K) : MapPol K :=
  { p with R := fun x z => (f (p.R x z) (p.Z x z)).1, Z := fun x z => (f (p.R x z) (p.Z x z)).2 }

/-- From plane `j` to the last slice of a direction. -/
def toLast (φ : K → K → K → K → K × K) (g : Grid (MapPol K) K) (nslice : ℕ) (dir : ℤ) (j : ℕ) : K → K → K × K := fun R Z =>
  φ R Z (g.yAt (j : K)) (g.yAt ((j : K) + lastOffset nslice dir))

theorem step_moves {e : MmEnv K} {φ : K → K → K → K → K × K} (hφ : PointTracer e φ) {g : Grid (MapPol K) K} (hg : GridOk (e.on g)) (share : ℕ → ℕ)
    (nx nz nslice : ℕ) (dir : ℤ) (hd : dir = 1 ∨ dir = -1) (j : ℕ) (hj : j < g.ny) : ∃ pol, g.polGrids[j]? = some pol ∧
      stepGrid e (movesArrays e.follow) share nx nz (offsetsOf nslice dir) g j =
        g.overwrite share j (pol.moved (toLast φ g nslice dir j)).R (pol.moved (toLast φ g nslice dir j)).Z := by
  obtain ⟨pol, y, h1, h2, h3, _⟩ := plane_ok (e.on g) hg j hj
  refine ⟨pol, h2, ?_⟩
  obtain ⟨targets, ht⟩ := mapM_ok (f := fun o : PyNum K => g.getPoloidalGrid ((j : K) + o.val)) (offsetsOf nslice dir)
    fun o ho => target_ok (e.on g) hg j o (offsetsOf_slice nslice dir hd o ho)
  have hy : y = g.yAt (j : K) := Grid.yAt_eq (plane_eq h1)
  have hlast : (targets.map (·.2)).getLastD y = g.yAt ((j : K) + lastOffset nslice dir) := by
    have : targets.map (·.2) = (offsetsOf nslice dir).map fun o => g.yAt ((j : K) + o.val) := by
      refine List.ext_getElem? ?_
      intro i
      rw [List.getElem?_map, List.getElem?_map]
      cases ho : (offsetsOf nslice dir : List (PyNum K))[i]? with
      | none =>
        have := List.getElem?_eq_none_iff.1 ho
        have hl := mapM_length ht
        rw [List.getElem?_eq_none (by omega)]; rfl
      | some o =>
        obtain ⟨b, hb1, hb2⟩ := mapM_getElem? ht i o ho
        rw [hb1]
        simp only [Option.map_some]
        rw [Grid.yAt_eq (t := b.1) (y := b.2) hb2]
    rw [this]
    exact offsetsOf_last nslice dir (fun o => g.yAt ((j : K) + o)) y
  unfold stepGrid
  rw [h1]
  simp only
  rw [ht]
  simp only
  have hm : movesArrays e.follow nx nz pol.R pol.Z (y :: targets.map (·.2)) =
      ((pol.moved (toLast φ g nslice dir j)).R, (pol.moved (toLast φ g nslice dir j)).Z) := by
    unfold movesArrays MapPol.moved toLast
    rw [hφ]
    have hl : ((y :: targets.map (·.2)).map fun y' => fun (x z : ℕ) => φ (pol.R x z) (pol.Z x z) y y').getLastD (fun x z => (pol.R x z, pol.Z x z)) =
        fun x z => φ (pol.R x z) (pol.Z x z) y ((targets.map (·.2)).getLastD y) := by
      generalize targets.map (·.2) = ys
      rw [List.getLastD_eq_getLast?, List.getLast?_map, List.getLast?_cons, List.getLastD_eq_getLast?]
      rfl
    rw [hl, hlast, ← hy]
  rw [hm]

theorem before_ok {e : MmEnv K} (after : After K) (share : ℕ → ℕ) (nx nz : ℕ) (os : List (PyNum K)) {g : Grid (MapPol K) K} (hg : GridOk (e.on g)) (n : ℕ) :
    GridOk (e.on (gridBefore e after share nx nz os g n)) :=
  GridOk.on (e := e.on g) hg (SameY.before _ _ _ _ _ _ _ _) (HasPerp.before _ _ _ _ _ _ hg.perp _)

/-- Planes that are different objects: each is moved once. -/
theorem before_distinct {e : MmEnv K} {φ : K → K → K → K → K × K} (hφ : PointTracer e φ) {g : Grid (MapPol K) K} (hg : GridOk (e.on g)) {share : ℕ → ℕ}
    (hs : Function.Injective share) (nx nz nslice : ℕ) (dir : ℤ) (hd : dir = 1 ∨ dir = -1) : ∀ n ≤ g.ny, ∀ k,
      (gridBefore e (movesArrays e.follow) share nx nz (offsetsOf nslice dir) g n).polGrids[k]? =
        g.polGrids[k]?.map fun p => if k < n then p.moved (toLast φ g nslice dir k) else p := by
  intro n
  induction n with
  | zero => intro _ k; simp [gridBefore]
  | succ n ih =>
    intro hn k
    have hS : SameY g (gridBefore e (movesArrays e.follow) share nx nz (offsetsOf nslice dir) g n) := SameY.before _ _ _ _ _ _ _ _
    obtain ⟨pol, h1, h2⟩ := step_moves hφ (before_ok (movesArrays e.follow) share nx nz (offsetsOf nslice dir) hg n) share nx nz nslice dir hd n
      (by unfold Grid.ny; rw [hS.y]; exact hn)
    rw [gridBefore_succ, h2, overwrite_polGrids, ih (by omega)]
    have ht : toLast φ (gridBefore e (movesArrays e.follow) share nx nz (offsetsOf nslice dir) g n) nslice dir n = toLast φ g nslice dir n := by
      unfold toLast; rw [hS.yAt, hS.yAt]
    rw [ih (by omega) n] at h1
    obtain ⟨p0, hp0, hp1⟩ := Option.map_eq_some_iff.1 h1
    rw [if_neg (by omega)] at hp1
    subst hp1
    cases hk : g.polGrids[k]? with
    | none => rfl
    | some p =>
      simp only [Option.map_some, Option.some.injEq]
      by_cases hkn : k = n
      · subst hkn
        rw [hp0] at hk
        injection hk with hk
        subst hk
        rw [if_pos rfl, if_neg (by omega), if_pos (by omega), ht]; rfl
      · rw [if_neg fun h => hkn (hs h)]
        by_cases hk2 : k < n
        · rw [if_pos hk2, if_pos (by omega)]
        · rw [if_neg hk2, if_neg (by omega)]

/-- The points of the one poloidal grid that all planes share, before plane `n` of a direction. -/
def drift (φ : K → K → K → K → K × K) (g : Grid (MapPol K) K) (nslice : ℕ) (dir : ℤ) (p : MapPol K) : ℕ → MapPol K
  | 0 => p
  | n + 1 => (drift φ g nslice dir p n).moved (toLast φ g nslice dir n)

/-- All planes are one object: it is moved again for every plane. -/
theorem before_shared {e : MmEnv K} {φ : K → K → K → K → K × K} (hφ : PointTracer e φ) {g : Grid (MapPol K) K} (hg : GridOk (e.on g)) {share : ℕ → ℕ}
    (hs : ∀ a b, share a = share b) (p : MapPol K) (hp : ∀ k < g.ny, g.polGrids[k]? = some p) (nx nz nslice : ℕ) (dir : ℤ) (hd : dir = 1 ∨ dir = -1) :
    ∀ n ≤ g.ny, ∀ k < g.ny,
      (gridBefore e (movesArrays e.follow) share nx nz (offsetsOf nslice dir) g n).polGrids[k]? = some (drift φ g nslice dir p n) := by
  intro n
  induction n with
  | zero => intro _ k hk; exact hp k hk
  | succ n ih =>
    intro hn k hk
    have hS : SameY g (gridBefore e (movesArrays e.follow) share nx nz (offsetsOf nslice dir) g n) := SameY.before _ _ _ _ _ _ _ _
    obtain ⟨pol, h1, h2⟩ := step_moves hφ (before_ok (movesArrays e.follow) share nx nz (offsetsOf nslice dir) hg n) share nx nz nslice dir hd n
      (by unfold Grid.ny; rw [hS.y]; exact hn)
    have ht : toLast φ (gridBefore e (movesArrays e.follow) share nx nz (offsetsOf nslice dir) g n) nslice dir n = toLast φ g nslice dir n := by
      unfold toLast; rw [hS.yAt, hS.yAt]
    rw [ih (by omega) n (by omega)] at h1
    injection h1 with h1
    rw [gridBefore_succ, h2, overwrite_polGrids, ih (by omega) k hk, ht, ← h1]
    simp only [Option.map_some]
    rw [if_pos (hs k n)]; rfl

/-! ## The positions in the maps -/

/-- The stored positions are those of the field lines through the points that the plane has at that time. -/
theorem inplace_positions {e : MmEnv K} (hf : FollowOk e) {φ : K → K → K → K → K × K} (hφ : PointTracer e φ) {after : After K} {share : ℕ → ℕ}
    {nslice mxg r nc : ℕ} {empty : JState K} {m : ODict (MapVal K)} {gF : Grid (MapPol K) K}
    (h : makeMapsS e after share nslice mxg 1 r nc empty = .ok (m, gF)) :
    ∃ first y0, e.plane 0 = .ok (first, y0) ∧ gF = gridAtPlane e after share first.nx first.nz nslice (-1) e.grid.ny ∧
    ∀ d : ℤ, d ≠ 0 → d.natAbs ≤ nslice →
    ∃ R Z, m.get? (sliceName "R" d) = some (.f3 R) ∧ m.get? (sliceName "Z" d) = some (.f3 Z) ∧
      ∀ j < e.grid.ny, ∃ pol, (gridAtPlane e after share first.nx first.nz nslice d.sign j).polGrids[j]? = some pol ∧
        ∀ x z, (R (x, j, z), Z (x, j, z)) = φ (pol.R x z) (pol.Z x z) (e.grid.yAt (j : K)) (e.grid.yAt ((j : K) + (d : K))) := by
  obtain ⟨first, y0, smp, h1, h2, hgF, hsl⟩ := makeMapsS_slice h hf
  refine ⟨first, y0, h1, hgF, ?_⟩
  intro d hd0 hd
  obtain ⟨ho, hs⟩ := offsetsOf_int (K := K) nslice d hd0 hd
  obtain ⟨ps, h3, h4, h5⟩ := hsl d.sign hs d.natAbs _ ho
  have names : ∀ f ∈ sixFields, isHalfIndex (nm e f (.int d)) = false := fun f hfm => not_half_int e f (six_no_l f hfm) d hd0
  refine ⟨ps.R, ps.Z, ?_, ?_, ?_⟩
  · rw [← nm_sliceName e _ d hd0]
    exact h5 _ _ (by rw [← h3]; simp [entryList]) (names _ (by decide))
  · rw [← nm_sliceName e _ d hd0]
    exact h5 _ _ (by rw [← h3]; simp [entryList]) (names _ (by decide))
  · intro j hj
    obtain ⟨pol, y, targets, coord, t, g1, g2, g3, g4, g5, _, _⟩ := h4 j hj
    have hS := SameY.atPlane e after share first.nx first.nz nslice d.sign j
    refine ⟨pol, plane_get (by unfold Grid.ny; change j < (gridAtPlane e after share first.nx first.nz nslice d.sign j).ycoords.length; rw [hS.y]; exact hj) g1, ?_⟩
    intro x z
    obtain ⟨a1, a2, _, _⟩ := g5 x z
    obtain ⟨b, hb1, hb2⟩ := mapM_getElem? g2 d.natAbs _ ho
    rw [g4] at hb1
    injection hb1 with hb1
    subst hb1
    have hc : coord = fun x z => φ (pol.R x z) (pol.Z x z) y t.2 := by
      have : (e.on (gridAtPlane e after share first.nx first.nz nslice d.sign j)).follow = e.follow := rfl
      rw [this, hφ, List.getElem?_map, List.getElem?_cons_succ, List.getElem?_map, g4] at g3
      simp only [Option.map_some, Option.some.injEq] at g3
      exact g3.symm
    have hy : y = e.grid.yAt (j : K) := by rw [← hS.yAt]; exact Grid.yAt_eq (plane_eq g1)
    have ht : t.2 = e.grid.yAt ((j : K) + (d : K)) := by rw [← hS.yAt]; exact Grid.yAt_eq (t := t.1) hb2
    rw [a1, a2, hc, hy, ht]

theorem SameY.ny {g g' : Grid (MapPol K) K} (h : SameY g g') : g'.ny = g.ny := by unfold Grid.ny; rw [h.y]

/-- **C260 (partial).** With `FieldTracerReversible` and a poloidal grid of its own for each plane, the forward maps are right: every position is that of the field
line through the grid point.  Missing: the backward maps (`C260_backward`), and planes that share a poloidal grid (`C260_shared`). -/
theorem C260_forward_partial (e : MmEnv K) (hf : FollowOk e) (hg : GridOk e) (φ : K → K → K → K → K × K) (hφ : PointTracer e φ) (share : ℕ → ℕ)
    (hs : Function.Injective share) (nslice mxg r nc : ℕ) (empty : JState K) (m : ODict (MapVal K)) (gF : Grid (MapPol K) K)
    (h : makeMapsS e (movesArrays e.follow) share nslice mxg 1 r nc empty = .ok (m, gF)) (d : ℤ) (hd0 : 0 < d) (hd : d.natAbs ≤ nslice) :
    ∃ R Z, m.get? (sliceName "R" d) = some (.f3 R) ∧ m.get? (sliceName "Z" d) = some (.f3 Z) ∧
      ∀ j < e.grid.ny, ∃ pol, e.grid.polGrids[j]? = some pol ∧
        ∀ x z, (R (x, j, z), Z (x, j, z)) = φ (pol.R x z) (pol.Z x z) (e.grid.yAt (j : K)) (e.grid.yAt ((j : K) + (d : K))) := by
  obtain ⟨first, y0, _, _, hp⟩ := inplace_positions hf hφ h
  obtain ⟨R, Z, h1, h2, h3⟩ := hp d hd0.ne' hd
  refine ⟨R, Z, h1, h2, ?_⟩
  intro j hj
  obtain ⟨pol, g1, g2⟩ := h3 j hj
  rw [Int.sign_eq_one_of_pos hd0] at g1
  unfold gridAtPlane at g1
  rw [if_pos rfl, before_distinct hφ (g := e.grid) hg hs _ _ nslice 1 (Or.inl rfl) j (le_of_lt hj)] at g1
  obtain ⟨p, hp1, hp2⟩ := Option.map_eq_some_iff.1 g1
  rw [if_neg (by omega)] at hp2
  subst hp2
  exact ⟨p, hp1, g2⟩

/-- **C260 (refutation, all cases).** The backward maps start from the end points of the forward maps: with a poloidal grid of its own for each plane, the stored
position is that of the field line through the position reached by the last forward slice, taken as a position in the plane itself. -/
theorem C260_backward (e : MmEnv K) (hf : FollowOk e) (hg : GridOk e) (φ : K → K → K → K → K × K) (hφ : PointTracer e φ) (share : ℕ → ℕ)
    (hs : Function.Injective share) (nslice mxg r nc : ℕ) (empty : JState K) (m : ODict (MapVal K)) (gF : Grid (MapPol K) K)
    (h : makeMapsS e (movesArrays e.follow) share nslice mxg 1 r nc empty = .ok (m, gF)) (d : ℤ) (hd0 : d < 0) (hd : d.natAbs ≤ nslice) :
    ∃ R Z, m.get? (sliceName "R" d) = some (.f3 R) ∧ m.get? (sliceName "Z" d) = some (.f3 Z) ∧
      ∀ j < e.grid.ny, ∃ pol, e.grid.polGrids[j]? = some pol ∧ ∀ x z, ∃ p,
        p = φ (pol.R x z) (pol.Z x z) (e.grid.yAt (j : K)) (e.grid.yAt ((j : K) + (nslice : K))) ∧
        (R (x, j, z), Z (x, j, z)) = φ p.1 p.2 (e.grid.yAt (j : K)) (e.grid.yAt ((j : K) + (d : K))) := by
  obtain ⟨first, y0, _, _, hp⟩ := inplace_positions hf hφ h
  obtain ⟨R, Z, h1, h2, h3⟩ := hp d hd0.ne hd
  refine ⟨R, Z, h1, h2, ?_⟩
  intro j hj
  obtain ⟨pol, g1, g2⟩ := h3 j hj
  rw [Int.sign_eq_neg_one_of_neg hd0] at g1
  unfold gridAtPlane at g1
  have hS := SameY.before e (movesArrays e.follow) share first.nx first.nz (offsetsOf nslice 1) e.grid e.grid.ny
  rw [if_neg (by norm_num), before_distinct hφ (before_ok _ share _ _ _ (g := e.grid) hg _) hs _ _ nslice (-1) (Or.inr rfl) j
    (by rw [hS.ny]; exact le_of_lt hj), before_distinct hφ (g := e.grid) hg hs _ _ nslice 1 (Or.inl rfl) _ (le_refl _)] at g1
  obtain ⟨p, hp1, hp2⟩ := Option.map_eq_some_iff.1 g1
  rw [if_neg (by omega)] at hp2
  subst hp2
  obtain ⟨q, hq1, hq2⟩ := Option.map_eq_some_iff.1 hp1
  rw [if_pos hj] at hq2
  subst hq2
  refine ⟨q, hq1, ?_⟩
  intro x z
  refine ⟨_, rfl, ?_⟩
  have hn : nslice ≠ 0 := by omega
  rw [g2 x z]
  simp only [MapPol.moved, toLast, lastOffset, if_neg hn, Int.cast_one, one_mul]

/-- The grid afterwards: every point of a plane has been moved to the end of the last forward slice and from there by the step of the last backward slice. -/
theorem C260_grid_after (e : MmEnv K) (hf : FollowOk e) (hg : GridOk e) (φ : K → K → K → K → K × K) (hφ : PointTracer e φ) (share : ℕ → ℕ)
    (hs : Function.Injective share) (nslice mxg r nc : ℕ) (hn : 0 < nslice) (empty : JState K) (m : ODict (MapVal K)) (gF : Grid (MapPol K) K)
    (h : makeMapsS e (movesArrays e.follow) share nslice mxg 1 r nc empty = .ok (m, gF)) (j : ℕ) (hj : j < e.grid.ny) :
    ∃ pol pol', e.grid.polGrids[j]? = some pol ∧ gF.polGrids[j]? = some pol' ∧ ∀ x z, ∃ p,
      p = φ (pol.R x z) (pol.Z x z) (e.grid.yAt (j : K)) (e.grid.yAt ((j : K) + (nslice : K))) ∧
      (pol'.R x z, pol'.Z x z) = φ p.1 p.2 (e.grid.yAt (j : K)) (e.grid.yAt ((j : K) - (nslice : K))) := by
  obtain ⟨first, y0, _, hgF, _⟩ := inplace_positions hf hφ h
  have hS := SameY.before e (movesArrays e.follow) share first.nx first.nz (offsetsOf nslice 1) e.grid e.grid.ny
  have hl : j < e.grid.polGrids.length := by rw [hg.length]; exact hj
  refine ⟨e.grid.polGrids[j], ((e.grid.polGrids[j]).moved (toLast φ e.grid nslice 1 j)).moved (toLast φ e.grid nslice (-1) j),
    List.getElem?_eq_getElem hl, ?_, ?_⟩
  · rw [hgF]
    unfold gridAtPlane
    rw [if_neg (by norm_num), before_distinct hφ (before_ok _ share _ _ _ (g := e.grid) hg _) hs _ _ nslice (-1) (Or.inr rfl) _
      (by rw [hS.ny]), before_distinct hφ (g := e.grid) hg hs _ _ nslice 1 (Or.inl rfl) _ (le_refl _),
      List.getElem?_eq_getElem hl]
    simp only [Option.map_some, if_pos hj]
    unfold toLast
    rw [hS.yAt, hS.yAt]
  · intro x z
    refine ⟨_, rfl, ?_⟩
    have hn : nslice ≠ 0 := by omega
    simp only [MapPol.moved, toLast, lastOffset, if_neg hn, Int.cast_one, one_mul, Int.cast_neg, neg_mul, ← sub_eq_add_neg]

/-- **C260 (refutation, all cases).** If all planes are made from one poloidal grid, the maps of plane `j` start from points that have been moved once for every plane
before: forward from `drift j`, backward from where these end. -/
theorem C260_shared (e : MmEnv K) (hf : FollowOk e) (hg : GridOk e) (φ : K → K → K → K → K × K) (hφ : PointTracer e φ) (share : ℕ → ℕ)
    (hs : ∀ a b, share a = share b) (p : MapPol K) (hp : ∀ k < e.grid.ny, e.grid.polGrids[k]? = some p) (nslice mxg r nc : ℕ) (empty : JState K)
    (m : ODict (MapVal K)) (gF : Grid (MapPol K) K)
    (h : makeMapsS e (movesArrays e.follow) share nslice mxg 1 r nc empty = .ok (m, gF)) (d : ℤ) (hd0 : d ≠ 0) (hd : d.natAbs ≤ nslice) :
    ∃ R Z, m.get? (sliceName "R" d) = some (.f3 R) ∧ m.get? (sliceName "Z" d) = some (.f3 Z) ∧
      ∀ j < e.grid.ny, ∃ q : MapPol K,
        q = (if 0 < d then drift φ e.grid nslice 1 p j else drift φ e.grid nslice (-1) (drift φ e.grid nslice 1 p e.grid.ny) j) ∧
        ∀ x z, (R (x, j, z), Z (x, j, z)) = φ (q.R x z) (q.Z x z) (e.grid.yAt (j : K)) (e.grid.yAt ((j : K) + (d : K))) := by
  obtain ⟨first, y0, _, _, hpos⟩ := inplace_positions hf hφ h
  obtain ⟨R, Z, h1, h2, h3⟩ := hpos d hd0 hd
  refine ⟨R, Z, h1, h2, ?_⟩
  intro j hj
  obtain ⟨pol, g1, g2⟩ := h3 j hj
  have hS := SameY.before e (movesArrays e.follow) share first.nx first.nz (offsetsOf nslice 1) e.grid e.grid.ny
  rcases lt_or_gt_of_ne hd0 with hneg | hpos'
  · rw [Int.sign_eq_neg_one_of_neg hneg] at g1
    unfold gridAtPlane at g1
    have hny : (gridBefore e (movesArrays e.follow) share first.nx first.nz (offsetsOf nslice 1) e.grid e.grid.ny).ny = e.grid.ny := hS.ny
    rw [if_neg (by norm_num), before_shared hφ (before_ok _ share _ _ _ (g := e.grid) hg _) hs (drift φ e.grid nslice 1 p e.grid.ny)
      (by
        intro k hk
        rw [hny] at hk
        exact before_shared hφ (g := e.grid) hg hs p hp _ _ nslice 1 (Or.inl rfl) _ (le_refl _) k hk) _ _ nslice (-1) (Or.inr rfl) j
      (by rw [hny]; exact le_of_lt hj) j (by rw [hny]; exact hj)] at g1
    injection g1 with g1
    refine ⟨pol, ?_, g2⟩
    rw [if_neg (by omega), ← g1]
    have ht : ∀ n, toLast φ (gridBefore e (movesArrays e.follow) share first.nx first.nz (offsetsOf nslice 1) e.grid e.grid.ny) nslice (-1) n =
        toLast φ e.grid nslice (-1) n := by
      intro n
      unfold toLast; rw [hS.yAt, hS.yAt]
    generalize drift φ e.grid nslice 1 p e.grid.ny = q
    clear g1 g2 hj
    induction j with
    | zero => rfl
    | succ j ih => rw [drift, drift, ih, ht]
  · rw [Int.sign_eq_one_of_pos hpos'] at g1
    unfold gridAtPlane at g1
    rw [if_pos rfl, before_shared hφ (g := e.grid) hg hs p hp _ _ nslice 1 (Or.inl rfl) j (le_of_lt hj) j hj] at g1
    injection g1 with g1
    exact ⟨pol, by rw [if_pos hpos', g1], g2⟩

/-- **C260, exactly.** With a poloidal grid of its own for each plane, and a tracer that takes different points to different points, the backward map of a point is right
exactly if the field line is at the same position in the last forward slice. -/
theorem C260_backward_iff (e : MmEnv K) (hf : FollowOk e) (hg : GridOk e) (φ : K → K → K → K → K × K) (hφ : PointTracer e φ)
    (hinj : ∀ (y y' : K) (p q : K × K), φ p.1 p.2 y y' = φ q.1 q.2 y y' → p = q) (share : ℕ → ℕ)
    (hs : Function.Injective share) (nslice mxg r nc : ℕ) (empty : JState K) (m : ODict (MapVal K)) (gF : Grid (MapPol K) K)
    (h : makeMapsS e (movesArrays e.follow) share nslice mxg 1 r nc empty = .ok (m, gF)) (d : ℤ) (hd0 : d < 0) (hd : d.natAbs ≤ nslice) :
    ∃ R Z, m.get? (sliceName "R" d) = some (.f3 R) ∧ m.get? (sliceName "Z" d) = some (.f3 Z) ∧
      ∀ j < e.grid.ny, ∃ pol, e.grid.polGrids[j]? = some pol ∧ ∀ x z,
        ((R (x, j, z), Z (x, j, z)) = φ (pol.R x z) (pol.Z x z) (e.grid.yAt (j : K)) (e.grid.yAt ((j : K) + (d : K))) ↔
          φ (pol.R x z) (pol.Z x z) (e.grid.yAt (j : K)) (e.grid.yAt ((j : K) + (nslice : K))) = (pol.R x z, pol.Z x z)) := by
  obtain ⟨R, Z, h1, h2, h3⟩ := C260_backward e hf hg φ hφ share hs nslice mxg r nc empty m gF h d hd0 hd
  refine ⟨R, Z, h1, h2, ?_⟩
  intro j hj
  obtain ⟨pol, g1, g2⟩ := h3 j hj
  refine ⟨pol, g1, ?_⟩
  intro x z
  obtain ⟨p, hp, hR⟩ := g2 x z
  rw [hR, ← hp]
  constructor
  · intro h
    exact hinj _ _ p (pol.R x z, pol.Z x z) h
  · intro h
    rw [h]

/-! ## The claim and its refutation -/

/-- The full claim: for every tracer of the library, `make_maps` leaves the points of the grid where they are, and all its positions are those of the field lines
through the points of the grid. -/
def TracesFromGrid (K : Type) [Field K] [LinearOrder K] [IsStrictOrderedRing K] [FloorRing K] : Prop :=
  ∀ (e : MmEnv K) (_ : FollowOk e) (_ : GridOk e) (φ : K → K → K → K → K × K) (_ : PointTracer e φ) (after : After K)
    (_ : after = keepsArrays ∨ after = movesArrays e.follow) (share : ℕ → ℕ) (_ : SharedOk e.grid share) (nslice mxg r nc : ℕ) (empty : JState K)
    (m : ODict (MapVal K)) (gF : Grid (MapPol K) K) (_ : makeMapsS e after share nslice mxg 1 r nc empty = .ok (m, gF)),
    (∀ (j : ℕ) (p q : MapPol K), e.grid.polGrids[j]? = some p → gF.polGrids[j]? = some q → p.R = q.R ∧ p.Z = q.Z) ∧
    ∀ d : ℤ, d ≠ 0 → d.natAbs ≤ nslice → ∃ R Z, m.get? (sliceName "R" d) = some (.f3 R) ∧ m.get? (sliceName "Z" d) = some (.f3 Z) ∧
      ∀ j < e.grid.ny, ∃ pol, e.grid.polGrids[j]? = some pol ∧
        ∀ x z, (R (x, j, z), Z (x, j, z)) = φ (pol.R x z) (pol.Z x z) (e.grid.yAt (j : K)) (e.grid.yAt ((j : K) + (d : K)))

theorem exMm_shared (ys : List ℚ) (per slab : Bool) (share : ℕ → ℕ) : SharedOk (exMm ys per slab).grid share := by
  intro a b p q _ hp hq
  have h1 := List.mem_of_getElem? hp
  have h2 := List.mem_of_getElem? hq
  obtain ⟨_, _, rfl⟩ := List.mem_map.1 h1
  obtain ⟨_, _, rfl⟩ := List.mem_map.1 h2
  exact ⟨rfl, rfl⟩

theorem exMm_yAt : (exMm [0, 1] false false).grid.yAt ((0 : ℕ) : ℚ) = 0 ∧ (exMm [0, 1] false false).grid.yAt (((0 : ℕ) : ℚ) + ((1 : ℕ) : ℚ)) = 1 := by
  constructor <;> decide +kernel

/-- **C260 (refutation).** Two planes with grids of their own and field lines that move up by half the distance: the backward map of the first plane starts half a unit
above the grid points. -/
theorem C260_fails : ¬ TracesFromGrid ℚ := by
  intro H
  have hf := exMm_follow [0, 1] false false
  have hg := exMm_grid [0, 1] false false (by simp)
  have hφ := exMm_point [0, 1] false false
  obtain ⟨m, gF, h⟩ := makeMapsS_succeeds (exMm [0, 1] false false) hf hg (movesArrays (exMm [0, 1] false false).follow) (fun j => j) 1 0 1 1
    (le_refl _) (le_refl _) ⟨fun _ => 0, fun _ _ => 0, fun _ _ => 0⟩
  obtain ⟨R, Z, h1, h2, h3⟩ := (H _ hf hg _ hφ _ (Or.inr rfl) (fun j => j) (exMm_shared _ _ _ _) 1 0 1 1 _ m gF h).2 (-1) (by norm_num) (by norm_num)
  obtain ⟨R', Z', h1', h2', h3'⟩ := C260_backward_iff _ hf hg _ hφ (by
    intro y y' p q hpq
    simp only [Prod.mk.injEq, add_left_inj] at hpq
    exact Prod.ext hpq.1 hpq.2) (fun j => j) (fun a b h => h) 1 0 1 1 _ m gF h (-1) (by norm_num) (by norm_num)
  rw [h1] at h1'
  rw [h2] at h2'
  injection h1' with h1'
  injection h1' with h1'
  injection h2' with h2'
  injection h2' with h2'
  subst h1' h2'
  obtain ⟨pol, g1, g2⟩ := h3 0 (by decide)
  obtain ⟨pol', g1', g2'⟩ := h3' 0 (by decide)
  rw [g1] at g1'
  injection g1' with g1'
  subst g1'
  have := (g2' 0 0).1 (g2 0 0)
  rw [exMm_yAt.1, exMm_yAt.2] at this
  simp only [Prod.mk.injEq] at this
  norm_num at this

/-- **C260 (refutation).** If the planes are made from one poloidal grid, even the forward maps are wrong from the second plane on. -/
theorem C260_fails_shared (m : ODict (MapVal ℚ)) (gF : Grid (MapPol ℚ) ℚ) (empty : JState ℚ)
    (h : makeMapsS (exMm [0, 1] false false) (movesArrays (exMm [0, 1] false false).follow) (fun _ => 0) 1 0 1 1 1 empty = .ok (m, gF)) :
    ∃ Z, m.get? "forward_Z" = some (.f3 Z) ∧ ∀ x z : ℕ, Z (x, 0, z) = z + 1 / 2 ∧
      Z (x, 1, z) = (z + 1 / 2) + ((exMm [0, 1] false false).grid.yAt (((1 : ℕ) : ℚ) + ((1 : ℤ) : ℚ)) - 1) / 2 := by
  have hp : ∀ k < (exMm [0, 1] false false).grid.ny, (exMm [0, 1] false false).grid.polGrids[k]? = some exMapPol := by
    intro k hk
    have hk : k < 2 := hk
    interval_cases k <;> rfl
  obtain ⟨R, Z, h1, h2, h3⟩ := C260_shared _ (exMm_follow _ _ _) (exMm_grid [0, 1] false false (by simp)) _ (exMm_point _ _ _) (fun _ => 0) (fun _ _ => rfl)
    exMapPol hp 1 0 1 1 empty m gF h 1 (by norm_num) (by norm_num)
  refine ⟨Z, h2, ?_⟩
  intro x z
  have y1 : (exMm [0, 1] false false).grid.yAt ((1 : ℕ) : ℚ) = 1 := by decide +kernel
  have y01 : (exMm [0, 1] false false).grid.yAt (((0 : ℕ) : ℚ) + ((1 : ℤ) : ℚ)) = 1 := by decide +kernel
  constructor
  · obtain ⟨q, hq, hZ⟩ := h3 0 (by decide)
    have := congrArg Prod.snd (hZ x z)
    simp only at this
    rw [this, hq, if_pos (by norm_num), exMm_yAt.1, y01]
    simp [drift, exMapPol]
  · obtain ⟨q, hq, hZ⟩ := h3 1 (by decide)
    have := congrArg Prod.snd (hZ x z)
    simp only at this
    rw [this, hq, if_pos (by norm_num), y1]
    simp only [drift, MapPol.moved, toLast, lastOffset, one_ne_zero, if_false, Int.cast_one, one_mul]
    rw [exMm_yAt.1, exMm_yAt.2]
    simp [exMapPol]

example (empty : JState ℚ) : (∃ m gF, makeMapsS (exMm [0, 1] false false) (movesArrays (exMm [0, 1] false false).follow) (fun j => j) 1 0 1 1 1 empty = .ok (m, gF)) ∧
    (∃ m gF, makeMapsS (exMm [0, 1] false false) (movesArrays (exMm [0, 1] false false).follow) (fun _ => 0) 1 0 1 1 1 empty = .ok (m, gF)) ∧
    SharedOk (exMm [0, 1] false false).grid (fun _ => 0) :=
  ⟨makeMapsS_succeeds _ (exMm_follow _ _ _) (exMm_grid [0, 1] false false (by simp)) _ _ _ _ _ _ (le_refl _) (le_refl _) _,
    makeMapsS_succeeds _ (exMm_follow _ _ _) (exMm_grid [0, 1] false false (by simp)) _ _ _ _ _ _ (le_refl _) (le_refl _) _, exMm_shared _ _ _ _⟩

/-! ## What `FieldTracerReversible` leaves in the arrays -/

/-- Arrays of floating point numbers of one shape hold, after `follow_field_lines`, the last of the rows that the result is made of: what `movesArrays` says. -/
theorem C260_arrays_after (dir : List (K × K) → K → Except Err (List (K × K))) (rtol eps : K) (nsteps fuel : ℕ) (x z y : FArr K) (gx gz : Given) (same : Bool)
    (hx : gx.isArray = true) (hz : gz.isArray = true) (hsh : x.atleast1d.shape = z.atleast1d.shape) (r : RevResult K)
    (h : followReversible dir rtol eps nsteps fuel x z y gx gz same = .ok r) :
    ∃ (rows : List (List (K × K))) (last : List (K × K)), r.result.data = rows.flatMap interleave ∧ rows.getLast? = some last ∧
      r.xAfter = last.map Prod.fst ∧ r.zAfter = last.map Prod.snd := by
  unfold followReversible at h
  cases hc : checkInputs x z y with
  | error e => rw [hc] at h; cases h
  | ok a =>
    rw [hc] at h
    simp only [Except.bind] at h
    generalize revRows (K := K) _ _ _ _ _ = rr at h
    cases rr with
    | error e => cases h
    | ok rows =>
      simp only [Except.map, Except.ok.injEq] at h
      subst h
      refine ⟨(a.1.data.zip a.2.1.data) :: rows, _, rfl, List.getLast?_eq_some_getLast (by simp), ?_, ?_⟩
      · simp [hx, xSpread, hsh]
      · simp [hz, zSpread, hsh]

end Zoidberg
