import Verif.Proofs.MakeMapsExc
import Verif.Proofs.MakeMapsOk
import Verif.Props.SubSamples
import Verif.Props.ParallelIntegral

/-!
# C252, C253: exceptions in `make_maps`
-/

set_option linter.unusedSectionVars false

namespace Zoidberg

variable {K : Type} [Field K] [LinearOrder K] [IsStrictOrderedRing K] [FloorRing K]

/-! ### C252 -/

/-- **C252.** If `make_maps` returns, the maps are those that it would make with functions that never raise exceptions, whatever these
functions do where the given ones raise exceptions. -/
theorem C252_values (e : MmEnvX K) (nslice mxg n r nc : ℕ) (empty : JState K) (m : ODict (MapVal K))
    (h : makeMapsX e nslice mxg n r nc empty = .ok m) :
    ∃ first y, e.grid.getPoloidalGrid ((0 : ℕ) : K) = .ok (some first, y) ∧
      ∀ d, makeMaps (e.total d first.nx first.nz) nslice mxg n r nc empty = .ok m := by
  have hd : ∀ d, _ := fun d => makeMaps_total d e nslice mxg n r nc empty m h
  obtain ⟨first, y, h1, -⟩ := hd ⟨fun _ _ _ _ _ => [], fun _ _ _ _ => (0, 0), fun _ _ _ => 0, fun _ _ => 0, fun _ => none⟩
  refine ⟨first, y, ?_, fun d => ?_⟩
  · unfold MmEnvX.plane at h1
    cases hg : e.grid.getPoloidalGrid ((0 : ℕ) : K) with
    | error err => rw [hg] at h1; cases h1
    | ok a =>
      obtain ⟨_ | p, y'⟩ := a
      · rw [hg] at h1; cases h1
      · rw [hg] at h1; cases h1; rfl
  · obtain ⟨f, y', h1', h2⟩ := hd d
    rw [h1] at h1'
    cases h1'
    exact h2

theorem planeX_eq {e : MmEnvX K} {j : ℕ} {p : MapPolX K} {y : K} : e.plane j = .ok (p, y) ↔ e.grid.getPoloidalGrid (j : K) = .ok (some p, y) := by
  unfold MmEnvX.plane
  cases e.grid.getPoloidalGrid (j : K) with
  | error err => constructor <;> intro h <;> cases h
  | ok a =>
    obtain ⟨_ | q, y'⟩ := a
    · constructor <;> intro h <;> cases h
    · constructor <;> intro h <;> cases h <;> rfl

theorem grid_inside {G : Type} (g : Grid G K) (hl : g.polGrids.length = g.ycoords.length) (j : ℕ) (hj : j < g.ycoords.length) :
    g.getPoloidalGrid (j : K) = .ok (some (g.polGrids[j]'(by omega)), g.ycoords[j]) := by
  have h := Grid.getPoloidalGrid_int g (j : ℤ)
  rw [Int.cast_natCast] at h
  rw [h]
  unfold Grid.getInt
  simp only
  rw [if_pos ⟨by positivity, by exact_mod_cast hj⟩, pyInt_natCast, Grid.at_lt g hl j hj]
  rfl

theorem mapM_foldl_mem {S A : Type} (f : S → A → Except Err S) (l : List A) (ss r : List S) (h : (ss.mapM fun s => l.foldlM f s) = .ok r)
    (s : S) (hs : s ∈ ss) : ∃ s', l.foldlM f s = .ok s' := by
  obtain ⟨i, hi, rfl⟩ := List.getElem_of_mem hs
  obtain ⟨b, -, hb⟩ := mapM_getElem? h i _ (List.getElem?_eq_getElem hi)
  exact ⟨b, hb⟩

theorem storeAllX_offsets (e : MmEnvX K) (nx nz j : ℕ) (y : K) : ∀ (pss : List (PSlice K)) (cs : List (ℕ → ℕ → K × K)) (ts : List (Option (MapPolX K)))
    (a b : List (PSlice K)) (ps : PSlice K) (ind : ℕ → ℕ → K × K) (t : Option (MapPolX K)),
    storeAllX e nx nz j y pss cs ts = .ok (some (a, (ps, ind, t), b)) →
    (a ++ ps :: b).map (·.offset) = pss.map (·.offset) ∧
      ∀ k p c, ts[k]? = some (some p) → cs[k]? = some c → k < pss.length → ∃ f, p.findIndex nx nz (fun x z => (c x z).1) (fun x z => (c x z).2) = .ok f := by
  intro pss
  induction pss with
  | nil => intro cs ts a b ps ind t h; cases h
  | cons q pss ih =>
    intro cs ts a b ps ind t h
    cases cs with
    | nil => cases h
    | cons c cs =>
      cases ts with
      | nil => cases h
      | cons t' ts =>
        rw [storeAllX] at h
        obtain ⟨r, h1, h2⟩ := bind_ok h
        obtain ⟨o', h3, h4⟩ := map_ok h2
        unfold storeSliceX at h1
        obtain ⟨ind', g1, g2⟩ := map_ok h1
        have hoff : r.1.offset = q.offset := by rw [← g2]
        have hfirst : ∀ p, t' = some p → ∃ f, p.findIndex nx nz (fun x z => (c x z).1) (fun x z => (c x z).2) = .ok f := by
          rintro p rfl
          unfold indicesX at g1
          obtain ⟨f, g3, -⟩ := map_ok g1
          exact ⟨f, g3⟩
        cases o' with
        | none =>
          simp only at h4
          cases h4
          refine ⟨by simp [hoff], ?_⟩
          intro k p c' hk hc hl
          cases k with
          | zero =>
            simp only [List.getElem?_cons_zero, Option.some.injEq] at hk hc
            rw [← hc]
            exact hfirst p hk
          | succ k =>
            exfalso
            simp only [List.getElem?_cons_succ] at hk hc
            cases pss with
            | nil => simp at hl
            | cons q' pss =>
              cases cs with
              | nil => cases hc
              | cons c'' cs =>
                cases ts with
                | nil => cases hk
                | cons t'' ts =>
                  rw [storeAllX] at h3
                  obtain ⟨_, _, h3⟩ := bind_ok h3
                  obtain ⟨o'', _, h3⟩ := map_ok h3
                  cases o'' <;> cases h3
        | some w =>
          obtain ⟨a', ⟨ps', ind'', t''⟩, b'⟩ := w
          simp only at h4
          cases h4
          obtain ⟨k1, k2⟩ := ih cs ts a' b ps ind t h3
          refine ⟨by simpa [hoff] using k1, ?_⟩
          intro k p c' hk hc hl
          cases k with
          | zero =>
            simp only [List.getElem?_cons_zero, Option.some.injEq] at hk hc
            rw [← hc]
            exact hfirst p hk
          | succ k => exact k2 k p c' (by simpa using hk) (by simpa using hc) (by simpa using hl)

theorem storeSamplesX_offset (e : MmEnvX K) (nx nz : ℕ) (smp : Option (List (K × K × K))) (ns j : ℕ) (pol : MapPolX K) (yc ys : K) (ps ps' : PSlice K)
    (ind : ℕ → ℕ → K × K) (t : Option (MapPolX K)) (h : storeSamplesX e nx nz smp ns j pol yc ys ps ind t = .ok ps') : ps'.offset = ps.offset := by
  unfold storeSamplesX at h
  split_ifs at h with h1
  · injection h with h; rw [← h]
  · cases t with
    | none => injection h with h; rw [← h]
    | some tp =>
      cases smp with
      | none => cases h
      | some l =>
        simp only at h
        have : ∀ (l : List ((K × K × K) × ℕ)) (s s' : PSlice K), l.foldlM (storeSample e nx nz j pol tp yc ys) s = .ok s' → s'.offset = s.offset := by
          intro l
          induction l with
          | nil => intro s s' h; cases h; rfl
          | cons p l ih =>
            intro s s' h
            rw [List.foldlM_cons] at h
            cases hp : storeSample e nx nz j pol tp yc ys s p with
            | error err => rw [hp] at h; cases h
            | ok u =>
              rw [hp] at h
              rw [ih u s' h]
              unfold storeSample at hp
              obtain ⟨cs, -, k2⟩ := bind_ok hp
              cases hc : cs[1]? with
              | none => rw [hc] at k2; cases k2
              | some coord =>
                rw [hc] at k2
                obtain ⟨ind', -, k5⟩ := map_ok k2
                rw [← k5]
        exact this _ _ _ h

/-- What one plane of the tracing needs. -/
def PlaneCalls (e : MmEnvX K) (nx nz : ℕ) (offsets : List K) (j : ℕ) : Prop :=
  ∃ pol y ts cs, e.grid.getPoloidalGrid (j : K) = .ok (some pol, y) ∧ (offsets.mapM fun o => e.grid.getPoloidalGrid ((j : K) + o)) = .ok ts ∧
    e.follow nx nz pol.R pol.Z (y :: ts.map (·.2)) = .ok cs ∧
    ∀ k p yt c, ts[k]? = some (some p, yt) → cs[k + 1]? = some c → ∃ f, p.findIndex nx nz (fun x z => (c x z).1) (fun x z => (c x z).2) = .ok f

theorem mapM_map' {A B C : Type} (g : A → B) (f : B → Except Err C) (l : List A) : (l.map g).mapM f = l.mapM fun a => f (g a) := by
  induction l with
  | nil => rfl
  | cons a l ih => rw [List.map_cons, List.mapM_cons, List.mapM_cons, ih]

theorem tracePlaneX_calls (e : MmEnvX K) (nx nz : ℕ) (smp : Option (List (K × K × K))) (ns : ℕ) (pss r : List (PSlice K)) (j : ℕ)
    (h : tracePlaneX e nx nz smp ns pss j = .ok r) :
    r.map (·.offset) = pss.map (·.offset) ∧ PlaneCalls e nx nz (pss.map (·.offset.val)) j := by
  unfold tracePlaneX at h
  obtain ⟨⟨pol, y⟩, h1, h⟩ := bind_ok h
  obtain ⟨ts, h2, h⟩ := bind_ok h
  obtain ⟨cs, h3, h⟩ := bind_ok h
  obtain ⟨o, h4, h⟩ := bind_ok h
  cases o with
  | none => cases h
  | some q =>
    obtain ⟨l, ⟨ps, ind, t⟩, b⟩ := q
    obtain ⟨ps', h5, h6⟩ := map_ok h
    obtain ⟨k1, k2⟩ := storeAllX_offsets _ _ _ _ _ _ _ _ _ _ _ _ _ h4
    have k3 := storeSamplesX_offset _ _ _ _ _ _ _ _ _ _ _ _ _ h5
    refine ⟨?_, pol, y, ts, cs, planeX_eq.1 h1, ?_, h3, ?_⟩
    · rw [← h6, ← k1]
      simp [k3]
    · rw [mapM_map']
      exact h2
    · intro k p yt c hk hc
      apply k2 k p c
      · rw [List.getElem?_map, hk]; rfl
      · rw [List.getElem?_drop, Nat.add_comm]; exact hc
      · have := mapM_length h2
        have := (List.getElem?_eq_some_iff.1 hk).1
        omega

theorem traceFold_calls (e : MmEnvX K) (nx nz : ℕ) (smp : Option (List (K × K × K))) (ns : ℕ) : ∀ (l : List ℕ) (pss r : List (PSlice K)),
    l.foldlM (tracePlaneX e nx nz smp ns) pss = .ok r → ∀ j ∈ l, PlaneCalls e nx nz (pss.map (·.offset.val)) j := by
  intro l
  induction l with
  | nil => intro pss r _ j hj; cases hj
  | cons a l ih =>
    intro pss r h j hj
    rw [List.foldlM_cons] at h
    cases ha : tracePlaneX e nx nz smp ns pss a with
    | error err => rw [ha] at h; cases h
    | ok t =>
      rw [ha] at h
      obtain ⟨k1, k2⟩ := tracePlaneX_calls _ _ _ _ _ _ _ _ ha
      rcases List.mem_cons.mp hj with rfl | hj
      · exact k2
      · have := ih t r h j hj
        have e1 : t.map (·.offset.val) = pss.map (·.offset.val) := by
          have : ∀ l : List (PSlice K), l.map (·.offset.val) = (l.map (·.offset)).map (·.val) := by intro l; simp
          rw [this, this, k1]
        rwa [e1] at this

/-- The values of `y` along the field line of a plane, from the plane before to the plane after it. -/
def ysAround (r : ℕ) (y ylow yhigh : K) : List K :=
  (linspaceClosed y ylow (r * 2 + 1)).reverse ++ (linspaceClosed y yhigh (r * 2 + 1)).drop 1

/-- What one plane needs for the parallel integrals. -/
def IntegralCalls (e : MmEnvX K) (nx r nc j : ℕ) : Prop :=
  ∃ pol y low high chunks, e.grid.getPoloidalGrid (j : K) = .ok (some pol, y) ∧ e.grid.getPoloidalGrid ((j : K) + -1) = .ok low ∧
    e.grid.getPoloidalGrid ((j : K) + 1) = .ok high ∧ arraySplit (List.range nx) nc = .ok chunks ∧
    ∀ chunk ∈ chunks,
      (∀ yt ∈ [low.2, high.2], ∃ cs, e.follow chunk.length pol.nz (fun i z => pol.R (chunk.getD i 0) z) (fun i z => pol.Z (chunk.getD i 0) z)
        (linspaceClosed y yt (r * 2 + 1)) = .ok cs) ∧
      (∀ k < 3, ∃ f, e.lineLength (lengthWindow r k (ysAround r y low.2 high.2)) = .ok f) ∧ (∃ f, e.byfunc = .ok f) ∧ ∃ m, pol.metric = .ok m

theorem jacPlaneX_calls (e : MmEnvX K) (nx r nc : ℕ) (s s' : JState K) (j : ℕ) (h : jacPlaneX e nx r nc s j = .ok s') : IntegralCalls e nx r nc j := by
  unfold jacPlaneX at h
  obtain ⟨chunks, h1, h⟩ := bind_ok h
  obtain ⟨⟨pol, y⟩, h2, h⟩ := bind_ok h
  obtain ⟨low, h3, h⟩ := bind_ok h
  obtain ⟨high, h4, h⟩ := bind_ok h
  refine ⟨pol, y, low, high, chunks, planeX_eq.1 h2, h3, h4, h1, ?_⟩
  refine foldlM_ok_mem _ _ ?_ _ _ _ h
  intro s chunk s' h
  unfold jacChunkX at h
  obtain ⟨bk, h1, h⟩ := bind_ok h
  obtain ⟨ft, h2, h⟩ := bind_ok h
  obtain ⟨l0, h3, h⟩ := bind_ok h
  obtain ⟨l1, h4, h⟩ := bind_ok h
  obtain ⟨l2, h5, h⟩ := bind_ok h
  obtain ⟨c1, h⟩ := ite_ok h
  obtain ⟨by', h6, h⟩ := bind_ok h
  obtain ⟨c2, h⟩ := ite_ok h
  obtain ⟨c3, h⟩ := ite_ok h
  obtain ⟨m, h7, h⟩ := bind_ok h
  refine ⟨?_, ?_, ⟨_, h6⟩, ⟨_, h7⟩⟩
  · intro yt hyt
    simp only [List.mem_cons, List.not_mem_nil, or_false] at hyt
    rcases hyt with rfl | rfl
    · exact ⟨_, h1⟩
    · exact ⟨_, h2⟩
  · intro k hk
    have : k = 0 ∨ k = 1 ∨ k = 2 := by omega
    rcases this with rfl | rfl | rfl
    · exact ⟨_, h3⟩
    · exact ⟨_, h4⟩
    · exact ⟨_, h5⟩

/-- **C252.** If `make_maps` returns, no call has raised an exception: all planes have the size of the first, and for every plane the tracer
has given the field lines in both directions, `findIndex` of every plane they lead to the indices, and the tracer, `field_line_length`,
`Byfunc` and `metric` what the parallel integrals need.  So an exception in any of these calls is not lost. -/
theorem C252_calls (e : MmEnvX K) (nslice mxg n r nc : ℕ) (empty : JState K) (m : ODict (MapVal K))
    (h : makeMapsX e nslice mxg n r nc empty = .ok m) :
    ∃ first y0, e.grid.getPoloidalGrid ((0 : ℕ) : K) = .ok (some first, y0) ∧ ∀ j < e.grid.ny,
      (∃ pol y, e.grid.getPoloidalGrid (j : K) = .ok (some pol, y) ∧ pol.nx = first.nx ∧ pol.nz = first.nz) ∧
      (∀ dir ∈ [(1 : ℤ), -1], PlaneCalls e first.nx first.nz ((offsetsOf nslice dir : List (PyNum K)).map PyNum.val) j) ∧
      IntegralCalls e first.nx r nc j := by
  unfold makeMapsX at h
  obtain ⟨⟨first, y⟩, h1, h⟩ := bind_ok h
  obtain ⟨R, h2, h⟩ := bind_ok h
  obtain ⟨Z, h3, h⟩ := bind_ok h
  obtain ⟨smp, h4, h⟩ := bind_ok h
  obtain ⟨traced, h5, h⟩ := bind_ok h
  obtain ⟨entries, h6, h⟩ := bind_ok h
  obtain ⟨s, h7, h⟩ := bind_ok h
  refine ⟨first, y, planeX_eq.1 h1, fun j hj => ⟨?_, ?_, ?_⟩⟩
  · refine foldlM_ok_mem _ (fun j : ℕ => ∃ pol y, e.grid.getPoloidalGrid (j : K) = .ok (some pol, y) ∧ pol.nx = first.nx ∧ pol.nz = first.nz) ?_ _ _ _ h2 j
      (List.mem_range.2 hj)
    intro s j s' hs
    unfold planeArray at hs
    obtain ⟨⟨p, yp⟩, k1, k2⟩ := bind_ok hs
    split_ifs at k2 with hc
    exact ⟨p, yp, planeX_eq.1 k1, hc⟩
  · intro dir hdir
    unfold traceAllX at h5
    have hmem : (offsetsOf nslice dir : List (PyNum K)).map PSlice.zero ∈
        [(offsetsOf nslice 1 : List (PyNum K)).map PSlice.zero, (offsetsOf nslice (-1)).map PSlice.zero] := by
      simp only [List.mem_cons, List.not_mem_nil, or_false] at hdir ⊢
      rcases hdir with rfl | rfl
      · exact Or.inl rfl
      · exact Or.inr rfl
    obtain ⟨t, ht⟩ := mapM_foldl_mem _ _ _ _ h5 _ hmem
    have := traceFold_calls e first.nx first.nz smp (n ^ 2) _ _ _ ht j (List.mem_range.2 hj)
    rw [List.map_map] at this
    exact this
  · exact foldlM_ok_mem _ _ (fun s j s' hs => jacPlaneX_calls e first.nx r nc s s' j hs) _ _ _ h7 j (List.mem_range.2 hj)

/-- **C252.** Exceptions are passed on as they are, for example those of the tracer. -/
theorem C252_passed (e : MmEnvX K) (err : Err) (hf : ∀ n m R Z ys, e.follow n m R Z ys = .error err) (nslice mxg n r nc : ℕ) (empty : JState K)
    (hl : e.grid.polGrids.length = e.grid.ycoords.length) (hpos : 0 < e.grid.ny)
    (hsize : ∀ p ∈ e.grid.polGrids, ∀ q ∈ e.grid.polGrids, p.nx = q.nx ∧ p.nz = q.nz) (hn : ¬ 1 < n) (ht : ∀ o ∈ (offsetsOf nslice 1 : List (PyNum K)),
      ∃ t, e.grid.getPoloidalGrid (((0 : ℕ) : K) + o.val) = .ok t) :
    makeMapsX e nslice mxg n r nc empty = .error err := by
  have hpl : ∀ j < e.grid.ny, ∃ p ∈ e.grid.polGrids, ∃ y, e.plane j = .ok (p, y) := by
    intro j hj
    have hj' : j < e.grid.ycoords.length := hj
    refine ⟨e.grid.polGrids[j]'(by omega), List.getElem_mem _, e.grid.ycoords[j], planeX_eq.2 ?_⟩
    exact grid_inside e.grid hl j hj'
  obtain ⟨first, hfirst, y, h0⟩ := hpl 0 hpos
  have hga : ∀ f, ∃ a, gridArrayX e first.nx first.nz f = .ok a := by
    intro f
    unfold gridArrayX
    have : ∀ (l : List ℕ), (∀ j ∈ l, j < e.grid.ny) → ∀ a, ∃ b, l.foldlM (planeArray e first.nx first.nz f) a = .ok b := by
      intro l
      induction l with
      | nil => intro _ a; exact ⟨a, rfl⟩
      | cons j l ih =>
        intro hl a
        obtain ⟨p, hp, yp, hjp⟩ := hpl j (hl j (by simp))
        rw [List.foldlM_cons]
        have : planeArray e first.nx first.nz f a j = .ok (setSlice a j (f p)) := by
          unfold planeArray
          rw [hjp]
          simp only [Except.bind]
          rw [if_pos (hsize p hp first hfirst)]
        rw [this]
        exact ih (fun k hk => hl k (by simp [hk])) _
    exact this _ (fun j hj => List.mem_range.1 hj) _
  obtain ⟨R, hR⟩ := hga (·.R)
  obtain ⟨Z, hZ⟩ := hga (·.Z)
  have hs : samplesX e n = .ok none := by unfold samplesX; rw [if_neg hn]
  have hts : ∀ l : List (PSlice K), (∀ ps ∈ l, ∃ t, e.grid.getPoloidalGrid (((0 : ℕ) : K) + ps.offset.val) = .ok t) →
      ∃ ts, (l.mapM fun ps => e.grid.getPoloidalGrid (((0 : ℕ) : K) + ps.offset.val)) = .ok ts := by
    intro l
    induction l with
    | nil => intro _; exact ⟨[], rfl⟩
    | cons a l ih =>
      intro h
      obtain ⟨t, ht⟩ := h a (by simp)
      obtain ⟨ts, hts⟩ := ih fun p hp => h p (by simp [hp])
      refine ⟨t :: ts, ?_⟩
      rw [List.mapM_cons, ht, hts]
      rfl
  obtain ⟨ts, hts⟩ := hts ((offsetsOf nslice 1).map PSlice.zero) (by
    intro ps hps
    obtain ⟨o, ho, rfl⟩ := List.mem_map.1 hps
    exact ht o ho)
  have htr : tracePlaneX e first.nx first.nz none (n ^ 2) ((offsetsOf nslice 1).map PSlice.zero) 0 = .error err := by
    unfold tracePlaneX
    rw [h0]
    simp only [Except.bind]
    rw [hts]
    simp only [hf]
  obtain ⟨k, hk⟩ : ∃ k, e.grid.ny = k + 1 := ⟨e.grid.ny - 1, by omega⟩
  have hall : traceAllX e first.nx first.nz none (n ^ 2)
      [(offsetsOf nslice 1).map PSlice.zero, (offsetsOf nslice (-1)).map PSlice.zero] = .error err := by
    unfold traceAllX
    rw [List.mapM_cons, hk, List.range_succ_eq_map, List.foldlM_cons, htr]
    rfl
  unfold makeMapsX
  rw [h0]
  simp only [Except.bind]
  rw [hR]
  simp only
  rw [hZ]
  simp only [hs, hall]

/-! ### C253 -/

/-- Everything but `field_line_length` works. -/
structure Works (e : MmEnvX K) (nx nz : ℕ) : Prop where
  length : e.grid.polGrids.length = e.grid.ycoords.length
  pos : 0 < e.grid.ycoords.length
  sizes : ∀ p ∈ e.grid.polGrids, p.nx = nx ∧ p.nz = nz
  follow : ∀ n m R Z ys, ∃ l, e.follow n m R Z ys = .ok l ∧ l.length = ys.length
  find : ∀ p ∈ e.grid.polGrids, ∀ R Z, ∃ f, p.findIndex nx nz R Z = .ok f
  metric : ∀ p ∈ e.grid.polGrids, ∃ m a b c, p.metric = .ok m ∧ m "g_xx" = some a ∧ m "g_zz" = some b ∧ m "g_xz" = some c
  byfunc : ∃ f, e.byfunc = .ok f

/-- `field_line_length` needs increasing values of `y`. -/
def SplineLength (e : MmEnvX K) : Prop := ∀ ys, (∃ f, e.lineLength ys = .ok f) ↔ 2 ≤ ys.length ∧ ys.Pairwise (· < ·)

theorem ysAround_length (r : ℕ) (y yl yh : K) : (ysAround r y yl yh).length = 4 * r + 1 := by
  unfold ysAround
  simp only [List.length_append, List.length_reverse, List.length_drop, length_linspaceClosed]
  omega

theorem ysAround_getElem (r : ℕ) (hr : 1 ≤ r) (y yl yh : K) (i : ℕ) (hi : i < (ysAround r y yl yh).length) :
    (ysAround r y yl yh)[i] = if i ≤ 2 * r then y + ((2 * r - i : ℕ) : K) * ((yl - y) / (2 * (r : K))) else y + ((i - 2 * r : ℕ) : K) * ((yh - y) / (2 * (r : K))) := by
  rw [ysAround_length] at hi
  unfold ysAround
  simp only [linspaceClosed_eq y _ r hr]
  rw [List.getElem_append]
  simp only [List.length_reverse, List.length_map, List.length_range, List.getElem_reverse, List.getElem_map, List.getElem_range, List.getElem_drop]
  by_cases h : i ≤ 2 * r
  · rw [dif_pos (by omega), if_pos h]
    have : 2 * r + 1 - 1 - i = 2 * r - i := by omega
    rw [this]
  · rw [dif_neg (by omega), if_neg h]
    have : 1 + (i - (2 * r + 1)) = i - 2 * r := by omega
    rw [this]

theorem window_eq (r k : ℕ) (hr : 1 ≤ r) (hk : k < 3) (l : List K) (hl : l.length = 4 * r + 1) :
    lengthWindow r k l = (l.drop (r * k)).take (2 * r + 1) := by
  have : k = 0 ∨ k = 1 ∨ k = 2 := by omega
  unfold lengthWindow
  rcases this with rfl | rfl | rfl
  · rw [if_pos (by norm_num), pySlice_neg _ _ _ (by omega), hl]
    congr 1
    omega
  · rw [if_pos (by norm_num), pySlice_neg _ _ _ (by omega), hl]
    congr 1
    omega
  · rw [if_neg (by norm_num)]
    unfold pySlice
    simp only [hl]
    congr 1
    omega

/-- The three windows are increasing exactly if the plane lies between its neighbours. -/
theorem windows_increasing (r : ℕ) (hr : 1 ≤ r) (y yl yh : K) :
    (∀ k < 3, 2 ≤ (lengthWindow r k (ysAround r y yl yh)).length ∧ (lengthWindow r k (ysAround r y yl yh)).Pairwise (· < ·)) ↔ yl < y ∧ y < yh := by
  have hlen := ysAround_length r y yl yh
  have hrK : (0 : K) < 2 * (r : K) := by
    have : (1 : K) ≤ r := by exact_mod_cast hr
    linarith
  constructor
  · intro h
    constructor
    · have h0 := (h 0 (by norm_num)).2
      rw [window_eq r 0 hr (by norm_num) _ hlen, List.pairwise_iff_getElem] at h0
      have := h0 0 (2 * r) (by simp [hlen]) (by simp [hlen]) (by omega)
      simp only [List.getElem_take, List.getElem_drop, ysAround_getElem r hr] at this
      rw [if_pos (by omega), if_pos (by omega)] at this
      have e1 : 2 * r - (r * 0 + 0) = 2 * r := by omega
      have e2 : 2 * r - (r * 0 + 2 * r) = 0 := by omega
      rw [e1, e2] at this
      push_cast at this
      rw [mul_div_cancel₀ _ hrK.ne'] at this
      linarith
    · have h0 := (h 2 (by norm_num)).2
      rw [window_eq r 2 hr (by norm_num) _ hlen, List.pairwise_iff_getElem] at h0
      have := h0 0 (2 * r) (by simp [hlen]; omega) (by simp [hlen]; omega) (by omega)
      simp only [List.getElem_take, List.getElem_drop, ysAround_getElem r hr] at this
      rw [if_pos (by omega), if_neg (by omega)] at this
      have e1 : 2 * r - (r * 2 + 0) = 0 := by omega
      have e2 : r * 2 + 2 * r - 2 * r = 2 * r := by omega
      rw [e1, e2] at this
      push_cast at this
      rw [mul_div_cancel₀ _ hrK.ne'] at this
      linarith
  · rintro ⟨h1, h2⟩ k hk
    rw [window_eq r k hr hk _ hlen]
    refine ⟨?_, ?_⟩
    · rw [List.length_take, List.length_drop, hlen]
      have : r * k ≤ r * 2 := Nat.mul_le_mul_left r (by omega)
      omega
    · refine List.Pairwise.sublist ((List.take_sublist _ _).trans (List.drop_sublist _ _)) ?_
      rw [List.pairwise_iff_getElem]
      intro i j hi hj hij
      rw [ysAround_getElem r hr, ysAround_getElem r hr]
      have d1 : (yl - y) / (2 * (r : K)) < 0 := div_neg_of_neg_of_pos (by linarith) hrK
      have d2 : 0 < (yh - y) / (2 * (r : K)) := div_pos (by linarith) hrK
      split_ifs with c1 c2 c2
      · have : ((2 * r - j : ℕ) : K) < ((2 * r - i : ℕ) : K) := by exact_mod_cast (by omega : 2 * r - j < 2 * r - i)
        have := mul_lt_mul_of_neg_right this d1
        linarith
      · have a1 : ((2 * r - i : ℕ) : K) * ((yl - y) / (2 * (r : K))) ≤ 0 := mul_nonpos_of_nonneg_of_nonpos (Nat.cast_nonneg _) d1.le
        have a2 : (0 : K) < ((j - 2 * r : ℕ) : K) * ((yh - y) / (2 * (r : K))) := mul_pos (by exact_mod_cast (by omega : 0 < j - 2 * r)) d2
        linarith
      · omega
      · have : ((i - 2 * r : ℕ) : K) < ((j - 2 * r : ℕ) : K) := by exact_mod_cast (by omega : i - 2 * r < j - 2 * r)
        have := mul_lt_mul_of_pos_right this d2
        linarith

/-! ### Success -/

theorem storeAllX_succeeds (e : MmEnvX K) (nx nz j : ℕ) (y : K) : ∀ (pss : List (PSlice K)) (cs : List (ℕ → ℕ → K × K)) (ts : List (Option (MapPolX K))),
    cs.length = pss.length → ts.length = pss.length → (∀ p, some p ∈ ts → ∀ R Z, ∃ f, p.findIndex nx nz R Z = .ok f) →
    ∃ o, storeAllX e nx nz j y pss cs ts = .ok o ∧ (pss ≠ [] → ∃ a ps ind t b, o = some (a, (ps, ind, t), b) ∧ t ∈ ts) := by
  intro pss
  induction pss with
  | nil => intro cs ts _ _ _; exact ⟨none, rfl, fun h => absurd rfl h⟩
  | cons ps pss ih =>
    intro cs ts hc ht hf
    cases cs with
    | nil => cases hc
    | cons c cs =>
      cases ts with
      | nil => cases ht
      | cons t ts =>
        obtain ⟨o, ho, ho'⟩ := ih cs ts (by simpa using hc) (by simpa using ht) fun p hp => hf p (by simp [hp])
        have h1 : ∃ r, storeSliceX e nx nz j y ps c t = .ok r := by
          unfold storeSliceX
          cases t with
          | none => exact ⟨_, rfl⟩
          | some p =>
            obtain ⟨f, hf'⟩ := hf p (by simp) (fun x z => (c x z).1) (fun x z => (c x z).2)
            simp only [indicesX, hf', Except.map]
            exact ⟨_, rfl⟩
        obtain ⟨r, hr⟩ := h1
        rw [storeAllX, hr]
        simp only [Except.bind, ho, Except.map]
        refine ⟨_, rfl, fun _ => ?_⟩
        cases o with
        | none => exact ⟨_, _, _, _, _, rfl, by simp⟩
        | some q =>
          obtain ⟨a, ⟨ps', ind, t'⟩, b⟩ := q
          by_cases hp : pss = []
          · subst hp; rw [storeAllX] at ho; cases ho; simp
          · obtain ⟨a', ps'', ind', t'', b', hq, hm⟩ := ho' hp
            cases hq
            exact ⟨_, _, _, _, _, rfl, by simp [hm]⟩

theorem storeSamplesX_succeeds (e : MmEnvX K) (nx nz : ℕ) (w : Works e nx nz) (smp : Option (List (K × K × K))) (ns : ℕ)
    (hs : ns ≠ 1 → ∃ l, smp = some l) (j : ℕ) (pol : MapPolX K) (yc ys : K) (ps : PSlice K) (ind : ℕ → ℕ → K × K)
    (t : Option (MapPolX K)) (ht : ∀ p, t = some p → p ∈ e.grid.polGrids) : ∃ ps', storeSamplesX e nx nz smp ns j pol yc ys ps ind t = .ok ps' := by
  unfold storeSamplesX
  by_cases h : ns = 1
  · rw [if_pos h]; exact ⟨_, rfl⟩
  · rw [if_neg h]
    obtain ⟨l, rfl⟩ := hs h
    cases t with
    | none => exact ⟨_, rfl⟩
    | some tp =>
      simp only
      have : ∀ (l : List ((K × K × K) × ℕ)) (ps : PSlice K), ∃ ps', l.foldlM (storeSample e nx nz j pol tp yc ys) ps = .ok ps' := by
        intro l
        induction l with
        | nil => intro ps; exact ⟨ps, rfl⟩
        | cons p l ih =>
          intro ps
          obtain ⟨cs, h1, h2⟩ := w.follow nx nz (sampleStartX pol nx nz p.1.1 p.1.2.1).1 (sampleStartX pol nx nz p.1.1 p.1.2.1).2 [yc, ys]
          obtain ⟨c, hc⟩ : ∃ c, cs[1]? = some c := ⟨_, List.getElem?_eq_getElem (by rw [h2]; simp)⟩
          obtain ⟨f, hf⟩ := w.find tp (ht tp rfl) (fun x z => (c x z).1) (fun x z => (c x z).2)
          have : ∃ q, storeSample e nx nz j pol tp yc ys ps p = .ok q := by
            unfold storeSample
            simp only [h1, Except.bind, hc, indicesX, hf, Except.map]
            exact ⟨_, rfl⟩
          obtain ⟨q, hq⟩ := this
          rw [List.foldlM_cons, hq]
          exact ih q
      exact this _ ps

theorem total_gridOk (e : MmEnvX K) (nx nz : ℕ) (w : Works e nx nz) (d : MmDefault K) : GridOk (e.total d nx nz) where
  length := by
    change (e.grid.polGrids.map _).length = _
    rw [List.length_map]
    exact w.length
  pos := w.pos
  perp := by
    intro p hp
    change p ∈ e.grid.polGrids.map _ at hp
    obtain ⟨q, hq, rfl⟩ := List.mem_map.1 hp
    obtain ⟨m, a, b, c, hm, ha, hb, hc⟩ := w.metric q hq
    have : (q.total d nx nz).metric = m := by simp [MapPolX.total, hm, orDefault]
    unfold HasPerp
    rw [this]
    exact ⟨a, b, c, ha, hb, hc⟩

def someDefault : MmDefault K := ⟨fun _ _ _ _ _ => [], fun _ _ _ _ => (0, 0), fun _ _ _ => 0, fun _ _ => 0, fun _ => none⟩

theorem targetX_ok (e : MmEnvX K) (nx nz : ℕ) (w : Works e nx nz) (j : ℕ) (o : PyNum K) (ho : SliceOffset o) :
    ∃ t, e.grid.getPoloidalGrid ((j : K) + o.val) = .ok t := by
  obtain ⟨t, ht⟩ := target_ok (e.total someDefault nx nz) (total_gridOk e nx nz w _) j o ho
  have hg : (e.total someDefault nx nz).grid = e.grid.mapPol (MapPolX.total someDefault nx nz) := rfl
  rw [hg, mapPol_get] at ht
  obtain ⟨a, ha, -⟩ := map_ok ht
  exact ⟨a, ha⟩

theorem planeX_ok (e : MmEnvX K) (nx nz : ℕ) (w : Works e nx nz) (j : ℕ) (hj : j < e.grid.ny) :
    ∃ p ∈ e.grid.polGrids, e.plane j = .ok (p, e.grid.ycoords.getD j 0) := by
  have hj' : j < e.grid.ycoords.length := hj
  refine ⟨e.grid.polGrids[j]'(by have := w.length; omega), List.getElem_mem _, planeX_eq.2 ?_⟩
  rw [List.getD_eq_getElem _ _ hj']
  exact grid_inside e.grid w.length j hj'

theorem tracePlaneX_succeeds (e : MmEnvX K) (nx nz : ℕ) (w : Works e nx nz) (smp : Option (List (K × K × K))) (ns : ℕ)
    (hs : ns ≠ 1 → ∃ l, smp = some l) (pss : List (PSlice K)) (hne : pss ≠ []) (ho : ∀ ps ∈ pss, SliceOffset ps.offset) (j : ℕ)
    (hj : j < e.grid.ny) : ∃ L, tracePlaneX e nx nz smp ns pss j = .ok L := by
  obtain ⟨pol, -, h1⟩ := planeX_ok e nx nz w j hj
  obtain ⟨ts, h2⟩ := mapM_ok (f := fun ps : PSlice K => e.grid.getPoloidalGrid ((j : K) + ps.offset.val)) pss
    fun ps hps => targetX_ok e nx nz w j _ (ho ps hps)
  have hlt : ts.length = pss.length := mapM_length h2
  have hmem : ∀ p, some p ∈ ts.map (·.1) → p ∈ e.grid.polGrids := by
    intro p hp
    obtain ⟨⟨q, yq⟩, hq, hq'⟩ := List.mem_map.1 hp
    simp only at hq'
    subst hq'
    obtain ⟨i, hi, hi'⟩ := List.getElem_of_mem hq
    obtain ⟨b, hb1, hb2⟩ := mapM_getElem? h2 i _ (List.getElem?_eq_getElem (by omega : i < pss.length))
    rw [List.getElem?_eq_getElem hi, hi'] at hb1
    injection hb1 with hb1
    subst hb1
    exact getPoloidalGrid_mem e.grid _ p yq hb2
  obtain ⟨cs, h3, h3'⟩ := w.follow nx nz pol.R pol.Z (e.grid.ycoords.getD j 0 :: ts.map (·.2))
  obtain ⟨o, h4, h4'⟩ := storeAllX_succeeds e nx nz j ((ts.map (·.2)).getLastD (e.grid.ycoords.getD j 0)) pss (cs.drop 1) (ts.map (·.1))
    (by rw [List.length_drop, h3']; simp [hlt]) (by simp [hlt]) fun p hp R Z => w.find p (hmem p hp) R Z
  obtain ⟨a, ps, ind, t, b, rfl, ht⟩ := h4' hne
  obtain ⟨ps', h5⟩ := storeSamplesX_succeeds e nx nz w smp ns hs j pol (e.grid.ycoords.getD j 0) ((ts.map (·.2)).getLastD (e.grid.ycoords.getD j 0))
    ps ind t (by rintro p rfl; exact hmem p ht)
  refine ⟨a ++ ps' :: b, ?_⟩
  unfold tracePlaneX
  rw [h1]
  simp only [Except.bind]
  rw [h2]
  simp only [h3, h4, h5, Except.map]

theorem traceFold_succeeds (e : MmEnvX K) (nx nz : ℕ) (w : Works e nx nz) (smp : Option (List (K × K × K))) (ns : ℕ)
    (hs : ns ≠ 1 → ∃ l, smp = some l) : ∀ (l : List ℕ) (pss : List (PSlice K)), (∀ j ∈ l, j < e.grid.ny) → pss ≠ [] →
    (∀ ps ∈ pss, SliceOffset ps.offset) →
    ∃ L, l.foldlM (tracePlaneX e nx nz smp ns) pss = .ok L ∧ L.map (·.offset) = pss.map (·.offset) := by
  intro l
  induction l with
  | nil => intro pss _ _ _; exact ⟨pss, rfl, rfl⟩
  | cons j l ih =>
    intro pss hl hne ho
    obtain ⟨L, hL⟩ := tracePlaneX_succeeds e nx nz w smp ns hs pss hne ho j (hl j (by simp))
    have hoff := (tracePlaneX_calls _ _ _ _ _ _ _ _ hL).1
    have hne' : L ≠ [] := by
      rintro rfl
      exact hne (List.map_eq_nil_iff.1 hoff.symm)
    obtain ⟨L', hL', hoff'⟩ := ih L (fun k hk => hl k (by simp [hk])) hne' (by
      intro ps hps
      have : ps.offset ∈ pss.map (·.offset) := by rw [← hoff]; exact List.mem_map.2 ⟨ps, hps, rfl⟩
      obtain ⟨q, hq, hq'⟩ := List.mem_map.1 this
      rw [← hq']
      exact ho q hq)
    exact ⟨L', by rw [List.foldlM_cons, hL]; exact hL', hoff'.trans hoff⟩

theorem gridArrayX_succeeds (e : MmEnvX K) (nx nz : ℕ) (w : Works e nx nz) (f : MapPolX K → ℕ → ℕ → K) : ∃ a, gridArrayX e nx nz f = .ok a := by
  unfold gridArrayX
  have : ∀ (l : List ℕ), (∀ j ∈ l, j < e.grid.ny) → ∀ a, ∃ b, l.foldlM (planeArray e nx nz f) a = .ok b := by
    intro l
    induction l with
    | nil => intro _ a; exact ⟨a, rfl⟩
    | cons j l ih =>
      intro hl a
      obtain ⟨p, hp, hjp⟩ := planeX_ok e nx nz w j (hl j (by simp))
      rw [List.foldlM_cons]
      have : planeArray e nx nz f a j = .ok (setSlice a j (f p)) := by
        unfold planeArray
        rw [hjp]
        simp only [Except.bind]
        rw [if_pos (w.sizes p hp)]
      rw [this]
      exact ih (fun k hk => hl k (by simp [hk])) _
  exact this _ (fun j hj => List.mem_range.1 hj) _

theorem jacChunkX_succeeds (e : MmEnvX K) (nx nz : ℕ) (w : Works e nx nz) (r : ℕ) (hr : 1 ≤ r) (j : ℕ) (pol : MapPolX K) (hp : pol ∈ e.grid.polGrids)
    (y yl yh : K) (hl : ∀ k < 3, ∃ f, e.lineLength (lengthWindow r k (ysAround r y yl yh)) = .ok f) (s : JState K) (chunk : List ℕ) :
    ∃ s', jacChunkX e r j pol y yl yh s chunk = .ok s' := by
  obtain ⟨bk, h1, h1'⟩ := w.follow chunk.length pol.nz (fun i z => pol.R (chunk.getD i 0) z) (fun i z => pol.Z (chunk.getD i 0) z) (linspaceClosed y yl (r * 2 + 1))
  obtain ⟨ft, h2, h2'⟩ := w.follow chunk.length pol.nz (fun i z => pol.R (chunk.getD i 0) z) (fun i z => pol.Z (chunk.getD i 0) z) (linspaceClosed y yh (r * 2 + 1))
  obtain ⟨f0, g0⟩ := hl 0 (by norm_num)
  obtain ⟨f1, g1⟩ := hl 1 (by norm_num)
  obtain ⟨f2, g2⟩ := hl 2 (by norm_num)
  obtain ⟨by', hb⟩ := w.byfunc
  obtain ⟨m, a, b, c, hm, ha, hb', hc⟩ := w.metric pol hp
  have l1 : (bk.reverse ++ ft.drop 1).length = 4 * r + 1 := by
    rw [List.length_append, List.length_reverse, List.length_drop, h1', h2', length_linspaceClosed, length_linspaceClosed]
    omega
  have l2 := ysAround_length r y yl yh
  have w1 := length_window _ r hr l1
  have w2 := length_window _ r hr l2
  unfold ysAround at g0 g1 g2 w2
  have hmin : min (2 * r + 1) (2 * r + 1) = 2 * r + 1 := min_self _
  have hj : ∃ v, jPerpX e m 0 0 = .ok v := by
    unfold jPerpX
    have e1 : m.get "g_xx" = .ok a := by unfold Dict.get; rw [ha]
    have e2 : m.get "g_zz" = .ok b := by unfold Dict.get; rw [hb']
    have e3 : m.get "g_xz" = .ok c := by unfold Dict.get; rw [hc]
    rw [e1, e2, e3]
    exact ⟨_, rfl⟩
  obtain ⟨v, hv⟩ := hj
  unfold jacChunkX
  simp only [h1, h2, Except.bind, g0, g1, g2, w1, w2, hmin, hb, hm, hv]
  rw [if_neg (by omega), if_neg (by omega), if_neg (by omega), if_neg (by omega)]
  exact ⟨_, rfl⟩

theorem chunksX_succeed (e : MmEnvX K) (nx nz : ℕ) (w : Works e nx nz) (r : ℕ) (hr : 1 ≤ r) (j : ℕ) (pol : MapPolX K) (hp : pol ∈ e.grid.polGrids)
    (y yl yh : K) (hl : ∀ k < 3, ∃ f, e.lineLength (lengthWindow r k (ysAround r y yl yh)) = .ok f) : ∀ (chunks : List (List ℕ)) (s : JState K),
    ∃ s', chunks.foldlM (jacChunkX e r j pol y yl yh) s = .ok s' := by
  intro chunks
  induction chunks with
  | nil => intro s; exact ⟨s, rfl⟩
  | cons ch cl ih =>
    intro s
    obtain ⟨s', hs'⟩ := jacChunkX_succeeds e nx nz w r hr j pol hp y yl yh hl s ch
    rw [List.foldlM_cons, hs']
    exact ih s'

/-- The lengths can be computed in plane `j`. -/
def LengthsOk (e : MmEnvX K) (r j : ℕ) : Prop :=
  ∀ low high, e.grid.getPoloidalGrid ((j : K) + -1) = .ok low → e.grid.getPoloidalGrid ((j : K) + 1) = .ok high →
    ∀ k < 3, ∃ f, e.lineLength (lengthWindow r k (ysAround r (e.grid.ycoords.getD j 0) low.2 high.2)) = .ok f

theorem jacPlaneX_succeeds (e : MmEnvX K) (nx nz : ℕ) (w : Works e nx nz) (r nc : ℕ) (hr : 1 ≤ r) (hc : 1 ≤ nc) (j : ℕ) (hj : j < e.grid.ny)
    (hl : LengthsOk e r j) (s : JState K) : ∃ s', jacPlaneX e nx r nc s j = .ok s' := by
  obtain ⟨pol, hpm, h1⟩ := planeX_ok e nx nz w j hj
  obtain ⟨p1, yl, h2⟩ := getPoloidalGrid_int_ok e.grid w.length w.pos ((j : ℤ) + -1)
  obtain ⟨p2, yh, h3⟩ := getPoloidalGrid_int_ok e.grid w.length w.pos ((j : ℤ) + 1)
  push_cast at h2 h3
  obtain ⟨chunks, h4, _, h5⟩ := arraySplit_flatten (List.range nx) nc hc
  have hlk := hl (p1, yl) (p2, yh) h2 h3
  obtain ⟨s', hs'⟩ := chunksX_succeed e nx nz w r hr j pol hpm (e.grid.ycoords.getD j 0) yl yh hlk chunks s
  refine ⟨s', ?_⟩
  unfold jacPlaneX
  rw [h4]
  simp only [Except.bind]
  rw [h1]
  simp only
  rw [h2]
  simp only
  rw [h3]
  exact hs'

theorem jacAllX_succeeds (e : MmEnvX K) (nx nz : ℕ) (w : Works e nx nz) (r nc : ℕ) (hr : 1 ≤ r) (hc : 1 ≤ nc) (empty : JState K)
    (hl : ∀ j < e.grid.ny, LengthsOk e r j) : ∃ s, jacAllX e nx r nc empty = .ok s := by
  unfold jacAllX
  have : ∀ (l : List ℕ), (∀ j ∈ l, j < e.grid.ny) → ∀ s, ∃ s', l.foldlM (jacPlaneX e nx r nc) s = .ok s' := by
    intro l
    induction l with
    | nil => intro _ s; exact ⟨s, rfl⟩
    | cons j l ih =>
      intro hlt s
      obtain ⟨s', hs'⟩ := jacPlaneX_succeeds e nx nz w r nc hr hc j (hlt j (by simp)) (hl j (hlt j (by simp))) s
      rw [List.foldlM_cons, hs']
      exact ih (fun k hk => hlt k (by simp [hk])) s'
  exact this _ (fun j hj => List.mem_range.1 hj) empty

/-- Everything that works: `make_maps` returns. -/
theorem makeMapsX_succeeds (e : MmEnvX K) (nx nz : ℕ) (w : Works e nx nz) (nslice mxg n r nc : ℕ) (hn : 1 ≤ n)
    (hgs : 1 < n → ((e.gauss n).map (·.2)).sum = 2) (hr : 1 ≤ r) (hc : 1 ≤ nc) (empty : JState K)
    (hl : ∀ j < e.grid.ny, LengthsOk e r j) :
    ∃ m, makeMapsX e nslice mxg n r nc empty = .ok m := by
  obtain ⟨first, hfm, h0⟩ := planeX_ok e nx nz w 0 w.pos
  obtain ⟨s1, s2⟩ := w.sizes first hfm
  obtain ⟨R, hR⟩ := gridArrayX_succeeds e nx nz w (·.R)
  obtain ⟨Z, hZ⟩ := gridArrayX_succeeds e nx nz w (·.Z)
  obtain ⟨smp, h4, hs⟩ := samples_ok (e.total someDefault nx nz) n hn hgs
  rw [samples_total] at h4
  have hrange : ∀ j ∈ List.range e.grid.ny, j < e.grid.ny := fun j hj => List.mem_range.1 hj
  have hdir : ∀ dir : ℤ, dir = 1 ∨ dir = -1 → ∃ L, (List.range e.grid.ny).foldlM (tracePlaneX e nx nz smp (n ^ 2)) ((offsetsOf nslice dir).map PSlice.zero) = .ok L ∧
      ∀ ps ∈ L, SliceOffset ps.offset := by
    intro dir hdir
    have hso := offsetsOf_slice (K := K) nslice dir hdir
    have hz : ∀ ps ∈ (offsetsOf nslice dir : List (PyNum K)).map PSlice.zero, SliceOffset ps.offset := by
      intro ps hps
      obtain ⟨o, ho, rfl⟩ := List.mem_map.1 hps
      exact hso o ho
    obtain ⟨L, h1, h2⟩ := traceFold_succeeds e nx nz w smp (n ^ 2) hs (List.range e.grid.ny) ((offsetsOf nslice dir).map PSlice.zero) hrange
      (by simp [offsetsOf]) hz
    refine ⟨L, h1, fun ps hps => ?_⟩
    have : ps.offset ∈ ((offsetsOf nslice dir : List (PyNum K)).map PSlice.zero).map (·.offset) := by rw [← h2]; exact List.mem_map.2 ⟨ps, hps, rfl⟩
    obtain ⟨q, hq, hq'⟩ := List.mem_map.1 this
    rw [← hq']
    exact hz q hq
  obtain ⟨A, hA, hA'⟩ := hdir 1 (Or.inl rfl)
  obtain ⟨B, hB, hB'⟩ := hdir (-1) (Or.inr rfl)
  have hent := sliceEntries_all (e.total someDefault nx nz) (A ++ B) (by
    intro ps hps
    rcases List.mem_append.1 hps with h | h
    · exact hA' ps h
    · exact hB' ps h)
  obtain ⟨s, hs'⟩ := jacAllX_succeeds e nx nz w r nc hr hc empty hl
  unfold makeMapsX
  rw [h0]
  simp only [Except.bind, s1, s2]
  rw [hR]
  simp only
  rw [hZ]
  simp only [h4, traceAllX, List.mapM_cons, List.mapM_nil, bind, Except.bind, pure, Except.pure]
  rw [hA]
  simp only
  rw [hB]
  simp only [List.flatten_cons, List.flatten_nil, List.append_nil]
  have hent' : (A ++ B).mapM (sliceEntriesX e.repr) = .ok _ := hent
  rw [hent']
  simp only
  rw [hs']
  exact ⟨_, rfl⟩

/-- **C252.** If the tracer, `findIndex`, `metric` and `Byfunc` work, all planes have the same size, and the lengths can be computed,
`make_maps` returns; and these lengths are needed. -/
theorem C252_returns (e : MmEnvX K) (nx nz : ℕ) (w : Works e nx nz) (nslice mxg n r nc : ℕ) (hn : 1 ≤ n)
    (hgs : 1 < n → ((e.gauss n).map (·.2)).sum = 2) (hr : 1 ≤ r) (hc : 1 ≤ nc) (empty : JState K) :
    (∃ m, makeMapsX e nslice mxg n r nc empty = .ok m) ↔ ∀ j < e.grid.ny, LengthsOk e r j := by
  refine ⟨?_, fun hl => makeMapsX_succeeds e nx nz w nslice mxg n r nc hn hgs hr hc empty hl⟩
  rintro ⟨m, h⟩ j hj low high hlow hhigh k hk
  obtain ⟨first, y0, -, hall⟩ := C252_calls e nslice mxg n r nc empty m h
  obtain ⟨-, -, pol, y, low', high', chunks, k1, k2, k3, k4, k5⟩ := hall j hj
  rw [hlow] at k2
  rw [hhigh] at k3
  cases k2
  cases k3
  have hy : y = e.grid.ycoords.getD j 0 := by
    have hj' : j < e.grid.ycoords.length := hj
    rw [grid_inside e.grid w.length j hj'] at k1
    rw [List.getD_eq_getElem _ _ hj']
    cases k1
    rfl
  obtain ⟨chunks', c1, c2, -⟩ := arraySplit_flatten (List.range first.nx) nc hc
  rw [k4] at c1
  cases c1
  have hne : chunks ≠ [] := by
    rintro rfl
    simp at c2
    omega
  obtain ⟨ch, hch⟩ := List.exists_mem_of_ne_nil _ hne
  have := (k5 ch hch).2.1 k hk
  rwa [hy] at this

/-- **C253.** `make_maps` returns exactly if every plane lies between its neighbours, as `getPoloidalGrid` gives their `y`. -/
theorem C253_iff (e : MmEnvX K) (nx nz : ℕ) (w : Works e nx nz) (sp : SplineLength e) (nslice mxg n r nc : ℕ) (hn : 1 ≤ n)
    (hgs : 1 < n → ((e.gauss n).map (·.2)).sum = 2) (hr : 1 ≤ r) (hc : 1 ≤ nc) (empty : JState K) :
    (∃ m, makeMapsX e nslice mxg n r nc empty = .ok m) ↔ ∀ j < e.grid.ny, ∀ low high, e.grid.getPoloidalGrid ((j : K) + -1) = .ok low →
      e.grid.getPoloidalGrid ((j : K) + 1) = .ok high → low.2 < e.grid.ycoords.getD j 0 ∧ e.grid.ycoords.getD j 0 < high.2 := by
  rw [C252_returns e nx nz w nslice mxg n r nc hn hgs hr hc empty]
  refine forall_congr' fun j => forall_congr' fun _ => forall_congr' fun low => forall_congr' fun high => forall_congr' fun _ => forall_congr' fun _ => ?_
  rw [← windows_increasing r hr]
  exact forall_congr' fun k => forall_congr' fun _ => sp _

theorem getD_lt_of_pairwise {l : List K} (h : l.Pairwise (· < ·)) {i j : ℕ} (hij : i < j) (hj : j < l.length) : l.getD i 0 < l.getD j 0 := by
  rw [List.getD_eq_getElem _ _ (by omega), List.getD_eq_getElem _ _ hj]
  exact List.pairwise_iff_getElem.1 h i j (by omega) hj hij

theorem grid_inside' {G : Type} (g : Grid G K) (hl : g.polGrids.length = g.ycoords.length) (j : ℕ) (hj : j < g.ycoords.length) :
    ∃ p, g.getPoloidalGrid (j : K) = .ok (p, g.ycoords.getD j 0) :=
  ⟨_, by rw [List.getD_eq_getElem _ _ hj]; exact grid_inside g hl j hj⟩

/-- The `y` coordinates of the neighbours of a plane. -/
theorem neighbours {G : Type} (g : Grid G K) (hl : g.polGrids.length = g.ycoords.length) (j : ℕ) (hj : j < g.ycoords.length) :
    (∃ p, g.getPoloidalGrid ((j : K) + -1) = .ok (p, if 0 < j then g.ycoords.getD (j - 1) 0 else if g.yperiodic = true then
      g.ycoords.getD (g.ycoords.length - 1) 0 - g.Ly else 0)) ∧
    ∃ p, g.getPoloidalGrid ((j : K) + 1) = .ok (p, if j + 1 < g.ycoords.length then g.ycoords.getD (j + 1) 0 else if g.yperiodic = true then
      g.ycoords.getD 0 0 + g.Ly else g.Ly) := by
  constructor
  · by_cases h : 0 < j
    · rw [if_pos h]
      obtain ⟨p, hp⟩ := grid_inside' g hl (j - 1) (by omega)
      refine ⟨p, ?_⟩
      rw [← hp]
      congr 1
      have : j = j - 1 + 1 := by omega
      conv_lhs => rw [this]
      push_cast
      ring
    · rw [if_neg h]
      have hj0 : j = 0 := by omega
      subst hj0
      by_cases hper : g.yperiodic = true
      · rw [if_pos hper]
        have := Grid.getInt_periodic g hl (by omega) hper (g.ycoords.length - 1) (by omega) (-1)
        have e1 : (((((g.ycoords.length - 1 : ℕ) : ℤ) + -1 * (g.ycoords.length : ℤ)) : ℤ) : K) = ((0 : ℕ) : K) + -1 := by
          rw [Nat.cast_sub (by omega)]
          push_cast
          ring
        rw [e1] at this
        refine ⟨some (g.polGrids[g.ycoords.length - 1]'(by omega)), this.trans ?_⟩
        congr 2
        rw [List.getD_eq_getElem _ _ (by omega)]
        push_cast
        ring
      · rw [if_neg hper]
        have hper : g.yperiodic = false := by simpa using hper
        have e1 : ((0 : ℕ) : K) + -1 = ((-1 : ℤ) : K) := by push_cast; ring
        refine ⟨none, ?_⟩
        rw [e1, Grid.getPoloidalGrid_int]
        unfold Grid.getInt
        have hi' : ((-1 : ℤ) : K) < 0 := by norm_num
        simp only [hper]
        rw [if_neg (fun h => not_le.2 hi' h.1)]
        simp
  · by_cases h : j + 1 < g.ycoords.length
    · rw [if_pos h]
      obtain ⟨p, hp⟩ := grid_inside' g hl (j + 1) h
      refine ⟨p, ?_⟩
      rw [← hp]
      push_cast
      rfl
    · rw [if_neg h]
      have hj1 : g.ycoords.length = j + 1 := by omega
      by_cases hper : g.yperiodic = true
      · rw [if_pos hper]
        have := Grid.getInt_periodic g hl (by omega) hper 0 (by omega) 1
        have e1 : ((((0 : ℕ) : ℤ) + 1 * (g.ycoords.length : ℤ) : ℤ) : K) = (j : K) + 1 := by
          rw [hj1]
          push_cast
          ring
        rw [e1] at this
        refine ⟨some (g.polGrids[0]'(by omega)), this.trans ?_⟩
        congr 2
        rw [List.getD_eq_getElem _ _ (by omega)]
        push_cast
        ring
      · rw [if_neg hper]
        have hper : g.yperiodic = false := by simpa using hper
        have e1 : (j : K) + 1 = ((g.ycoords.length : ℤ) : K) := by rw [hj1]; push_cast; ring
        refine ⟨none, ?_⟩
        rw [e1, Grid.getPoloidalGrid_int]
        unfold Grid.getInt
        have h1 : ((g.ycoords.length : ℕ) : K) ≤ ((g.ycoords.length : ℤ) : K) := by simp
        have h2 : ¬ ((g.ycoords.length : ℤ) : K) < 0 := not_lt.2 ((Nat.cast_nonneg _).trans h1)
        simp only [hper, Grid.ny]
        rw [if_neg (fun h => not_lt.2 h1 h.2)]
        simp

/-- **C253.** On a grid with increasing `y` coordinates, `make_maps` returns exactly if they lie strictly between `0` and `Ly` (not periodic), or
the last comes before the first of the next period (periodic). -/
theorem C253_ends_partial (e : MmEnvX K) (nx nz : ℕ) (w : Works e nx nz) (sp : SplineLength e) (nslice mxg n r nc : ℕ) (hn : 1 ≤ n)
    (hgs : 1 < n → ((e.gauss n).map (·.2)).sum = 2) (hr : 1 ≤ r) (hc : 1 ≤ nc) (empty : JState K) (hinc : e.grid.ycoords.Pairwise (· < ·)) :
    (∃ m, makeMapsX e nslice mxg n r nc empty = .ok m) ↔
      if e.grid.yperiodic = true then e.grid.ycoords.getD (e.grid.ycoords.length - 1) 0 < e.grid.ycoords.getD 0 0 + e.grid.Ly
      else 0 < e.grid.ycoords.getD 0 0 ∧ e.grid.ycoords.getD (e.grid.ycoords.length - 1) 0 < e.grid.Ly := by
  rw [C253_iff e nx nz w sp nslice mxg n r nc hn hgs hr hc empty]
  have hpos := w.pos
  constructor
  · intro h
    have h0 := h 0 hpos
    have h1 := h (e.grid.ycoords.length - 1) (by change _ < e.grid.ycoords.length; omega)
    obtain ⟨⟨p, hp⟩, ⟨q, hq⟩⟩ := neighbours e.grid w.length 0 hpos
    obtain ⟨⟨p', hp'⟩, ⟨q', hq'⟩⟩ := neighbours e.grid w.length (e.grid.ycoords.length - 1) (by omega)
    have a0 := h0 _ _ hp hq
    have a1 := h1 _ _ hp' hq'
    simp only [lt_irrefl, if_false] at a0
    have hnl : ¬ (e.grid.ycoords.length - 1 + 1 < e.grid.ycoords.length) := by omega
    simp only [hnl, if_false] at a1
    by_cases hper : e.grid.yperiodic = true
    · rw [if_pos hper]
      simp only [hper, if_true] at a1
      exact a1.2
    · rw [if_neg hper]
      simp only [hper] at a0 a1
      exact ⟨a0.1, a1.2⟩
  · intro h j hj low high hlow hhigh
    have hj' : j < e.grid.ycoords.length := hj
    obtain ⟨⟨p, hp⟩, ⟨q, hq⟩⟩ := neighbours e.grid w.length j hj'
    rw [hlow] at hp
    rw [hhigh] at hq
    injection hp with hp
    injection hq with hq
    rw [hp, hq]
    constructor
    · by_cases h0 : 0 < j
      · simp only [h0, if_true]
        exact getD_lt_of_pairwise hinc (by omega) hj'
      · have : j = 0 := by omega
        subst this
        simp only [lt_irrefl, if_false]
        by_cases hper : e.grid.yperiodic = true
        · simp only [hper, if_true] at h ⊢
          linarith
        · simp only [hper] at h ⊢
          exact h.1
    · by_cases h0 : j + 1 < e.grid.ycoords.length
      · simp only [h0, if_true]
        exact getD_lt_of_pairwise hinc (by omega) h0
      · have : j = e.grid.ycoords.length - 1 := by omega
        subst this
        have hnl : ¬ (e.grid.ycoords.length - 1 + 1 < e.grid.ycoords.length) := by omega
        simp only [hnl, if_false]
        by_cases hper : e.grid.yperiodic = true
        · simp only [hper, if_true] at h ⊢
          exact h
        · simp only [hper] at h ⊢
          exact h.2

/-! ### Examples -/

/-- Two planes of two by two points; the tracer gives the start points, `field_line_length` needs increasing values. -/
def exExc (ys : List ℚ) (Ly : ℚ) (per : Bool) : MmEnvX ℚ where
  grid := ⟨[exExcPol, exExcPol], ys, Ly, per, 2, 2⟩
  follow := fun _ _ R Z ys => .ok (ys.map fun _ x z => (R x z, Z x z))
  outside := fun _ _ _ => false
  byfunc := .ok fun _ _ _ => 1
  isSlab := false
  lineLength := fun ys => if 2 ≤ ys.length ∧ ys.Pairwise (· < ·) then .ok (fun _ => ys.getLastD 0 - ys.headD 0) else .error (.value "`x` must be strictly increasing sequence.")
  gauss := fun _ => []
  sqrt := id
  repr := fun _ => ""
where
  exExcPol : MapPolX ℚ := ⟨2, 2, fun x _ => x, fun _ z => z, .ok fun _ => some fun _ _ => 1, fun _ _ R Z => .ok fun x z => (R x z, Z x z)⟩

theorem exExc_works (ys : List ℚ) (Ly : ℚ) (per : Bool) (h : ys.length = 2) : Works (exExc ys Ly per) 2 2 where
  length := h.symm
  pos := by change 0 < ys.length; omega
  sizes := by
    intro p hp
    have : p = exExc.exExcPol := by
      have hp : p ∈ [exExc.exExcPol, exExc.exExcPol] := hp
      simpa using hp
    subst this
    exact ⟨rfl, rfl⟩
  follow := fun n m R Z ys => ⟨_, rfl, by simp⟩
  find := by
    intro p hp
    have : p = exExc.exExcPol := by
      have hp : p ∈ [exExc.exExcPol, exExc.exExcPol] := hp
      simpa using hp
    subst this
    exact fun R Z => ⟨_, rfl⟩
  metric := by
    intro p hp
    have : p = exExc.exExcPol := by
      have hp : p ∈ [exExc.exExcPol, exExc.exExcPol] := hp
      simpa using hp
    subst this
    exact ⟨_, _, _, _, rfl, rfl, rfl, rfl⟩
  byfunc := ⟨_, rfl⟩

theorem exExc_spline (ys : List ℚ) (Ly : ℚ) (per : Bool) : SplineLength (exExc ys Ly per) := by
  intro l
  change (∃ f, (if 2 ≤ l.length ∧ l.Pairwise (· < ·) then (.ok _ : Except Err _) else .error _) = .ok f) ↔ _
  by_cases h : 2 ≤ l.length ∧ l.Pairwise (· < ·)
  · rw [if_pos h]; exact ⟨fun _ => h, fun _ => ⟨_, rfl⟩⟩
  · rw [if_neg h]
    exact ⟨(fun ⟨f, hf⟩ => by cases hf), fun h' => absurd h' h⟩

/-- **C253 is false.** The planes at `0` and `1` of a domain of length `2` that is not periodic: everything works except the length of the
field lines before the first plane, which is at `y = 0` itself. -/
theorem C253_fails (nslice mxg r nc : ℕ) (hr : 1 ≤ r) (hc : 1 ≤ nc) (empty : JState ℚ) :
    (exExc [0, 1] 2 false).grid.ycoords.Pairwise (· < ·) ∧ Works (exExc [0, 1] 2 false) 2 2 ∧ SplineLength (exExc [0, 1] 2 false) ∧
      ¬ ∃ m, makeMapsX (exExc [0, 1] 2 false) nslice mxg 1 r nc empty = .ok m := by
  have hp : (exExc [0, 1] 2 false).grid.ycoords.Pairwise (· < ·) := by
    change ([0, 1] : List ℚ).Pairwise (· < ·)
    decide
  refine ⟨hp, exExc_works _ _ _ rfl, exExc_spline _ _ _, ?_⟩
  rw [C253_ends_partial (exExc [0, 1] 2 false) 2 2 (exExc_works _ _ _ rfl) (exExc_spline _ _ _) nslice mxg 1 r nc le_rfl (by omega) hr hc empty hp]
  rw [if_neg (by decide)]
  exact fun h => absurd h.1 (by decide)

/-- Away from the ends, and on periodic grids also at `0`, it returns. -/
example (empty : JState ℚ) : ∃ m, makeMapsX (exExc [1 / 2, 3 / 2] 2 false) 1 0 1 8 16 empty = .ok m := by
  rw [C253_ends_partial (exExc [1 / 2, 3 / 2] 2 false) 2 2 (exExc_works _ _ _ rfl) (exExc_spline _ _ _) 1 0 1 8 16 le_rfl (by omega) (by norm_num) (by norm_num) empty
    (by change ([1 / 2, 3 / 2] : List ℚ).Pairwise (· < ·); norm_num), if_neg (by decide)]
  change (0 : ℚ) < 1 / 2 ∧ (3 / 2 : ℚ) < 2
  norm_num

example (empty : JState ℚ) : ∃ m, makeMapsX (exExc [0, 1] 2 true) 1 0 1 8 16 empty = .ok m := by
  rw [C253_ends_partial (exExc [0, 1] 2 true) 2 2 (exExc_works _ _ _ rfl) (exExc_spline _ _ _) 1 0 1 8 16 le_rfl (by omega) (by norm_num) (by norm_num) empty
    (by change ([0, 1] : List ℚ).Pairwise (· < ·); norm_num), if_pos (by decide)]
  change (1 : ℚ) < 0 + 2
  norm_num

/-- A tracer that raises a `RuntimeError`: `make_maps` raises it. -/
example (empty : JState ℚ) : makeMapsX { exExc [1 / 2, 3 / 2] 2 false with follow := fun _ _ _ _ _ => .error (.runtime "lost") } 1 0 1 8 16 empty =
    .error (.runtime "lost") := by
  have w := exExc_works [1 / 2, 3 / 2] 2 false rfl
  refine C252_passed _ _ (fun _ _ _ _ _ => rfl) 1 0 1 8 16 empty rfl (by decide) ?_ (by decide) ?_
  · intro p hp q hq
    exact ⟨(w.sizes p hp).1.trans (w.sizes q hq).1.symm, (w.sizes p hp).2.trans (w.sizes q hq).2.symm⟩
  · intro o ho
    exact targetX_ok _ 2 2 w 0 o (offsetsOf_slice 1 1 (Or.inl rfl) o ho)

end Zoidberg
