import Verif.Model.MakeMapsExc
import Verif.Proofs.MakeMaps

/-!
# `make_maps` with exceptions and without
-/

set_option linter.unusedSectionVars false

namespace Zoidberg

variable {K : Type} [Field K] [LinearOrder K] [FloorRing K]

/-- Any functions to be used where the real ones raise exceptions. -/
structure MmDefault (K : Type) where
  follow : ℕ → ℕ → (ℕ → ℕ → K) → (ℕ → ℕ → K) → List K → List (ℕ → ℕ → K × K)
  findIndex : (ℕ → ℕ → K) → (ℕ → ℕ → K) → ℕ → ℕ → K × K
  byfunc : K → K → K → K
  lineLength : List (K × K) → List K → K
  metric : Dict (ℕ → ℕ → K)

/-- The result of a call, or `d` if it raises an exception. -/
def orDefault {A : Type} (d : A) : Except Err A → A
  | .ok a => a
  | .error _ => d

/-- The poloidal grid without exceptions. -/
def MapPolX.total (d : MmDefault K) (nx nz : ℕ) (p : MapPolX K) : MapPol K where
  nx := p.nx
  nz := p.nz
  R := p.R
  Z := p.Z
  metric := orDefault d.metric p.metric
  findIndex := fun R Z => orDefault (d.findIndex R Z) (p.findIndex nx nz R Z)

/-- The same grid with other poloidal grids. -/
def Grid.mapPol {G H : Type} (f : G → H) (g : Grid G K) : Grid H K := ⟨g.polGrids.map f, g.ycoords, g.Ly, g.yperiodic, g.nx, g.nz⟩

/-- The environment without exceptions. -/
def MmEnvX.total (d : MmDefault K) (nx nz : ℕ) (e : MmEnvX K) : MmEnv K where
  grid := e.grid.mapPol (MapPolX.total d nx nz)
  follow := fun n m R Z ys => orDefault (d.follow n m R Z ys) (e.follow n m R Z ys)
  outside := e.outside
  byfunc := orDefault d.byfunc e.byfunc
  isSlab := e.isSlab
  lineLength := fun l ys => orDefault (fun l => d.lineLength l ys) (e.lineLength ys) l
  gauss := e.gauss
  sqrt := e.sqrt
  repr := e.repr

theorem mapPol_at {G H : Type} (f : G → H) (g : Grid G K) (i : ℤ) : (g.mapPol f).at i = (g.at i).map fun p => (f p.1, p.2) := by
  unfold Grid.at Grid.mapPol
  simp only [List.length_map, List.getElem?_map]
  cases h1 : pyIndex g.polGrids.length i with
  | none => rfl
  | some k =>
    simp only [Option.bind_some]
    cases h2 : g.polGrids[k]? with
    | none => rfl
    | some p =>
      simp only [Option.map_some]
      cases h3 : (pyIndex g.ycoords.length i).bind (g.ycoords[·]?) <;> rfl

theorem mapPol_getInt {G H : Type} (f : G → H) (g : Grid G K) (y : K) :
    (g.mapPol f).getInt y = (g.getInt y).map fun p => (p.1.map f, p.2) := by
  have e1 : (g.mapPol f).ny = g.ny := rfl
  have e2 : (g.mapPol f).yperiodic = g.yperiodic := rfl
  have e3 : (g.mapPol f).Ly = g.Ly := rfl
  unfold Grid.getInt
  simp only [e1, e2, e3, mapPol_at]
  split_ifs
  · cases g.at (pyInt y) <;> rfl
  · cases g.at (pyMod (pyInt y) g.ny) <;> rfl
  · rfl
  · rfl

theorem mapPol_get {G H : Type} (f : G → H) (g : Grid G K) (y : K) :
    (g.mapPol f).getPoloidalGrid y = (g.getPoloidalGrid y).map fun p => (p.1.map f, p.2) := by
  unfold Grid.getPoloidalGrid
  simp only [mapPol_getInt]
  split_ifs
  · cases g.getInt ((⌊y⌋ : K) + 1) with
    | error e => rfl
    | ok a => cases g.getInt (⌊y⌋ : K) <;> rfl
  · rfl

variable (d : MmDefault K) (nx nz : ℕ) (e : MmEnvX K)

theorem total_plane (j : ℕ) : (e.total d nx nz).plane j = (e.plane j).map fun p => (p.1.total d nx nz, p.2) := by
  unfold MmEnv.plane MmEnvX.plane
  have : (e.total d nx nz).grid = e.grid.mapPol (MapPolX.total d nx nz) := rfl
  rw [this, mapPol_get]
  cases e.grid.getPoloidalGrid (j : K) with
  | error err => rfl
  | ok a => obtain ⟨_ | p, y⟩ := a <;> rfl

/-! ### Folds -/

theorem foldlM_ok_mono {S A : Type} (f g : S → A → Except Err S) (h : ∀ s a s', f s a = .ok s' → g s a = .ok s') :
    ∀ (l : List A) (s s' : S), l.foldlM f s = .ok s' → l.foldlM g s = .ok s' := by
  intro l
  induction l with
  | nil => intro s s' h; exact h
  | cons a l ih =>
    intro s s' hs
    rw [List.foldlM_cons] at hs ⊢
    cases ha : f s a with
    | error err => rw [ha] at hs; cases hs
    | ok t =>
      rw [ha] at hs
      rw [h s a t ha]
      exact ih t s' hs

theorem foldlM_ok_mem {S A : Type} (f : S → A → Except Err S) (P : A → Prop) (h : ∀ s a s', f s a = .ok s' → P a) :
    ∀ (l : List A) (s s' : S), l.foldlM f s = .ok s' → ∀ a ∈ l, P a := by
  intro l
  induction l with
  | nil => intro s s' _ a ha; cases ha
  | cons b l ih =>
    intro s s' hs a ha
    rw [List.foldlM_cons] at hs
    cases hb : f s b with
    | error err => rw [hb] at hs; cases hs
    | ok t =>
      rw [hb] at hs
      rcases List.mem_cons.mp ha with rfl | ha
      · exact h _ _ _ hb
      · exact ih t s' hs a ha

theorem foldlM_congr_mem {S A : Type} (f g : S → A → Except Err S) : ∀ (l : List A), (∀ s, ∀ a ∈ l, f s a = g s a) →
    ∀ s, l.foldlM f s = l.foldlM g s := by
  intro l
  induction l with
  | nil => intro _ s; rfl
  | cons a l ih =>
    intro h s
    rw [List.foldlM_cons, List.foldlM_cons, h s a (by simp)]
    cases g s a with
    | error err => rfl
    | ok t => exact ih (fun s a ha => h s a (by simp [ha])) t

theorem mapM_ok_mono {A B : Type} (f g : A → Except Err B) (h : ∀ a b, f a = .ok b → g a = .ok b) :
    ∀ (l : List A) (r : List B), l.mapM f = .ok r → l.mapM g = .ok r := by
  intro l
  induction l with
  | nil => intro r h; exact h
  | cons a l ih =>
    intro r hr
    rw [List.mapM_cons] at hr ⊢
    cases ha : f a with
    | error err => rw [ha] at hr; cases hr
    | ok b =>
      cases hl : l.mapM f with
      | error err => rw [ha, hl] at hr; cases hr
      | ok bs =>
        rw [ha, hl] at hr
        rw [h a b ha, ih bs hl]
        exact hr

theorem bind_ok {A B : Type} {x : Except Err A} {f : A → Except Err B} {b : B} (h : x.bind f = .ok b) : ∃ a, x = .ok a ∧ f a = .ok b := by
  cases x with
  | error err => cases h
  | ok a => exact ⟨a, rfl, h⟩

theorem map_ok {A B : Type} {x : Except Err A} {f : A → B} {b : B} (h : x.map f = .ok b) : ∃ a, x = .ok a ∧ f a = b := by
  cases x with
  | error err => cases h
  | ok a => injection h with h; exact ⟨a, rfl, h⟩

theorem ite_ok {A : Type} {c : Prop} [Decidable c] {err : Err} {x : Except Err A} {b : A} (h : (if c then .error err else x) = .ok b) :
    ¬ c ∧ x = .ok b := by
  split_ifs at h with hc
  exact ⟨hc, h⟩

/-! ### The parts of `make_maps` -/

theorem gridArray_total (f : MapPolX K → ℕ → ℕ → K) (g : MapPol K → ℕ → ℕ → K) (hfg : ∀ p, g (MapPolX.total d nx nz p) = f p) (a : Cell → K)
    (h : gridArrayX e nx nz f = .ok a) : gridArray (e.total d nx nz) g = .ok a := by
  unfold gridArrayX at h
  unfold gridArray
  refine foldlM_ok_mono _ _ ?_ _ _ _ h
  intro s j s' hs
  unfold planeArray at hs
  obtain ⟨p, h1, h2⟩ := bind_ok hs
  rw [total_plane, h1]
  split_ifs at h2
  injection h2 with h2
  rw [← h2]
  simp [Except.map, hfg]

theorem samples_total (n : ℕ) : samples (e.total d nx nz) n = samplesX e n := rfl

theorem indices_total (pol : MapPolX K) (y : K) (coord : ℕ → ℕ → K × K) (ind : ℕ → ℕ → K × K) (h : indicesX e nx nz pol y coord = .ok ind) :
    indicesOf (e.total d nx nz) (pol.total d nx nz) y coord = ind := by
  unfold indicesX at h
  obtain ⟨f, h1, h2⟩ := map_ok h
  rw [← h2]
  funext x z
  unfold indicesOf
  simp only [MapPolX.total, MmEnvX.total, h1, orDefault]

theorem storeSlice_total (j : ℕ) (y : K) (ps : PSlice K) (coord : ℕ → ℕ → K × K) (pol : Option (MapPolX K)) (r : PSlice K × (ℕ → ℕ → K × K))
    (h : storeSliceX e nx nz j y ps coord pol = .ok r) :
    storeSlice (e.total d nx nz) j y ps coord (pol.map (MapPolX.total d nx nz)) = r := by
  unfold storeSliceX at h
  obtain ⟨ind, h1, h2⟩ := map_ok h
  rw [← h2]
  cases pol with
  | none =>
    injection h1 with h1
    subst h1
    rfl
  | some p =>
    have := indices_total d nx nz e p y coord ind h1
    unfold storeSlice
    simp only [Option.map_some, this]

theorem storeAll_total (j : ℕ) (y : K) : ∀ (pss : List (PSlice K)) (cs : List (ℕ → ℕ → K × K)) (ts : List (Option (MapPolX K)))
    (o : Option (List (PSlice K) × (PSlice K × (ℕ → ℕ → K × K) × Option (MapPolX K)) × List (PSlice K))),
    storeAllX e nx nz j y pss cs ts = .ok o →
    storeAll (e.total d nx nz) j y pss cs (ts.map (Option.map (MapPolX.total d nx nz))) =
      o.map fun o => (o.1, (o.2.1.1, o.2.1.2.1, o.2.1.2.2.map (MapPolX.total d nx nz)), o.2.2) := by
  intro pss
  induction pss with
  | nil =>
    intro cs ts o h
    unfold storeAllX at h
    injection h with h
    subst h
    rfl
  | cons ps pss ih =>
    intro cs ts o h
    cases cs with
    | nil =>
      unfold storeAllX at h
      injection h with h
      subst h
      rfl
    | cons c cs =>
      cases ts with
      | nil =>
        unfold storeAllX at h
        injection h with h
        subst h
        rfl
      | cons t ts =>
        rw [storeAllX] at h
        obtain ⟨r, h1, h2⟩ := bind_ok h
        obtain ⟨o', h3, h4⟩ := map_ok h2
        rw [List.map_cons, storeAll, ih cs ts o' h3, storeSlice_total d nx nz e j y ps c t r h1]
        cases o' with
        | none => simp only at h4; subst h4; rfl
        | some q => obtain ⟨a, l, b⟩ := q; simp only at h4; subst h4; rfl

theorem storeSamples_total (smp : Option (List (K × K × K))) (ns j : ℕ) (pol : MapPolX K) (yc ys : K) (ps ps' : PSlice K) (ind : ℕ → ℕ → K × K)
    (t : Option (MapPolX K)) (h : storeSamplesX e nx nz smp ns j pol yc ys ps ind t = .ok ps') :
    storeSamples (e.total d nx nz) nx nz smp ns j (pol.total d nx nz) yc ys ps ind (t.map (MapPolX.total d nx nz)) = .ok ps' := by
  unfold storeSamplesX at h
  unfold storeSamples
  split_ifs at h ⊢ with h1
  · exact h
  · cases t with
    | none => exact h
    | some tp =>
      cases smp with
      | none => cases h
      | some l =>
        refine foldlM_ok_mono _ _ ?_ _ _ _ h
        intro s p s' hs
        unfold storeSample at hs
        obtain ⟨cs, k1, k2⟩ := bind_ok hs
        have k3 : (e.total d nx nz).follow nx nz (sampleStart (pol.total d nx nz) nx nz p.1.1 p.1.2.1).1
            (sampleStart (pol.total d nx nz) nx nz p.1.1 p.1.2.1).2 [yc, ys] = cs := by
          change orDefault _ (e.follow nx nz (sampleStartX pol nx nz p.1.1 p.1.2.1).1 (sampleStartX pol nx nz p.1.1 p.1.2.1).2 [yc, ys]) = cs
          rw [k1]
          rfl
        simp only [k3]
        cases hc : cs[1]? with
        | none => rw [hc] at k2; cases k2
        | some coord =>
          rw [hc] at k2
          obtain ⟨ind', k4, k5⟩ := map_ok k2
          simp only [indices_total d nx nz e tp ys coord ind' k4, k5]

theorem targets_total (j : ℕ) (pss : List (PSlice K)) (ts : List (Option (MapPolX K) × K))
    (h : (pss.mapM fun ps => e.grid.getPoloidalGrid ((j : K) + ps.offset.val)) = .ok ts) :
    (pss.mapM fun ps => (e.total d nx nz).grid.getPoloidalGrid ((j : K) + ps.offset.val)) =
      .ok (ts.map fun p => (p.1.map (MapPolX.total d nx nz), p.2)) := by
  have hg : (e.total d nx nz).grid = e.grid.mapPol (MapPolX.total d nx nz) := rfl
  induction pss generalizing ts with
  | nil => cases h; rfl
  | cons a l ih =>
    rw [List.mapM_cons] at h ⊢
    cases ha : e.grid.getPoloidalGrid ((j : K) + a.offset.val) with
    | error err => rw [ha] at h; cases h
    | ok b =>
      cases hl : l.mapM fun ps => e.grid.getPoloidalGrid ((j : K) + ps.offset.val) with
      | error err => rw [ha, hl] at h; cases h
      | ok bs =>
        rw [ha, hl] at h
        cases h
        rw [ih bs hl, hg, mapPol_get, ha]
        rfl

theorem tracePlane_total (smp : Option (List (K × K × K))) (ns : ℕ) (pss r : List (PSlice K)) (j : ℕ)
    (h : tracePlaneX e nx nz smp ns pss j = .ok r) : tracePlane (e.total d nx nz) nx nz smp ns pss j = .ok r := by
  unfold tracePlaneX at h
  obtain ⟨⟨pol, y⟩, h1, h⟩ := bind_ok h
  obtain ⟨ts, h2, h⟩ := bind_ok h
  obtain ⟨cs, h3, h⟩ := bind_ok h
  obtain ⟨o, h4, h⟩ := bind_ok h
  cases o with
  | none => cases h
  | some q =>
    obtain ⟨l, ⟨ps, ind, t⟩, b⟩ := q
    obtain ⟨ps', h5, h6⟩ := map_ok h
    have k1 := total_plane d nx nz e j
    rw [h1] at k1
    have k2 := targets_total d nx nz e j pss ts h2
    have e1 : (ts.map fun p => (p.1.map (MapPolX.total d nx nz), p.2)).map (·.2) = ts.map (·.2) := by simp
    have e2 : (ts.map fun p => (p.1.map (MapPolX.total d nx nz), p.2)).map (·.1) = (ts.map (·.1)).map (Option.map (MapPolX.total d nx nz)) := by simp
    have k3 : (e.total d nx nz).follow nx nz (pol.total d nx nz).R (pol.total d nx nz).Z (y :: ts.map (·.2)) = cs := by
      change orDefault _ (e.follow nx nz pol.R pol.Z (y :: ts.map (·.2))) = cs
      rw [h3]
      rfl
    have k4 := storeAll_total d nx nz e j ((ts.map (·.2)).getLastD y) pss (cs.drop 1) (ts.map (·.1)) _ h4
    have k5 := storeSamples_total d nx nz e smp ns j pol y ((ts.map (·.2)).getLastD y) ps ps' ind t h5
    unfold tracePlane
    rw [k1]
    simp only [Except.map, k2, e1, e2, k3, k4, Option.map_some, k5]
    rw [← h6]

theorem traceAll_total (smp : Option (List (K × K × K))) (ns : ℕ) (l r : List (List (PSlice K)))
    (h : traceAllX e nx nz smp ns l = .ok r) : traceAll (e.total d nx nz) nx nz smp ns l = .ok r := by
  unfold traceAllX at h
  unfold traceAll
  refine mapM_ok_mono _ _ ?_ _ _ h
  intro pss t ht
  exact foldlM_ok_mono _ _ (fun s j s' hs => tracePlane_total d nx nz e smp ns s s' j hs) _ _ _ ht

theorem jPerp_total (p : MapPolX K) (m : Dict (ℕ → ℕ → K)) (hm : p.metric = .ok m) (x z : ℕ) :
    jPerp (e.total d nx nz) (p.total d nx nz) x z = jPerpX e m x z := by
  unfold jPerp jPerpX
  have : (p.total d nx nz).metric = m := by simp [MapPolX.total, hm, orDefault]
  rw [this]
  rfl

theorem jacChunk_total (r j : ℕ) (pol : MapPolX K) (y yl yh : K) (s s' : JState K) (chunk : List ℕ)
    (h : jacChunkX e r j pol y yl yh s chunk = .ok s') :
    jacChunk (e.total d nx nz) r j (pol.total d nx nz) y yl yh s chunk = .ok s' := by
  unfold jacChunkX at h
  obtain ⟨bk, h1, h⟩ := bind_ok h
  obtain ⟨ft, h2, h⟩ := bind_ok h
  obtain ⟨l0, h3, h⟩ := bind_ok h
  obtain ⟨l1, h4, h⟩ := bind_ok h
  obtain ⟨l2, h5, h⟩ := bind_ok h
  simp only at h3 h4 h5 h
  have kline : lineAround (e.total d nx nz) r (pol.total d nx nz) chunk y yl yh = (bk.reverse ++ ft.drop 1,
      (linspaceClosed y yl (r * 2 + 1)).reverse ++ (linspaceClosed y yh (r * 2 + 1)).drop 1) := by
    unfold lineAround
    simp only [MmEnvX.total, MapPolX.total, h1, h2, orDefault]
  obtain ⟨c1, h⟩ := ite_ok h
  obtain ⟨by', h6, h⟩ := bind_ok h
  obtain ⟨c2, h⟩ := ite_ok h
  obtain ⟨c3, h⟩ := ite_ok h
  obtain ⟨m, h7, h⟩ := bind_ok h
  have kby : (e.total d nx nz).byfunc = by' := by simp [MmEnvX.total, h6, orDefault]
  have kl : ∀ k < 3, ∀ l, (e.total d nx nz).lineLength l (lengthWindow r k ((linspaceClosed y yl (r * 2 + 1)).reverse ++ (linspaceClosed y yh (r * 2 + 1)).drop 1)) =
      (if k = 0 then l0 else if k = 1 then l1 else l2) l := by
    intro k hk l
    have : k = 0 ∨ k = 1 ∨ k = 2 := by omega
    rcases this with rfl | rfl | rfl
    · change orDefault _ (e.lineLength _) l = _
      rw [h3]
      rfl
    · change orDefault _ (e.lineLength _) l = _
      rw [h4]
      rfl
    · change orDefault _ (e.lineLength _) l = _
      rw [h5]
      rfl
  unfold jacChunk
  simp only [kline, kby, jPerp_total d nx nz e pol m h7]
  rw [if_neg (by rintro (h | h); exacts [c1 h, c2 h]), if_neg c3]
  cases hj : jPerpX e m 0 0 with
  | error err => rw [hj] at h; cases h
  | ok v =>
    rw [hj] at h
    simp only at h ⊢
    obtain ⟨c4, h⟩ := ite_ok h
    rw [if_neg c4, ← h]
    congr 2
    funext k
    by_cases hk : k < 3
    · rw [if_pos hk, if_pos hk]
      congr 1
      funext i z
      exact kl k hk _
    · rw [if_neg hk, if_neg hk]

theorem jacPlane_total (n r nc : ℕ) (s s' : JState K) (j : ℕ) (h : jacPlaneX e n r nc s j = .ok s') :
    jacPlane (e.total d nx nz) n r nc s j = .ok s' := by
  unfold jacPlaneX at h
  obtain ⟨chunks, h1, h⟩ := bind_ok h
  obtain ⟨⟨pol, y⟩, h2, h⟩ := bind_ok h
  obtain ⟨low, h3, h⟩ := bind_ok h
  obtain ⟨high, h4, h⟩ := bind_ok h
  have hg : (e.total d nx nz).grid = e.grid.mapPol (MapPolX.total d nx nz) := rfl
  unfold jacPlane
  rw [h1, total_plane, h2, hg, mapPol_get, mapPol_get, h3, h4]
  obtain ⟨_, yl⟩ := low
  obtain ⟨_, yh⟩ := high
  exact foldlM_ok_mono _ _ (fun s c s' hs => jacChunk_total d nx nz e r j pol y yl yh s s' c hs) _ _ _ h

theorem jacAll_total (n r nc : ℕ) (s s' : JState K) (h : jacAllX e n r nc s = .ok s') : jacAll (e.total d nx nz) n r nc s = .ok s' := by
  unfold jacAllX at h
  unfold jacAll
  exact foldlM_ok_mono _ _ (fun s j s' hs => jacPlane_total d nx nz e n r nc s s' j hs) _ _ _ h

/-- `first` is the grid of the first plane. -/
theorem makeMaps_total (nslice mxg n r nc : ℕ) (empty : JState K) (m : ODict (MapVal K)) (h : makeMapsX e nslice mxg n r nc empty = .ok m) :
    ∃ first y, e.plane 0 = .ok (first, y) ∧ makeMaps (e.total d first.nx first.nz) nslice mxg n r nc empty = .ok m := by
  unfold makeMapsX at h
  obtain ⟨⟨first, y⟩, h1, h⟩ := bind_ok h
  obtain ⟨R, h2, h⟩ := bind_ok h
  obtain ⟨Z, h3, h⟩ := bind_ok h
  obtain ⟨smp, h4, h⟩ := bind_ok h
  obtain ⟨traced, h5, h⟩ := bind_ok h
  obtain ⟨entries, h6, h⟩ := bind_ok h
  obtain ⟨s, h7, h⟩ := bind_ok h
  refine ⟨first, y, h1, ?_⟩
  unfold makeMaps
  have k1 := total_plane d first.nx first.nz e 0
  rw [h1] at k1
  rw [k1]
  have k2 := gridArray_total d first.nx first.nz e (·.R) (·.R) (fun _ => rfl) R h2
  have k3 := gridArray_total d first.nx first.nz e (·.Z) (·.Z) (fun _ => rfl) Z h3
  have k4 : samples (e.total d first.nx first.nz) n = .ok smp := h4
  have k5 := traceAll_total d first.nx first.nz e smp (n ^ 2) _ _ h5
  have k6 : traced.flatten.mapM (sliceEntries (e.total d first.nx first.nz)) = .ok entries := h6
  have k7 := jacAll_total d first.nx first.nz e first.nx r nc empty s h7
  have e1 : (MapPolX.total d first.nx first.nz first).nx = first.nx := rfl
  have e2 : (MapPolX.total d first.nx first.nz first).nz = first.nz := rfl
  simp only [Except.map, bind, Except.bind, k2, k3, k4, e1, e2, k5, k6, k7]
  exact h

end Zoidberg
