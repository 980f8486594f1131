import Verif.Model.Geqdsk
import Verif.Props.Boundary
import Verif.Props.BoundaryConvex

set_option linter.unusedSectionVars false

/-!
# Fields from g-files (C241, C242)
-/

namespace Zoidberg

variable {K : Type} [Field K] [LinearOrder K] [IsStrictOrderedRing K]

/-- Splines take the given values at the given points. -/
structure GSplines.Exact (s : GSplines K) : Prop where
  two : ∀ xs zs d g, s.two xs zs d = .ok g → ∀ i < xs.length, ∀ j < zs.length, g 0 0 (xs.getD i 0) (zs.getD j 0) = d i j
  one : ∀ xs a g, s.one xs a = .ok g → xs.length = a.length → ∀ i < xs.length, g (xs.getD i 0) = a.getD i 0

/-- What a successful call has done. -/
theorem GFile.init_ok {s : GSplines K} {d : GFile K} {g : GField K} (h : d.init s = .ok g) :
    ∃ core, PolyBoundary.init d.bdry = .ok core ∧ s.two d.r d.z d.psi = .ok g.psi ∧ s.two d.r d.z (d.psinorm core) = .ok g.psinorm ∧
      d.profile s d.fpol = .ok g.f ∧ d.profile s d.pres = .ok g.p ∧ g.r = d.r ∧ g.z = d.z ∧
      (d.lim = [] → g.boundary = none) ∧ (d.lim ≠ [] → ∃ b, PolyBoundary.init d.lim = .ok b ∧ g.boundary = some b) := by
  unfold GFile.init at h
  cases h1 : s.two d.r d.z d.psi with
  | error e => rw [h1] at h; exact absurd h (by simp [Except.bind])
  | ok psi =>
    rw [h1] at h
    dsimp only [Except.bind] at h
    cases h2 : PolyBoundary.init d.bdry with
    | error e => rw [h2] at h; exact absurd h (by simp)
    | ok core =>
      rw [h2] at h
      dsimp only at h
      cases h3 : s.two d.r d.z (d.psinorm core) with
      | error e => rw [h3] at h; exact absurd h (by simp)
      | ok psn =>
        rw [h3] at h
        dsimp only at h
        cases h4 : d.profile s d.fpol with
        | error e => rw [h4] at h; exact absurd h (by simp)
        | ok f =>
          rw [h4] at h
          dsimp only at h
          cases h5 : d.profile s d.pres with
          | error e => rw [h5] at h; exact absurd h (by simp)
          | ok p =>
            rw [h5] at h
            dsimp only at h
            by_cases hl : d.lim = []
            · rw [if_pos hl] at h
              simp only [Except.map, Except.ok.injEq] at h
              subst h
              exact ⟨core, rfl, rfl, h3, rfl, rfl, rfl, rfl, fun _ => rfl, fun h' => absurd hl h'⟩
            · rw [if_neg hl] at h
              cases h6 : PolyBoundary.init d.lim with
              | error e => rw [h6] at h; exact absurd h (by simp [Except.map])
              | ok b =>
                rw [h6] at h
                simp only [Except.map, Except.ok.injEq] at h
                subst h
                exact ⟨core, rfl, rfl, h3, rfl, rfl, rfl, rfl, fun h' => absurd h' hl, fun _ => ⟨b, rfl, rfl⟩⟩

omit [LinearOrder K] [IsStrictOrderedRing K] in
theorem linspaceClosed_len (a b : K) (n : ℕ) : (linspaceClosed a b n).length = n := by simp [linspaceClosed]

theorem linspaceClosed_last (a b : K) (n : ℕ) (hn : 2 ≤ n) : (linspaceClosed a b n).getD (n - 1) 0 = b := by
  unfold linspaceClosed
  rw [List.getD_eq_getElem _ _ (by simp; omega)]
  simp only [List.getElem_map, List.getElem_range]
  rw [if_neg (by omega)]
  have h1 : ((n - 1 : ℕ) : K) = (n : K) - 1 := by rw [Nat.cast_sub (by omega)]; simp
  have h2 : (n : K) - 1 ≠ 0 := by
    rw [← h1]
    exact_mod_cast (by omega : n - 1 ≠ 0)
  rw [h1]
  field_simp
  ring

theorem linspaceClosed_first (a b : K) (n : ℕ) (hn : 1 ≤ n) : (linspaceClosed a b n).getD 0 0 = a := by
  unfold linspaceClosed
  rw [List.getD_eq_getElem _ _ (by simp; omega)]
  simp

/-- The profile at the edge is its last value, at the axis its first. -/
theorem GFile.profile_ends {s : GSplines K} (hs : s.Exact) {d : GFile K} {a : List K} {f : K → K} (h : d.profile s a = .ok f) (hn : 2 ≤ d.nr) :
    f 0 = a.getD 0 0 ∧ f 1 = a.getD (d.nr - 1) 0 ∧ a.length = d.nr := by
  unfold GFile.profile at h
  by_cases hl : a.length ≠ d.nr
  · rw [if_pos hl] at h
    exact absurd h (by simp)
  · rw [if_neg hl] at h
    push Not at hl
    have e := hs.one _ _ _ h (by rw [linspaceClosed_len, hl])
    rw [linspaceClosed_len] at e
    have e0 := e 0 (by omega)
    have e1 := e (d.nr - 1) (by omega)
    rw [linspaceClosed_first _ _ _ (by omega)] at e0
    rw [linspaceClosed_last _ _ _ hn] at e1
    exact ⟨e0, e1, hl⟩

/-- **C241.** The points of the grid: their range, and psi there. -/
theorem C241_nodes (s : GSplines K) (hs : s.Exact) (d : GFile K) (g : GField K) (h : d.init s = .ok g) (hr : 2 ≤ d.nr) (hz : 2 ≤ d.nz) :
    g.r.length = d.nr ∧ g.z.length = d.nz ∧ g.r.getD 0 0 = d.rleft ∧ g.r.getD (d.nr - 1) 0 = d.rleft + d.rdim ∧
      g.z.getD 0 0 = d.zmid - d.zdim / 2 ∧ g.z.getD (d.nz - 1) 0 = d.zmid + d.zdim / 2 ∧
      ∀ i < d.nr, ∀ j < d.nz, g.psi 0 0 (g.r.getD i 0) (g.z.getD j 0) = d.psi i j := by
  obtain ⟨core, -, h1, -, -, -, hr', hz', -, -⟩ := GFile.init_ok h
  rw [hr', hz']
  refine ⟨linspaceClosed_len _ _ _, linspaceClosed_len _ _ _, linspaceClosed_first _ _ _ (by omega), ?_, ?_, ?_, ?_⟩
  · rw [GFile.r, linspaceClosed_last _ _ _ hr, add_comm]
  · rw [GFile.z, linspaceClosed_first _ _ _ (by omega)]; ring
  · rw [GFile.z, linspaceClosed_last _ _ _ hz]; ring
  · intro i hi j hj
    exact hs.two _ _ _ _ h1 i (by rw [GFile.r, linspaceClosed_len]; exact hi) j (by rw [GFile.z, linspaceClosed_len]; exact hj)

/-- What happens at a point of the grid, by the answer of the polygon. -/
theorem GField.node {s : GSplines K} (hs : s.Exact) {d : GFile K} {g : GField K} (h : d.init s = .ok g) {core : PolyBoundary K}
    (hc : PolyBoundary.init d.bdry = .ok core) {i j : ℕ} (hi : i < d.nr) (hj : j < d.nz) :
    g.psinorm 0 0 (g.r.getD i 0) (g.z.getD j 0) = psinormNode d.simagx d.sibdry (d.psi i j) (core.outside (g.r.getD i 0) 0 (g.z.getD j 0)) := by
  obtain ⟨core', hc', -, h1, -, -, hr', hz', -, -⟩ := GFile.init_ok h
  rw [hc] at hc'
  have : core = core' := by injection hc'
  subst this
  rw [hr', hz']
  exact hs.two _ _ _ _ h1 i (by rw [GFile.r, linspaceClosed_len]; exact hi) j (by rw [GFile.z, linspaceClosed_len]; exact hj)

/-- The normalised flux between 0 and 1. -/
def GFile.norm (d : GFile K) (i j : ℕ) : K := max 0 (min 1 ((d.psi i j - d.simagx) / (d.sibdry - d.simagx)))

/-- **C241** as stated, for one kind of splines: at the points of the grid in the core, `R B_phi` and the pressure are those of the flux there; at the others
they are those of the edge. -/
def CoreProfiles (s : GSplines K) : Prop :=
  ∀ (d : GFile K) (g : GField K), d.init s = .ok g → 2 ≤ d.nr → d.simagx ≠ d.sibdry → StrictConvex d.bdry → ∀ i < d.nr, ∀ j < d.nz,
    0 < g.r.getD i 0 →
    (Interior d.bdry (g.r.getD i 0) (g.z.getD j 0) → g.r.getD i 0 * g.By (g.r.getD i 0) (g.z.getD j 0) = g.f (d.norm i j) ∧
      g.pressure (g.r.getD i 0) (g.z.getD j 0) = g.p (d.norm i j)) ∧
    (Exterior d.bdry (g.r.getD i 0) (g.z.getD j 0) → g.r.getD i 0 * g.By (g.r.getD i 0) (g.z.getD j 0) = d.fpol.getD (d.nr - 1) 0 ∧
      g.pressure (g.r.getD i 0) (g.z.getD j 0) = d.pres.getD (d.nr - 1) 0)

/-- The values by the answer of the polygon. -/
theorem GField.values {s : GSplines K} (hs : s.Exact) {d : GFile K} {g : GField K} (h : d.init s = .ok g) (hn : 2 ≤ d.nr) {core : PolyBoundary K}
    (hc : PolyBoundary.init d.bdry = .ok core) {i j : ℕ} (hi : i < d.nr) (hj : j < d.nz) (hp : 0 < g.r.getD i 0) :
    (core.outside (g.r.getD i 0) 0 (g.z.getD j 0) = false → g.r.getD i 0 * g.By (g.r.getD i 0) (g.z.getD j 0) = g.f (d.norm i j) ∧
      g.pressure (g.r.getD i 0) (g.z.getD j 0) = g.p (d.norm i j)) ∧
    (core.outside (g.r.getD i 0) 0 (g.z.getD j 0) = true → g.r.getD i 0 * g.By (g.r.getD i 0) (g.z.getD j 0) = d.fpol.getD (d.nr - 1) 0 ∧
      g.pressure (g.r.getD i 0) (g.z.getD j 0) = d.pres.getD (d.nr - 1) 0) := by
  obtain ⟨-, -, -, -, hf, hpp, -, -, -, -⟩ := GFile.init_ok h
  have e := GField.node hs h hc hi hj
  have ef := (GFile.profile_ends hs hf hn).2.1
  have ep := (GFile.profile_ends hs hpp hn).2.1
  unfold GField.By GField.pressure geqdskPressure
  rw [mul_div_cancel₀ _ hp.ne', e]
  constructor
  · intro ho
    rw [ho]
    exact ⟨rfl, rfl⟩
  · intro ho
    rw [ho]
    simp only [psinormNode, clampSpline, if_true, min_self, max_eq_right (zero_le_one (α := K))]
    exact ⟨ef, ep⟩

/-- **C241 (partial).** True in every column of the grid that does not contain a corner of the plasma boundary, if no edge across it is thinner than
1e-6.  Missing: the columns with a corner, where it is false, see `C241_fails`. -/
theorem C241_partial (s : GSplines K) (hs : s.Exact) (d : GFile K) (g : GField K) (h : d.init s = .ok g) (hn : 2 ≤ d.nr) (hc : StrictConvex d.bdry)
    (i : ℕ) (hi : i < d.nr) (j : ℕ) (hj : j < d.nz) (hp : 0 < g.r.getD i 0)
    (hx : ∀ k, (vertex d.bdry k).1 ≠ g.r.getD i 0) (hw : NoThin d.bdry (g.r.getD i 0)) :
    (Interior d.bdry (g.r.getD i 0) (g.z.getD j 0) → g.r.getD i 0 * g.By (g.r.getD i 0) (g.z.getD j 0) = g.f (d.norm i j) ∧
      g.pressure (g.r.getD i 0) (g.z.getD j 0) = g.p (d.norm i j)) ∧
    (Exterior d.bdry (g.r.getD i 0) (g.z.getD j 0) → g.r.getD i 0 * g.By (g.r.getD i 0) (g.z.getD j 0) = d.fpol.getD (d.nr - 1) 0 ∧
      g.pressure (g.r.getD i 0) (g.z.getD j 0) = d.pres.getD (d.nr - 1) 0) := by
  obtain ⟨core, hcore, -⟩ := GFile.init_ok h
  have hv := GField.values hs h hn hcore hi hj hp
  have hb := C125_convex_partial d.bdry core hcore hc (g.r.getD i 0) 0 (g.z.getD j 0) hx hw
  exact ⟨fun hin => hv.1 (hb.1 hin), fun hout => hv.2 (hb.2 hout)⟩

/-- A file with the axis at (3, 0) and a plasma that is a square standing on a corner. -/
def diamondFile (psi : ℕ → ℕ → ℚ) (fpol pres : List ℚ) (axis bndry : ℚ) (lim : List (ℚ × ℚ)) : GFile ℚ :=
  ⟨1, 4, 0, 4, axis, bndry, 5, 5, psi, fpol, pres, [(9 / 2, 0), (3, 3 / 2), (3 / 2, 0), (3, -3 / 2)], lim⟩

theorem diamond_r (psi : ℕ → ℕ → ℚ) (fpol pres : List ℚ) (axis bndry : ℚ) (lim : List (ℚ × ℚ)) :
    (diamondFile psi fpol pres axis bndry lim).r.getD 2 0 = 3 ∧ (diamondFile psi fpol pres axis bndry lim).z.getD 2 0 = 0 := by
  constructor
  · norm_num [diamondFile, GFile.r, linspaceClosed, List.range, List.range.loop]
  · norm_num [diamondFile, GFile.z, linspaceClosed, List.range, List.range.loop]

/-- For every flux, profile and kind of splines: on the magnetic axis of this file the field and the pressure are those of the edge. -/
theorem C241_axis (s : GSplines ℚ) (hs : s.Exact) (psi : ℕ → ℕ → ℚ) (fpol pres : List ℚ) (axis bndry : ℚ) (lim : List (ℚ × ℚ)) (g : GField ℚ)
    (h : (diamondFile psi fpol pres axis bndry lim).init s = .ok g) :
    Interior (diamondFile psi fpol pres axis bndry lim).bdry 3 0 ∧ 3 * g.By 3 0 = fpol.getD 4 0 ∧ g.pressure 3 0 = pres.getD 4 0 := by
  obtain ⟨core, hcore, -, -, -, -, hr, hz, -, -⟩ := GFile.init_ok h
  obtain ⟨h3, h0⟩ := diamond_r psi fpol pres axis bndry lim
  have hv := (GField.values hs h (by norm_num [diamondFile]) hcore (i := 2) (j := 2) (by norm_num [diamondFile]) (by norm_num [diamondFile])
    (by rw [hr, h3]; norm_num)).2
  rw [hr, hz, h3, h0] at hv
  have hco : core = ⟨5 / 2, [(9 / 2, 0), (3, 3 / 2), (3 / 2, 0), (3, -3 / 2)]⟩ := by
    have : PolyBoundary.init (diamondFile psi fpol pres axis bndry lim).bdry = .ok ⟨5 / 2, [(9 / 2, 0), (3, 3 / 2), (3 / 2, 0), (3, -3 / 2)]⟩ := by
      norm_num [diamondFile, PolyBoundary.init]
    rw [this] at hcore
    injection hcore with e
    exact e.symm
  refine ⟨?_, ?_⟩
  · change Interior [(9 / 2, 0), (3, 3 / 2), (3 / 2, 0), (3, -3 / 2)] 3 0
    unfold Interior
    decide +kernel
  · have := hv (by rw [hco]; decide +kernel)
    exact this

/-- **C241** is false for all splines that can be made for this file: the axis has the field of the edge. -/
theorem C241_fails (s : GSplines ℚ) (hs : s.Exact) (g : GField ℚ)
    (h : (diamondFile (fun i j => ((i : ℚ) - 2) ^ 2 + ((j : ℚ) - 2) ^ 2) [5, 4, 3, 2, 1] [4, 3, 2, 1, 0] 0 2 []).init s = .ok g) : ¬ CoreProfiles s := by
  intro hp
  have ha := C241_axis s hs _ _ _ _ _ _ g h
  obtain ⟨core, -, -, -, hf, -, hr, hz, -, -⟩ := GFile.init_ok h
  obtain ⟨h3, h0⟩ := diamond_r (fun i j => ((i : ℚ) - 2) ^ 2 + ((j : ℚ) - 2) ^ 2) [5, 4, 3, 2, 1] [4, 3, 2, 1, 0] 0 2 []
  have e := (hp _ g h (by norm_num [diamondFile]) (by norm_num [diamondFile]) ⟨by norm_num [diamondFile], by unfold diamondFile; decide +kernel⟩
    2 (by norm_num [diamondFile]) 2 (by norm_num [diamondFile]) (by rw [hr, h3]; norm_num)).1
  rw [hr, hz, h3, h0] at e
  have e1 := (e ha.1).1
  rw [ha.2.1] at e1
  have e2 := (GFile.profile_ends hs hf (by norm_num [diamondFile])).1
  have e3 : (diamondFile (fun i j => ((i : ℚ) - 2) ^ 2 + ((j : ℚ) - 2) ^ 2) [5, 4, 3, 2, 1] [4, 3, 2, 1, 0] 0 2 []).norm 2 2 = 0 := by
    norm_num [GFile.norm, diamondFile]
  rw [e3, e2] at e1
  norm_num [diamondFile] at e1

/-- Splines that look up their points, which must be different as in scipy. -/
def lookupSplines : GSplines ℚ :=
  ⟨fun xs zs d => if xs.Nodup ∧ zs.Nodup then .ok fun _ _ x z => d (xs.idxOf x) (zs.idxOf z) else .error (.value "x must be strictly increasing"),
    fun xs a => if xs.Nodup then .ok fun x => a.getD (xs.idxOf x) 0 else .error (.value "x must be strictly increasing")⟩

theorem idxOf_getD {l : List ℚ} (h : l.Nodup) {i : ℕ} (hi : i < l.length) : l.idxOf (l.getD i 0) = i := by
  rw [List.getD_eq_getElem _ _ hi]
  exact h.idxOf_getElem i hi

/-- They are exact. -/
theorem lookupSplines_exact : lookupSplines.Exact := by
  constructor
  · intro xs zs d g h i hi j hj
    unfold lookupSplines at h
    dsimp only at h
    by_cases hn : xs.Nodup ∧ zs.Nodup
    · rw [if_pos hn] at h
      injection h with e
      rw [← e]
      dsimp only
      rw [idxOf_getD hn.1 hi, idxOf_getD hn.2 hj]
    · rw [if_neg hn] at h
      exact absurd h (by simp)
  · intro xs a g h _ i hi
    unfold lookupSplines at h
    dsimp only at h
    by_cases hn : xs.Nodup
    · rw [if_pos hn] at h
      injection h with e
      rw [← e]
      dsimp only
      rw [idxOf_getD hn hi]
    · rw [if_neg hn] at h
      exact absurd h (by simp)

/-- **C242** as stated, for one kind of splines: if the splines can be made and the profiles have the right length, the file can be read. -/
def FileReadable (s : GSplines K) : Prop :=
  ∀ d : GFile K, (∀ a, ∃ f, s.two d.r d.z a = .ok f) → (∀ a, a.length = d.nr → ∃ f, s.one (linspaceClosed 0 1 d.nr) a = .ok f) →
    d.fpol.length = d.nr → d.pres.length = d.nr → ∃ g, d.init s = .ok g

/-- **C242 (partial).** True for files with a plasma boundary.  Then field lines end at the limiter if there is one, and nowhere otherwise.
Missing: files without points of the plasma boundary. -/
theorem C242_partial (s : GSplines K) (d : GFile K) (h2 : ∀ a, ∃ f, s.two d.r d.z a = .ok f)
    (h1 : ∀ a, a.length = d.nr → ∃ f, s.one (linspaceClosed 0 1 d.nr) a = .ok f) (hf : d.fpol.length = d.nr) (hp : d.pres.length = d.nr)
    (hb : d.bdry ≠ []) : ∃ g, d.init s = .ok g ∧ (d.lim = [] → ∀ x y z, g.outside x y z = false) ∧
      (d.lim ≠ [] → ∀ b, PolyBoundary.init d.lim = .ok b → ∀ x y z, g.outside x y z = b.outside x y z) := by
  obtain ⟨core, hc⟩ : ∃ core, PolyBoundary.init d.bdry = .ok core := by
    cases hd : d.bdry with
    | nil => exact absurd hd hb
    | cons p ps => exact ⟨_, rfl⟩
  obtain ⟨psi, e1⟩ := h2 d.psi
  obtain ⟨psn, e2⟩ := h2 (d.psinorm core)
  obtain ⟨f, e3⟩ := h1 _ hf
  obtain ⟨p, e4⟩ := h1 _ hp
  have e3' : d.profile s d.fpol = .ok f := by unfold GFile.profile; rw [if_neg (by simpa using hf), e3]
  have e4' : d.profile s d.pres = .ok p := by unfold GFile.profile; rw [if_neg (by simpa using hp), e4]
  by_cases hl : d.lim = []
  · refine ⟨⟨d.r, d.z, psi, psn, f, p, none⟩, ?_, fun _ x y z => rfl, fun h => absurd hl h⟩
    unfold GFile.init
    rw [e1, hc]
    dsimp only [Except.bind]
    rw [e2]
    dsimp only
    rw [e3', e4', if_pos hl]
    rfl
  · obtain ⟨b, hb'⟩ : ∃ b, PolyBoundary.init d.lim = .ok b := by
      cases hd : d.lim with
      | nil => exact absurd hd hl
      | cons p ps => exact ⟨_, rfl⟩
    refine ⟨⟨d.r, d.z, psi, psn, f, p, some b⟩, ?_, fun h => absurd h hl, ?_⟩
    · unfold GFile.init
      rw [e1, hc]
      dsimp only [Except.bind]
      rw [e2]
      dsimp only
      rw [e3', e4', if_neg hl, hb']
      rfl
    · intro _ b' hbb x y z
      rw [hb'] at hbb
      injection hbb with e
      rw [← e]
      rfl

/-- **C242.** No file without points of the plasma boundary can be read, whatever the splines do. -/
theorem C242_no_boundary (s : GSplines K) (d : GFile K) (hb : d.bdry = []) : ∃ e, d.init s = .error e := by
  unfold GFile.init
  cases h1 : s.two d.r d.z d.psi with
  | error e => exact ⟨e, rfl⟩
  | ok psi => exact ⟨_, by rw [hb]; rfl⟩

/-- **C242** is false for all splines that can be made for four points. -/
theorem C242_fails (s : GSplines ℚ) (h2 : ∀ a, ∃ f, s.two (linspaceClosed 1 2 4) (linspaceClosed (-1) 1 4) a = .ok f)
    (h1 : ∀ a, a.length = 4 → ∃ f, s.one (linspaceClosed 0 1 4) a = .ok f) : ¬ FileReadable s := by
  intro h
  have e1 : (⟨1, 1, 0, 2, 0, 1, 4, 4, fun _ _ => 0, [1, 1, 1, 1], [0, 0, 0, 0], [], []⟩ : GFile ℚ).r = linspaceClosed 1 2 4 := by
    norm_num [GFile.r]
  have e2 : (⟨1, 1, 0, 2, 0, 1, 4, 4, fun _ _ => 0, [1, 1, 1, 1], [0, 0, 0, 0], [], []⟩ : GFile ℚ).z = linspaceClosed (-1) 1 4 := by
    norm_num [GFile.z]
  obtain ⟨g, hg⟩ := h ⟨1, 1, 0, 2, 0, 1, 4, 4, fun _ _ => 0, [1, 1, 1, 1], [0, 0, 0, 0], [], []⟩ (by rw [e1, e2]; exact h2) h1 rfl rfl
  obtain ⟨e, he⟩ := C242_no_boundary s ⟨1, 1, 0, 2, 0, 1, 4, 4, fun _ _ => 0, [1, 1, 1, 1], [0, 0, 0, 0], [], []⟩ rfl
  rw [hg] at he
  exact absurd he (by simp)

/-- The hypotheses of `C242_partial` and `C242_fails` are met by splines that are defined everywhere. -/
example : (∀ a, ∃ f, lookupSplines.two (linspaceClosed 1 2 4) (linspaceClosed (-1) 1 4) a = .ok f) ∧
    ∀ a : List ℚ, a.length = 4 → ∃ f, lookupSplines.one (linspaceClosed 0 1 4) a = .ok f :=
  ⟨fun _ => ⟨_, if_pos ⟨by decide +kernel, by decide +kernel⟩⟩, fun _ _ => ⟨_, if_pos (by decide +kernel)⟩⟩

/-- The hypotheses of `C241_nodes`, `C241_partial`, `C241_axis` and `C241_fails` can be met. -/
example : lookupSplines.Exact ∧
    ∃ g, (diamondFile (fun i j => ((i : ℚ) - 2) ^ 2 + ((j : ℚ) - 2) ^ 2) [5, 4, 3, 2, 1] [4, 3, 2, 1, 0] 0 2 []).init lookupSplines = .ok g := by
  have hr : (linspaceClosed (1 : ℚ) (4 + 1) 5).Nodup := by decide +kernel
  have hz : (linspaceClosed (0 - 1 / 2 * 4 : ℚ) (0 + 1 / 2 * 4) 5).Nodup := by decide +kernel
  have hp : (linspaceClosed (0 : ℚ) 1 5).Nodup := by decide +kernel
  obtain ⟨g, hg, -⟩ := C242_partial lookupSplines (diamondFile (fun i j => ((i : ℚ) - 2) ^ 2 + ((j : ℚ) - 2) ^ 2) [5, 4, 3, 2, 1] [4, 3, 2, 1, 0] 0 2 [])
    (fun a => ⟨_, if_pos ⟨hr, hz⟩⟩) (fun a _ => ⟨_, if_pos hp⟩) rfl rfl (by simp [diamondFile])
  exact ⟨lookupSplines_exact, g, hg⟩

/-- A column beside the corners, as in `C241_partial`: the point (2, 0) is in the core. -/
example : (∀ k, (vertex ([(9 / 2, 0), (3, 3 / 2), (3 / 2, 0), (3, -3 / 2)] : List (ℚ × ℚ)) k).1 ≠ 2) ∧
    Interior ([(9 / 2, 0), (3, 3 / 2), (3 / 2, 0), (3, -3 / 2)] : List (ℚ × ℚ)) 2 0 := by
  constructor
  · intro k
    have hm := vertex_mem (K := ℚ) (pts := [(9 / 2, 0), (3, 3 / 2), (3 / 2, 0), (3, -3 / 2)]) (by simp) k
    simp only [List.mem_cons, List.not_mem_nil, or_false] at hm
    rcases hm with h | h | h | h <;> rw [h] <;> norm_num
  · unfold Interior
    decide +kernel

end Zoidberg
