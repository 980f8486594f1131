import Verif.Props.MakeMaps
import Verif.Props.ParallelIntegral
import Mathlib.Tactic.FieldSimp
import Mathlib.Tactic.IntervalCases

/-! # C237-C239: symmetries of the maps

Two calls of `make_maps` are compared.  What the second one sees in its plane `j' + ε k` is what the first one sees in its
plane `j + k`, with `y` replaced by `s + ε y`, where `ε` is `1` or `-1`. -/

set_option linter.unusedSectionVars false

namespace Zoidberg

variable {K : Type} [Field K] [LinearOrder K] [IsStrictOrderedRing K] [FloorRing K]

/-- Plane `i` of the first grid and plane `i'` of the second have the same poloidal grid, and `y' = s + ε y`. -/
def SamePlane (e e' : MmEnv K) (ε : ℤ) (s : K) (i i' : ℤ) : Prop :=
  ∃ p y, e.grid.getPoloidalGrid (i : K) = .ok (p, y) ∧ e'.grid.getPoloidalGrid (i' : K) = .ok (p, s + (ε : K) * y)

/-- The second field is the first one seen from the coordinate `s + ε y`; its component along `y` is multiplied by `c`. -/
structure SameField (e e' : MmEnv K) (φ φ' : K → K → K → K → K × K) (ε : ℤ) (s c : K) : Prop where
  sign : ε = 1 ∨ ε = -1
  point : PointTracer e φ
  point' : PointTracer e' φ'
  factor : c ≠ 0
  lines : ∀ R Z y y1, φ' R Z (s + (ε : K) * y) (s + (ε : K) * y1) = φ R Z y y1
  outside : ∀ x y z, e'.outside x (s + (ε : K) * y) z = e.outside x y z
  byfunc : ∀ x z y, e'.byfunc x z (s + (ε : K) * y) = c * e.byfunc x z y
  lengths : ∀ (pts : List (K × K)) (ys : List K), pts.length = ys.length →
    e'.lineLength (if ε = 1 then pts else pts.reverse)
      (if ε = 1 then ys.map (fun y => s + (ε : K) * y) else (ys.map fun y => s + (ε : K) * y).reverse) = e.lineLength pts ys
  sqrt : e'.sqrt = e.sqrt
  slab : e'.isSlab = e.isSlab
  gauss : e'.gauss = e.gauss

theorem same_half {e e' : MmEnv K} {ε : ℤ} (hε : ε = 1 ∨ ε = -1) {s : K} {j j' : ℤ}
    (hs : ∀ k : ℤ, SamePlane e e' ε s (j + k) (j' + ε * k)) :
    (∃ p y, e.grid.getPoloidalGrid ((j : K) + 1 / 2) = .ok (p, y) ∧
      e'.grid.getPoloidalGrid ((j' : K) + (ε : K) * (1 / 2)) = .ok (p, s + (ε : K) * y)) := by
  have mid : ∀ (f : MmEnv K) (i : ℤ) (a b : K), f.grid.HasY i a → f.grid.HasY (i + 1) b →
      f.grid.getPoloidalGrid ((i : K) + 1 / 2) = .ok (none, a + (1 - 1 / 2) * (b - a)) := fun f i a b ha hb =>
    fractional_lookup f.grid i _ a b (by norm_num) (by norm_num) ha hb
  obtain ⟨p0, y0, a0, b0⟩ := hs 0
  obtain ⟨p1, y1, a1, b1⟩ := hs 1
  rw [add_zero] at a0
  rw [mul_zero, add_zero] at b0
  refine ⟨_, _, mid e j y0 y1 ⟨p0, a0⟩ ⟨p1, a1⟩, ?_⟩
  rcases hε with rfl | rfl
  · rw [mul_one] at b1
    have := mid e' j' _ _ ⟨p0, b0⟩ ⟨p1, b1⟩
    have e1 : (j' : K) + ((1 : ℤ) : K) * (1 / 2) = (j' : K) + 1 / 2 := by push_cast; ring
    rw [e1, this]
    congr 2
    push_cast
    ring
  · have h0 : e'.grid.HasY (j' - 1 + 1) (s + ((-1 : ℤ) : K) * y0) := by
      rw [sub_add_cancel]
      exact ⟨p0, b0⟩
    have h1 : e'.grid.HasY (j' - 1) (s + ((-1 : ℤ) : K) * y1) := by
      rw [show j' - 1 = j' + -1 * 1 by ring]
      exact ⟨p1, b1⟩
    have := mid e' (j' - 1) _ _ h1 h0
    have e1 : (j' : K) + ((-1 : ℤ) : K) * (1 / 2) = ((j' - 1 : ℤ) : K) + 1 / 2 := by push_cast; ring
    rw [e1, this]
    congr 2
    push_cast
    ring

theorem same_half_below {e e' : MmEnv K} {ε : ℤ} (hε : ε = 1 ∨ ε = -1) {s : K} {j j' : ℤ}
    (hs : ∀ k : ℤ, SamePlane e e' ε s (j + k) (j' + ε * k)) :
    (∃ p y, e.grid.getPoloidalGrid ((j : K) + -1 / 2) = .ok (p, y) ∧
      e'.grid.getPoloidalGrid ((j' : K) + (ε : K) * (-1 / 2)) = .ok (p, s + (ε : K) * y)) := by
  have hs' : ∀ k : ℤ, SamePlane e e' ε s ((j - 1) + k) ((j' - ε) + ε * k) := by
    intro k
    have := hs (k - 1)
    rwa [show j + (k - 1) = j - 1 + k by ring, show j' + ε * (k - 1) = j' - ε + ε * k by ring] at this
  obtain ⟨p, y, h1, h2⟩ := same_half hε hs'
  refine ⟨p, y, ?_, ?_⟩
  · rw [← h1]
    congr 1
    push_cast
    ring
  · rw [← h2]
    congr 1
    push_cast
    ring

/-- The number of an offset seen from the second call. -/
def PyNum.turn (ε : ℤ) : PyNum K → PyNum K
  | .int n => .int (ε * n)
  | .float v => .float ((ε : K) * v)

theorem PyNum.turn_val (ε : ℤ) (o : PyNum K) : (o.turn ε).val = (ε : K) * o.val := by
  cases o <;> simp [turn, val]

theorem offsetsOf_turn (nslice : ℕ) (ε dir : ℤ) :
    (offsetsOf nslice (ε * dir) : List (PyNum K)) = (offsetsOf nslice dir).map (PyNum.turn ε) := by
  unfold offsetsOf
  simp only [List.map_cons, List.map_map, PyNum.turn]
  congr 2
  · push_cast; ring
  · funext i
    simp [PyNum.turn, mul_assoc]

/-- Lookup at the offset of a slice. -/
theorem same_offset {e e' : MmEnv K} {ε : ℤ} (hε : ε = 1 ∨ ε = -1) {s : K} {j j' : ℕ}
    (hs : ∀ k : ℤ, SamePlane e e' ε s ((j : ℤ) + k) ((j' : ℤ) + ε * k)) {nslice : ℕ} {dir : ℤ} (hd : dir = 1 ∨ dir = -1)
    {o : PyNum K} (ho : o ∈ (offsetsOf nslice dir : List (PyNum K))) :
    ∃ p y, e.grid.getPoloidalGrid ((j : K) + o.val) = .ok (p, y) ∧
      e'.grid.getPoloidalGrid ((j' : K) + (o.turn ε).val) = .ok (p, s + (ε : K) * y) := by
  rw [PyNum.turn_val]
  unfold offsetsOf at ho
  rcases List.mem_cons.1 ho with rfl | ho
  · rcases hd with rfl | rfl
    · have := same_half hε hs
      simpa [PyNum.val] using this
    · obtain ⟨p, y, h1, h2⟩ := same_half_below hε hs
      refine ⟨p, y, ?_, ?_⟩
      · rw [← h1]
        congr 1
        simp only [PyNum.val]
        push_cast
        ring
      · rw [← h2]
        congr 1
        simp only [PyNum.val]
        push_cast
        ring
  · obtain ⟨i, _, rfl⟩ := List.mem_map.1 ho
    obtain ⟨p, y, h1, h2⟩ := hs (dir * ((i : ℤ) + 1))
    refine ⟨p, y, ?_, ?_⟩
    · rw [← h1]
      simp [PyNum.val]
    · rw [← h2]
      simp [PyNum.val]

/-- The two lists of targets. -/
theorem targets_turn {e e' : MmEnv K} {ε : ℤ} (hε : ε = 1 ∨ ε = -1) {s : K} {j j' : ℕ}
    (hs : ∀ k : ℤ, SamePlane e e' ε s ((j : ℤ) + k) ((j' : ℤ) + ε * k)) {nslice : ℕ} {dir : ℤ} (hd : dir = 1 ∨ dir = -1)
    {ts ts' : List (Option (MapPol K) × K)}
    (h : (offsetsOf nslice dir).mapM (fun o => e.grid.getPoloidalGrid ((j : K) + o.val)) = .ok ts)
    (h' : (offsetsOf nslice (ε * dir)).mapM (fun o => e'.grid.getPoloidalGrid ((j' : K) + o.val)) = .ok ts') :
    ts' = ts.map fun t => (t.1, s + (ε : K) * t.2) := by
  have l1 := mapM_length h
  have l2 := mapM_length h'
  rw [length_offsetsOf] at l1 l2
  refine List.ext_getElem? ?_
  intro i
  by_cases hi : i < nslice + 1
  · have hio : i < (offsetsOf nslice dir : List (PyNum K)).length := by rw [length_offsetsOf]; exact hi
    have ho := List.getElem?_eq_getElem hio
    have ho' : (offsetsOf nslice (ε * dir) : List (PyNum K))[i]? = some ((offsetsOf nslice dir)[i].turn ε) := by
      rw [offsetsOf_turn, List.getElem?_map, ho]
      rfl
    obtain ⟨t, a1, a2⟩ := mapM_getElem? h i _ ho
    obtain ⟨t', b1, b2⟩ := mapM_getElem? h' i _ ho'
    obtain ⟨p, y, c1, c2⟩ := same_offset hε hs hd (List.getElem_mem hio)
    rw [c1] at a2
    rw [c2] at b2
    injection a2 with a2
    injection b2 with b2
    rw [List.getElem?_map, a1, b1, ← a2, ← b2]
    rfl
  · rw [List.getElem?_eq_none (by omega), List.getElem?_eq_none (by rw [List.length_map]; omega)]

theorem indexOf_turn {e e' : MmEnv K} {φ φ' : K → K → K → K → K × K} {ε : ℤ} {s c : K} (hf : SameField e e' φ φ' ε s c)
    (yl : K) (t : Option (MapPol K)) (coord : ℕ → ℕ → K × K) :
    indexOf e' (s + (ε : K) * yl) t coord = indexOf e yl t coord := by
  cases t with
  | none => rfl
  | some p =>
    funext x z
    unfold indexOf indicesOf
    simp only [hf.outside]

theorem getLastD_map' (f : K → K) (l : List K) (a : K) : (l.map f).getLastD (f a) = f (l.getLastD a) := by
  rw [List.getLastD_eq_getLast?, List.getLastD_eq_getLast?, List.getLast?_map]
  cases l.getLast? <;> rfl

theorem samples_turn {e e' : MmEnv K} {φ φ' : K → K → K → K → K × K} {ε : ℤ} {s c : K} (hf : SameField e e' φ φ' ε s c)
    (n : ℕ) : samples e' n = samples e n := by
  unfold samples
  rw [hf.gauss]

/-- The arrays of a slice in the two planes. -/
theorem filled_turn {e e' : MmEnv K} {φ φ' : K → K → K → K → K × K} {ε : ℤ} {s c : K} (hf : SameField e e' φ φ' ε s c)
    {j j' : ℕ} (hs : ∀ k : ℤ, SamePlane e e' ε s ((j : ℤ) + k) ((j' : ℤ) + ε * k)) {nslice : ℕ} {dir : ℤ}
    (hd : dir = 1 ∨ dir = -1) {nx nz : ℕ} {smp : Option (List (K × K × K))} {ns i : ℕ} {ps ps' : PSlice K}
    (hi : i < nslice + 1) (hsm : ns = 1 → smp = none)
    (h : Filled e nx nz smp ns (offsetsOf nslice dir) j i ps)
    (h' : Filled e' nx nz smp ns (offsetsOf nslice (ε * dir)) j' i ps') :
    ∀ x z, ps'.R (x, j', z) = ps.R (x, j, z) ∧ ps'.Z (x, j', z) = ps.Z (x, j, z) ∧
      ps'.xt (x, j', z) = ps.xt (x, j, z) ∧ ps'.zt (x, j', z) = ps.zt (x, j, z) ∧
      ∀ t < (sampleWeights smp).length, ps'.xts (x, j', z) t = ps.xts (x, j, z) t ∧
        ps'.zts (x, j', z) t = ps.zts (x, j, z) t := by
  obtain ⟨pol, y, ts, coord, t, a1, a2, a3, a4, a5, a6, a7⟩ := h
  obtain ⟨pol', y', ts', coord', t', b1, b2, b3, b4, b5, b6, b7⟩ := h'
  obtain ⟨p0, y0, c1, c2⟩ := hs 0
  rw [add_zero] at c1
  rw [mul_zero, add_zero] at c2
  have p1 := plane_eq a1
  have p2 := plane_eq b1
  have c1 : e.grid.getPoloidalGrid (j : K) = .ok (p0, y0) := by simpa using c1
  have c2 : e'.grid.getPoloidalGrid (j' : K) = .ok (p0, s + (ε : K) * y0) := by simpa using c2
  rw [c1] at p1
  rw [c2] at p2
  injection p1 with p1
  injection p2 with p2
  injection p1 with p1 p1'
  injection p2 with p2 p2'
  subst p1'
  subst p2'
  subst p1
  injection p2 with p2
  subst p2
  have ht := targets_turn hf.sign hs hd a2 b2
  subst ht
  rw [List.getElem?_map, a4] at b4
  simp only [Option.map_some, Option.some.injEq] at b4
  subst b4
  have ey : (ts.map (fun t => (t.1, s + (ε : K) * t.2))).map (·.2) = (ts.map (·.2)).map fun y => s + (ε : K) * y := by
    simp [Function.comp_def]
  rw [hf.point, List.getElem?_map, List.getElem?_cons_succ, List.getElem?_map, a4] at a3
  rw [hf.point', ey, List.getElem?_map, List.getElem?_cons_succ, List.getElem?_map, List.getElem?_map, a4] at b3
  simp only [Option.map_some, Option.some.injEq] at a3 b3
  have hc : coord' = coord := by
    rw [← a3, ← b3]
    funext x z
    rw [hf.lines]
  subst hc
  have el : ((ts.map (·.2)).map fun y => s + (ε : K) * y).getLastD (s + (ε : K) * y0) =
      s + (ε : K) * (ts.map (·.2)).getLastD y0 := getLastD_map' (fun y => s + (ε : K) * y) (ts.map (·.2)) y0
  rw [ey] at b5 b7
  rw [el] at b5 b7
  simp only [indexOf_turn hf] at b5 b7
  intro x z
  obtain ⟨u1, u2, u3, u4⟩ := a5 x z
  obtain ⟨v1, v2, v3, v4⟩ := b5 x z
  refine ⟨by rw [u1, v1], by rw [u2, v2], by rw [u3, v3], by rw [u4, v4], ?_⟩
  intro q hq
  rw [length_offsetsOf] at a6 a7 b6 b7
  by_cases hl : i + 1 < nslice + 1
  · obtain ⟨w1, w2⟩ := a6 hl x z q
    obtain ⟨w3, w4⟩ := b6 hl x z q
    exact ⟨by rw [w1, w3], by rw [w2, w4]⟩
  · have hi' : i + 1 = nslice + 1 := by omega
    have g := a7 hi'
    have g' := b7 hi'
    by_cases hn : ns = 1
    · have hq0 : q = 0 := by
        rw [hsm hn] at hq
        simpa [sampleWeights] using hq
      subst hq0
      obtain ⟨w1, w2⟩ := g.single hn x z
      obtain ⟨w3, w4⟩ := g'.single hn x z
      exact ⟨by rw [w1, w3], by rw [w2, w4]⟩
    · cases ht : t.1 with
      | none =>
        obtain ⟨w1, w2⟩ := g.boundary hn ht x z q
        obtain ⟨w3, w4⟩ := g'.boundary hn ht x z q
        exact ⟨by rw [w1, w3], by rw [w2, w4]⟩
      | some tp =>
        obtain ⟨l, hl1, hl2⟩ := g.many hn tp ht
        obtain ⟨l', hl1', hl2'⟩ := g'.many hn tp ht
        rw [hl1] at hl1' hq
        injection hl1' with hl1'
        subst hl1'
        have hq' : q < l.length := by simpa [sampleWeights] using hq
        obtain ⟨co, d1, d2⟩ := hl2 q _ (List.getElem?_eq_getElem hq')
        obtain ⟨co', d1', d2'⟩ := hl2' q _ (List.getElem?_eq_getElem hq')
        rw [hf.point] at d1
        rw [hf.point'] at d1'
        simp only [List.map_cons, List.map_nil, List.getElem?_cons_succ, List.getElem?_cons_zero, Option.some.injEq] at d1 d1'
        have hco : co' = co := by
          rw [← d1, ← d1']
          funext x z
          rw [hf.lines]
        subst hco
        have hi2 : indicesOf e' tp (s + (ε : K) * (ts.map (·.2)).getLastD y0) co' =
            indicesOf e tp ((ts.map (·.2)).getLastD y0) co' := indexOf_turn hf _ (some tp) co'
        rw [hi2] at d2'
        obtain ⟨w1, w2⟩ := d2 x z
        obtain ⟨w3, w4⟩ := d2' x z
        exact ⟨by rw [w1, w3], by rw [w2, w4]⟩

/-! ## Slices -/

/-- Everything that is assumed of the two calls for the planes `j` and `j'`. -/
structure Same (e e' : MmEnv K) (φ φ' : K → K → K → K → K × K) (ε : ℤ) (s c : K) (j j' : ℕ) : Prop where
  field : SameField e e' φ φ' ε s c
  ok : FollowOk e
  ok' : FollowOk e'
  planes : ∀ k : ℤ, SamePlane e e' ε s ((j : ℤ) + k) ((j' : ℤ) + ε * k)
  lt : j < e.grid.ny
  lt' : j' < e'.grid.ny
  first : ∀ p y p' y', e.grid.getPoloidalGrid ((0 : ℕ) : K) = .ok (some p, y) →
    e'.grid.getPoloidalGrid ((0 : ℕ) : K) = .ok (some p', y') → p'.nx = p.nx ∧ p'.nz = p.nz

theorem samples_one {e : MmEnv K} {n : ℕ} {smp : Option (List (K × K × K))} (h : samples e n = .ok smp) (hn : n ^ 2 = 1) :
    smp = none := by
  have : n = 1 := by
    rcases Nat.lt_or_ge n 2 with h2 | h2
    · interval_cases n
      · simp at hn
      · rfl
    · nlinarith
  subst this
  unfold samples at h
  rw [if_neg (by norm_num)] at h
  injection h with h
  exact h.symm

theorem slice_turn {e e' : MmEnv K} {φ φ' : K → K → K → K → K × K} {ε : ℤ} {s c : K} {j j' : ℕ}
    (hf : Same e e' φ φ' ε s c j j') {nslice mxg n r nc mxg' r' nc' : ℕ} {empty empty' : JState K} {m m' : ODict (MapVal K)}
    (h : makeMaps e nslice mxg n r nc empty = .ok m) (h' : makeMaps e' nslice mxg' n r' nc' empty' = .ok m')
    {dir : ℤ} (hd : dir = 1 ∨ dir = -1) {i : ℕ} {o : PyNum K} (ho : (offsetsOf nslice dir)[i]? = some o) :
    ∃ smp ps ps', samples e n = .ok smp ∧ ps.offset = o ∧ ps'.offset = o.turn ε ∧
      (∀ k v, (k, v) ∈ entryList e ps → isHalfIndex k = false → m.get? k = some v) ∧
      (∀ k v, (k, v) ∈ entryList e' ps' → isHalfIndex k = false → m'.get? k = some v) ∧
      ∀ x z, ps'.R (x, j', z) = ps.R (x, j, z) ∧ ps'.Z (x, j', z) = ps.Z (x, j, z) ∧
      ps'.xt (x, j', z) = ps.xt (x, j, z) ∧ ps'.zt (x, j', z) = ps.zt (x, j, z) ∧
      ∀ t < (sampleWeights smp).length, ps'.xts (x, j', z) t = ps.xts (x, j, z) t ∧
        ps'.zts (x, j', z) t = ps.zts (x, j, z) t := by
  have hd' : ε * dir = 1 ∨ ε * dir = -1 := by
    rcases hf.field.sign with rfl | rfl <;> rcases hd with rfl | rfl <;> simp
  have ho' : (offsetsOf nslice (ε * dir) : List (PyNum K))[i]? = some (o.turn ε) := by
    rw [offsetsOf_turn, List.getElem?_map, ho]
    rfl
  have hi : i < nslice + 1 := by
    rw [← length_offsetsOf (K := K) nslice dir]
    exact (List.getElem?_eq_some_iff.1 ho).1
  obtain ⟨f, y, smp, ps, a1, a2, a3, a4, a5⟩ := makeMaps_slice h hf.ok hd ho
  obtain ⟨f', y', smp', ps', b1, b2, b3, b4, b5⟩ := makeMaps_slice h' hf.ok' hd' ho'
  obtain ⟨n1, n2⟩ := hf.first f y f' y' (plane_eq a1) (plane_eq b1)
  rw [samples_turn hf.field, a2] at b2
  injection b2 with b2
  subst b2
  refine ⟨smp, ps, ps', a2, a3, b3, a5, b5, ?_⟩
  have g' := b4 j' hf.lt'
  rw [n1, n2] at g'
  exact filled_turn hf.field hf.planes hd hi (samples_one a2) (a4 j hf.lt) g'

/-- The value of an array at one place; `none` for what is not an array, or without such a sample. -/
def MapVal.at (v : MapVal K) (c : Cell) (t : ℕ) : Option K :=
  match v with
  | .f3 a => some (a c)
  | .f4 a => some (a c t)
  | _ => none

/-- The slices of the two calls: all six arrays at the whole offset `d` in plane `j` are those at the offset `ε d` in
plane `j'` of the other call. -/
theorem maps_slices {e e' : MmEnv K} {φ φ' : K → K → K → K → K × K} {ε : ℤ} {s c : K} {j j' : ℕ}
    (hf : Same e e' φ φ' ε s c j j') {nslice mxg n r nc mxg' r' nc' : ℕ} {empty empty' : JState K} {m m' : ODict (MapVal K)}
    (h : makeMaps e nslice mxg n r nc empty = .ok m) (h' : makeMaps e' nslice mxg' n r' nc' empty' = .ok m')
    (d : ℤ) (hd0 : d ≠ 0) (hd : d.natAbs ≤ nslice) (f : String)
    (hfm : f ∈ ["R", "Z", "xt_prime", "zt_prime", "xt_primes", "zt_primes"]) :
    ∃ smp v v', samples e n = .ok smp ∧ m.get? (sliceName f d) = some v ∧ m'.get? (sliceName f (ε * d)) = some v' ∧
      ∀ x z, ∀ t < (sampleWeights smp).length, v'.at (x, j', z) t = v.at (x, j, z) t ∧ v.at (x, j, z) t ≠ none := by
  obtain ⟨ho, hs⟩ := offsetsOf_int (K := K) nslice d hd0 hd
  have hε0 : ε * d ≠ 0 := by
    rcases hf.field.sign with rfl | rfl <;> simpa using hd0
  obtain ⟨smp, ps, ps', a1, a2, a3, a4, a5, a6⟩ := slice_turn hf h h' hs ho
  have names : ∀ f ∈ sixFields, isHalfIndex (nm e f (.int d)) = false := fun f hfm =>
    not_half_int e f (six_no_l f hfm) d hd0
  have names' : ∀ f ∈ sixFields, isHalfIndex (nm e' f (.int (ε * d))) = false := fun f hfm =>
    not_half_int e' f (six_no_l f hfm) (ε * d) hε0
  have k1 : ∀ f ∈ sixFields, ∀ v, (f, v) ∈ [("R", MapVal.f3 ps.R), ("Z", .f3 ps.Z), ("xt_prime", .f3 ps.xt),
      ("zt_prime", .f3 ps.zt), ("xt_primes", .f4 ps.xts), ("zt_primes", .f4 ps.zts)] → m.get? (sliceName f d) = some v := by
    intro f hf v hv
    rw [← nm_sliceName e f d hd0]
    refine a4 _ _ ?_ (names f hf)
    rw [← a2]
    simp only [List.mem_cons, Prod.mk.injEq, List.not_mem_nil, or_false] at hv
    unfold entryList
    rcases hv with ⟨rfl, rfl⟩ | ⟨rfl, rfl⟩ | ⟨rfl, rfl⟩ | ⟨rfl, rfl⟩ | ⟨rfl, rfl⟩ | ⟨rfl, rfl⟩ <;> simp
  have k2 : ∀ f ∈ sixFields, ∀ v, (f, v) ∈ [("R", MapVal.f3 ps'.R), ("Z", .f3 ps'.Z), ("xt_prime", .f3 ps'.xt),
      ("zt_prime", .f3 ps'.zt), ("xt_primes", .f4 ps'.xts), ("zt_primes", .f4 ps'.zts)] →
      m'.get? (sliceName f (ε * d)) = some v := by
    intro f hf v hv
    rw [← nm_sliceName e' f _ hε0]
    refine a5 _ _ ?_ (names' f hf)
    rw [show (PyNum.int (ε * d) : PyNum K) = ps'.offset by rw [a3]; rfl]
    simp only [List.mem_cons, Prod.mk.injEq, List.not_mem_nil, or_false] at hv
    unfold entryList
    rcases hv with ⟨rfl, rfl⟩ | ⟨rfl, rfl⟩ | ⟨rfl, rfl⟩ | ⟨rfl, rfl⟩ | ⟨rfl, rfl⟩ | ⟨rfl, rfl⟩ <;> simp
  simp only [List.mem_cons, List.not_mem_nil, or_false] at hfm
  rcases hfm with rfl | rfl | rfl | rfl | rfl | rfl
  · refine ⟨smp, _, _, a1, k1 "R" (by decide) (.f3 ps.R) (by simp), k2 "R" (by decide) (.f3 ps'.R) (by simp), ?_⟩
    intro x z t _
    exact ⟨congrArg some (a6 x z).1, by simp [MapVal.at]⟩
  · refine ⟨smp, _, _, a1, k1 "Z" (by decide) (.f3 ps.Z) (by simp), k2 "Z" (by decide) (.f3 ps'.Z) (by simp), ?_⟩
    intro x z t _
    exact ⟨congrArg some (a6 x z).2.1, by simp [MapVal.at]⟩
  · refine ⟨smp, _, _, a1, k1 "xt_prime" (by decide) (.f3 ps.xt) (by simp),
      k2 "xt_prime" (by decide) (.f3 ps'.xt) (by simp), ?_⟩
    intro x z t _
    exact ⟨congrArg some (a6 x z).2.2.1, by simp [MapVal.at]⟩
  · refine ⟨smp, _, _, a1, k1 "zt_prime" (by decide) (.f3 ps.zt) (by simp),
      k2 "zt_prime" (by decide) (.f3 ps'.zt) (by simp), ?_⟩
    intro x z t _
    exact ⟨congrArg some (a6 x z).2.2.2.1, by simp [MapVal.at]⟩
  · refine ⟨smp, _, _, a1, k1 "xt_primes" (by decide) (.f4 ps.xts) (by simp),
      k2 "xt_primes" (by decide) (.f4 ps'.xts) (by simp), ?_⟩
    intro x z t ht
    exact ⟨congrArg some ((a6 x z).2.2.2.2 t ht).1, by simp [MapVal.at]⟩
  · refine ⟨smp, _, _, a1, k1 "zt_primes" (by decide) (.f4 ps.zts) (by simp),
      k2 "zt_primes" (by decide) (.f4 ps'.zts) (by simp), ?_⟩
    intro x z t ht
    exact ⟨congrArg some ((a6 x z).2.2.2.2 t ht).2, by simp [MapVal.at]⟩

/-- The positions at the cell faces: those above the cell (`dir = 1`) or below it (`dir = -1`). -/
theorem maps_halves {e e' : MmEnv K} {φ φ' : K → K → K → K → K × K} {ε : ℤ} {s c : K} {j j' : ℕ}
    (hf : Same e e' φ φ' ε s c j j') {nslice mxg n r nc mxg' r' nc' : ℕ} {empty empty' : JState K} {m m' : ODict (MapVal K)}
    (h : makeMaps e nslice mxg n r nc empty = .ok m) (h' : makeMaps e' nslice mxg' n r' nc' empty' = .ok m')
    (dir : ℤ) (hd : dir = 1 ∨ dir = -1) (f : String) (hfm : f ∈ ["R", "Z"]) :
    ∃ a a', m.get? (f ++ if dir = 1 then "_cell_yhigh" else "_cell_ylow") = some (.f3 a) ∧
      m'.get? (f ++ if ε * dir = 1 then "_cell_yhigh" else "_cell_ylow") = some (.f3 a') ∧
      ∀ x z, a' (x, j', z) = a (x, j, z) := by
  have ho : (offsetsOf nslice dir : List (PyNum K))[0]? = some (.float ((dir : K) * (1 / 2))) := rfl
  obtain ⟨smp, ps, ps', a1, a2, a3, a4, a5, a6⟩ := slice_turn hf h h' hd ho
  have hd' : ε * dir = 1 ∨ ε * dir = -1 := by
    rcases hf.field.sign with rfl | rfl <;> rcases hd with rfl | rfl <;> simp
  have nmh : ∀ (e : MmEnv K) (f : String) (g : ℤ), g = 1 ∨ g = -1 →
      nm e f (.float ((g : K) * (1 / 2))) = f ++ if g = 1 then "_cell_yhigh" else "_cell_ylow" := by
    intro e f g hg
    rcases hg with rfl | rfl
    · have : ((1 : ℤ) : K) * (1 / 2) = 1 / 2 := by norm_num
      rw [this, (nm_half e f).1]; rfl
    · have : ((-1 : ℤ) : K) * (1 / 2) = -1 / 2 := by norm_num
      rw [this, (nm_half e f).2]; rfl
  have ho' : ps'.offset = .float (((ε * dir : ℤ) : K) * (1 / 2)) := by
    rw [a3]
    simp only [PyNum.turn]
    congr 1
    push_cast
    ring
  have kept : ∀ f ∈ ["R", "Z"], ∀ g : ℤ, isHalfIndex (f ++ if g = 1 then "_cell_yhigh" else "_cell_ylow") = false := by
    intro f hf g
    by_cases hg : g = 1
    · rw [if_pos hg]
      revert f
      decide +kernel
    · rw [if_neg hg]
      revert f
      decide +kernel
  have n1 := nmh e f dir hd
  have n2 := nmh e' f (ε * dir) hd'
  rw [← n1, ← n2]
  have q1 := kept f hfm dir
  have q2 := kept f hfm (ε * dir)
  rw [← n1] at q1
  rw [← n2] at q2
  rw [← a2] at q1 ⊢
  rw [← ho'] at q2 ⊢
  simp only [List.mem_cons, List.not_mem_nil, or_false] at hfm
  rcases hfm with rfl | rfl
  · exact ⟨ps.R, ps'.R, a4 _ _ (by simp [entryList]) q1, a5 _ _ (by simp [entryList]) q2, fun x z => (a6 x z).1⟩
  · exact ⟨ps.Z, ps'.Z, a4 _ _ (by simp [entryList]) q1, a5 _ _ (by simp [entryList]) q2, fun x z => (a6 x z).2.1⟩

/-! ## Quantities along the field lines -/

theorem yPoint_shift (r : ℕ) (s y ylow yhigh : K) (i : ℕ) :
    yPoint r (s + y) (s + ylow) (s + yhigh) i = s + yPoint r y ylow yhigh i := by
  unfold yPoint
  split_ifs <;> ring

theorem yPoint_mirror (r : ℕ) (s y ylow yhigh : K) (i : ℕ) (hi : i ≤ 4 * r) :
    yPoint r (s - y) (s - yhigh) (s - ylow) i = s - yPoint r y ylow yhigh (4 * r - i) := by
  unfold yPoint
  by_cases h1 : i ≤ 2 * r
  · rw [if_pos h1]
    by_cases h2 : 4 * r - i ≤ 2 * r
    · rw [if_pos h2, show 2 * r - i = 0 by omega, show 2 * r - (4 * r - i) = 0 by omega]
      ring
    · rw [if_neg h2, show 4 * r - i - 2 * r = 2 * r - i by omega]
      ring
  · rw [if_neg h1, if_pos (by omega), show 2 * r - (4 * r - i) = i - 2 * r by omega]
    ring

/-- The number of the array that takes the place of array `q`: with `ε = -1` the lower and the upper faces change places. -/
def turnLine (ε : ℤ) (q : ℕ) : ℕ :=
  if ε = 1 then q else if q = 1 then 3 else if q = 3 then 1 else if q = 4 then 6 else if q = 6 then 4 else q

theorem lineValue_shift {e e' : MmEnv K} {φ φ' : K → K → K → K → K × K} {s c : K} (hf : SameField e e' φ φ' 1 s c)
    (r : ℕ) (v : K) (pt : ℕ → K × K) (ypt : ℕ → K) (q : ℕ) :
    lineValue e' r v pt (fun i => s + ypt i) q = (if 4 ≤ q then c else 1) * lineValue e r v pt ypt q := by
  have hb : ∀ x z y, e'.byfunc x z (s + y) = c * e.byfunc x z y := by
    intro x z y
    have := hf.byfunc x z y
    simpa using this
  unfold lineValue
  by_cases h0 : q = 0
  · subst h0
    simp only [if_true, hb, show ¬ 4 ≤ 0 by omega, if_false, one_mul]
    congr 3
    funext i
    rw [mul_left_comm v c, mul_div_mul_left _ _ hf.factor]
  · by_cases h3 : q ≤ 3
    · simp only [h0, if_false, h3, if_true, show ¬ 4 ≤ q by omega, one_mul]
      have := hf.lengths ((List.range (2 * r + 1)).map fun i => pt (r * (q - 1) + i))
        ((List.range (2 * r + 1)).map fun i => ypt (r * (q - 1) + i)) (by simp)
      simp only [if_true, List.map_map, Int.cast_one, one_mul] at this
      exact this
    · simp only [h0, if_false, h3, hb, show 4 ≤ q by omega, if_true]

theorem map_range_reverse {A : Type} (f g : ℕ → A) (n : ℕ) (h : ∀ i < n, f i = g (n - 1 - i)) :
    (List.range n).map f = ((List.range n).map g).reverse := by
  refine List.ext_getElem (by simp) ?_
  intro i h1 h2
  simp only [List.length_map, List.length_range] at h1
  simp [h i h1]

theorem lineValue_mirror {e e' : MmEnv K} {φ φ' : K → K → K → K → K × K} {s c : K} (hf : SameField e e' φ φ' (-1) s c)
    (r : ℕ) (v : K) (pt pt' : ℕ → K × K) (ypt ypt' : ℕ → K) (hp : ∀ i ≤ 4 * r, pt' i = pt (4 * r - i))
    (hy : ∀ i ≤ 4 * r, ypt' i = s - ypt (4 * r - i)) (q : ℕ) (hq : q < 7) :
    lineValue e' r v pt' ypt' (turnLine (-1) q) = (if 4 ≤ q then c else 1) * lineValue e r v pt ypt q := by
  have hb : ∀ i ≤ 4 * r, e'.byfunc (pt' i).1 (pt' i).2 (ypt' i) =
      c * e.byfunc (pt (4 * r - i)).1 (pt (4 * r - i)).2 (ypt (4 * r - i)) := by
    intro i hi
    have := hf.byfunc (pt (4 * r - i)).1 (pt (4 * r - i)).2 (ypt (4 * r - i))
    rw [hp i hi, hy i hi, ← this]
    congr 1
    push_cast
    ring
  have hl : ∀ a a' : ℕ, a + a' = 2 * r → e'.lineLength ((List.range (2 * r + 1)).map fun i => pt' (a' + i))
      ((List.range (2 * r + 1)).map fun i => ypt' (a' + i)) = e.lineLength ((List.range (2 * r + 1)).map fun i => pt (a + i))
      ((List.range (2 * r + 1)).map fun i => ypt (a + i)) := by
    intro a a' ha
    have := hf.lengths ((List.range (2 * r + 1)).map fun i => pt (a + i))
      ((List.range (2 * r + 1)).map fun i => ypt (a + i)) (by simp)
    rw [← this, if_neg (by norm_num), if_neg (by norm_num), List.map_map]
    congr 1
    · refine map_range_reverse _ _ _ ?_
      intro i hi
      rw [hp _ (by omega)]
      congr 1
      omega
    · refine map_range_reverse _ _ _ ?_
      intro i hi
      rw [hy _ (by omega)]
      simp only [Function.comp]
      rw [show 4 * r - (a' + i) = a + (2 * r + 1 - 1 - i) by omega]
      push_cast
      ring
  have h7 : q = 0 ∨ q = 1 ∨ q = 2 ∨ q = 3 ∨ q = 4 ∨ q = 5 ∨ q = 6 := by omega
  unfold lineValue turnLine
  rcases h7 with rfl | rfl | rfl | rfl | rfl | rfl | rfl
  · simp only [if_true, show ¬ 4 ≤ 0 by omega, if_false, one_mul, show ¬ ((-1 : ℤ) = 1) by norm_num, show ¬ (0 = 1) by norm_num,
      show ¬ (0 = 3) by norm_num, show ¬ (0 = 4) by norm_num, show ¬ (0 = 6) by norm_num]
    congr 1
    rw [map_range_reverse _ (fun i => (if i = 0 ∨ i = 2 * r then 1 / 2 else 1) *
      (v * e.byfunc (pt (2 * r)).1 (pt (2 * r)).2 (ypt (2 * r)) /
        e.byfunc (pt (r + i)).1 (pt (r + i)).2 (ypt (r + i)) * (pt (r + i)).1)) (2 * r + 1), List.sum_reverse]
    intro i hi
    rw [hb _ (by omega), hb _ (by omega), hp _ (by omega), show 4 * r - 2 * r = 2 * r by omega,
      show 4 * r - (r + i) = r + (2 * r + 1 - 1 - i) by omega, mul_left_comm v c, mul_div_mul_left _ _ hf.factor]
    congr 1
    by_cases h1 : i = 0 ∨ i = 2 * r
    · rw [if_pos h1, if_pos (by omega)]
    · rw [if_neg h1, if_neg (by omega)]
  · have := hl (r * 0) (r * 2) (by omega)
    norm_num at this ⊢
    exact this
  · have := hl (r * 1) (r * 1) (by omega)
    norm_num at this ⊢
    exact this
  · have := hl (r * 2) (r * 0) (by omega)
    norm_num at this ⊢
    exact this
  · have := hb (r * 3) (by omega)
    rw [show 4 * r - r * 3 = r * 1 by omega] at this
    norm_num at this ⊢
    exact this
  · have := hb (r * 2) (by omega)
    rw [show 4 * r - r * 2 = r * 2 by omega] at this
    norm_num at this ⊢
    exact this
  · have := hb (r * 1) (by omega)
    rw [show 4 * r - r * 1 = r * 3 by omega] at this
    norm_num at this ⊢
    exact this

/-- `J`, the lengths and `By` of the two calls: `J` and the lengths are the same, `By` is multiplied by the factor, and with
`ε = -1` the two faces change places. -/
theorem maps_lines {e e' : MmEnv K} {φ φ' : K → K → K → K → K × K} {ε : ℤ} {s c : K} {j j' : ℕ}
    (hf : Same e e' φ φ' ε s c j j') (hg : GridOk e) (hg' : GridOk e') {nslice mxg n r nc mxg' n' nc' nslice' : ℕ}
    (hr : 1 ≤ r) (hc : 1 ≤ nc) (hc' : 1 ≤ nc') {empty empty' : JState K} {m m' : ODict (MapVal K)}
    (h : makeMaps e nslice mxg n r nc empty = .ok m) (h' : makeMaps e' nslice' mxg' n' r nc' empty' = .ok m')
    {first : MapPol K} {y0 : K} (h0 : e.grid.getPoloidalGrid ((0 : ℕ) : K) = .ok (some first, y0))
    (q : ℕ) (k k' : String) (hk : lineNames[q]? = some k) (hk' : lineNames[turnLine ε q]? = some k')
    (hs : e.isSlab = false ∨ 4 ≤ q) :
    ∃ a a', m.get? k = some (.f3 a) ∧ m'.get? k' = some (.f3 a') ∧
      ∀ x z, x < first.nx → a' (x, j', z) = (if 4 ≤ q then c else 1) * a (x, j, z) := by
  have hq : q < 7 := by
    by_contra hcon
    rw [List.getElem?_eq_none (by simp [lineNames]; omega)] at hk
    simp at hk
  have hs' : e'.isSlab = false ∨ 4 ≤ turnLine ε q := by
    rw [hf.field.slab]
    rcases hs with hs | hs
    · exact Or.inl hs
    · right
      unfold turnLine
      split_ifs <;> omega
  obtain ⟨f', y0', h1', h2'⟩ : ∃ f y, e'.grid.getPoloidalGrid ((0 : ℕ) : K) = .ok (some f, y) ∧ True := by
    obtain ⟨pol, y, _, g1, _⟩ := lookup_line h' hf.ok'
    exact ⟨pol, y, plane_eq g1, trivial⟩
  obtain ⟨a, a1, a2⟩ := C36_values e hf.ok hg φ hf.field.point nslice mxg n r nc hr hc empty m h first y0 h0 q k hk hs
  obtain ⟨a', b1, b2⟩ := C36_values e' hf.ok' hg' φ' hf.field.point' nslice' mxg' n' r nc' hr hc' empty' m' h' f' y0' h1' _ k' hk' hs'
  obtain ⟨n1, _⟩ := hf.first _ _ _ _ h0 h1'
  refine ⟨a, a', a1, b1, ?_⟩
  intro x z hx
  obtain ⟨pol, y, yl, yh, pl, ph, gxx, gzz, gxz, c1, c2, c3, c4, c5, c6, c7⟩ := a2 x j z hx hf.lt
  obtain ⟨pol', y', yl', yh', pl', ph', gxx', gzz', gxz', d1, d2, d3, d4, d5, d6, d7⟩ := b2 x j' z (by omega) hf.lt'
  have look : ∀ k : ℤ, ∀ (a b : K), a = (((j : ℤ) + k : ℤ) : K) → b = (((j' : ℤ) + ε * k : ℤ) : K) → ∀ p u p' u',
      e.grid.getPoloidalGrid a = .ok (p, u) → e'.grid.getPoloidalGrid b = .ok (p', u') →
      p' = p ∧ u' = s + (ε : K) * u := by
    rintro k a b rfl rfl p u p' u' g1 g2
    obtain ⟨q, w, g3, g4⟩ := hf.planes k
    rw [g3] at g1
    rw [g4] at g2
    injection g1 with g1
    injection g2 with g2
    injection g1 with g1 g1'
    injection g2 with g2 g2'
    subst g1 g1' g2 g2'
    exact ⟨rfl, rfl⟩
  obtain ⟨e1, e2⟩ := look 0 _ _ (by push_cast; ring) (by push_cast; ring) _ _ _ _ c1 d1
  injection e1 with e1
  subst e1
  rw [c4] at d4
  rw [c5] at d5
  rw [c6] at d6
  injection d4 with d4
  injection d5 with d5
  injection d6 with d6
  subst d4 d5 d6 e2
  rw [c7, d7, hf.field.sqrt]
  rcases hf.field.sign with rfl | rfl
  · obtain ⟨_, e3⟩ := look (-1) _ _ (by push_cast; ring) (by push_cast; ring) _ _ _ _ c2 d2
    obtain ⟨_, e4⟩ := look 1 _ _ (by push_cast; ring) (by push_cast; ring) _ _ _ _ c3 d3
    subst e3 e4
    have hφ : ∀ R Z y y1, φ' R Z (s + y) (s + y1) = φ R Z y y1 := by
      intro R Z y y1
      have := hf.field.lines R Z y y1
      simpa using this
    simp only [Int.cast_one, one_mul, yPoint_shift r, hφ]
    have : turnLine 1 q = q := rfl
    rw [this]
    have key := lineValue_shift hf.field r (e.sqrt (gxx x z * gzz x z - gxz x z ^ 2))
      (fun i => φ (pol'.R x z) (pol'.Z x z) y (yPoint r y yl yh i)) (yPoint r y yl yh) q
    rw [← key]
    congr 1
    funext i
    exact yPoint_shift r s y yl yh i
  · obtain ⟨_, e3⟩ := look 1 _ _ (by push_cast; ring) (by push_cast; ring) _ _ _ _ c3 d2
    obtain ⟨_, e4⟩ := look (-1) _ _ (by push_cast; ring) (by push_cast; ring) _ _ _ _ c2 d3
    subst e3 e4
    have sg : ∀ u : K, s + ((-1 : ℤ) : K) * u = s - u := by intro u; push_cast; ring
    simp only [sg]
    refine lineValue_mirror hf.field r _ _ _ _ _ ?_ ?_ q hq
    · intro i hi
      rw [yPoint_mirror r _ _ _ _ _ hi]
      have := hf.field.lines (pol'.R x z) (pol'.Z x z) y (yPoint r y yl yh (4 * r - i))
      rwa [sg, sg] at this
    · intro i hi
      exact yPoint_mirror r _ _ _ _ _ hi

/-- The coordinates of the grid points. -/
theorem maps_points {e e' : MmEnv K} {φ φ' : K → K → K → K → K × K} {ε : ℤ} {s c : K} {j j' : ℕ}
    (hf : Same e e' φ φ' ε s c j j') (hg : GridOk e) (hg' : GridOk e') {nslice mxg n r nc mxg' n' r' nc' nslice' : ℕ}
    {empty empty' : JState K} {m m' : ODict (MapVal K)}
    (h : makeMaps e nslice mxg n r nc empty = .ok m) (h' : makeMaps e' nslice' mxg' n' r' nc' empty' = .ok m') :
    ∃ R Z R' Z', m.get? "R" = some (.f3 R) ∧ m.get? "Z" = some (.f3 Z) ∧ m'.get? "R" = some (.f3 R') ∧
      m'.get? "Z" = some (.f3 Z') ∧ ∀ x z, R' (x, j', z) = R (x, j, z) ∧ Z' (x, j', z) = Z (x, j, z) := by
  obtain ⟨_, _, R, Z, a1, a2, a3⟩ := C31_grid_points e hf.ok hg nslice mxg n r nc empty m h
  obtain ⟨_, _, R', Z', b1, b2, b3⟩ := C31_grid_points e' hf.ok' hg' nslice' mxg' n' r' nc' empty' m' h'
  refine ⟨R, Z, R', Z', a1, a2, b1, b2, ?_⟩
  intro x z
  obtain ⟨pol, y, g1, g2, _⟩ := plane_ok e hg j hf.lt
  obtain ⟨pol', y', g1', g2', _⟩ := plane_ok e' hg' j' hf.lt'
  obtain ⟨q, w, g3, g4⟩ := hf.planes 0
  have p1 := plane_eq g1
  have p2 := plane_eq g1'
  rw [add_zero] at g3
  rw [mul_zero, add_zero] at g4
  rw [show ((j : ℕ) : K) = ((j : ℤ) : K) by simp, g3] at p1
  rw [show ((j' : ℕ) : K) = ((j' : ℤ) : K) by simp, g4] at p2
  injection p1 with p1
  injection p2 with p2
  injection p1 with p1 _
  injection p2 with p2 _
  rw [p1] at p2
  injection p2 with p2
  subst p2
  obtain ⟨u1, u2⟩ := a3 j pol g2 x z
  obtain ⟨v1, v2⟩ := b3 j' pol g2' x z
  exact ⟨by rw [u1, v1], by rw [u2, v2]⟩

end Zoidberg
