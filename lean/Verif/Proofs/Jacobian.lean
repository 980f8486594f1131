import Verif.Proofs.MakeMaps
import Mathlib.Tactic.IntervalCases

/-! # The parallel integrals of `make_maps` -/

set_option linter.unusedSectionVars false

namespace Zoidberg

variable {K : Type} [Field K] [LinearOrder K] [IsStrictOrderedRing K] [FloorRing K]

/-! ## `array_split` -/

theorem flatten_segments {A : Type} (l : List A) (f : ℕ → ℕ) (h0 : f 0 = 0)
    (hm : ∀ i, f i ≤ f (i + 1)) (n : ℕ) :
    ((List.range n).map fun i => (l.drop (f i)).take (f (i + 1) - f i)).flatten = l.take (f n) := by
  induction n with
  | zero => simp [h0]
  | succ n ih =>
    rw [List.range_succ, List.map_append, List.flatten_append, ih]
    simp only [List.map_cons, List.map_nil, List.flatten_cons, List.flatten_nil, List.append_nil]
    have : f (n + 1) = f n + (f (n + 1) - f n) := by have := hm n; omega
    conv_rhs => rw [this, List.take_add]

theorem arraySplit_flatten {A : Type} (l : List A) (n : ℕ) (hn : 0 < n) :
    ∃ c, arraySplit l n = .ok c ∧ c.length = n ∧ c.flatten = l := by
  unfold arraySplit
  rw [if_neg (by omega)]
  refine ⟨_, rfl, by simp, ?_⟩
  rw [flatten_segments l (fun i => i * (l.length / n) + min i (l.length % n)) (by simp)]
  · have hlt : l.length % n < n := Nat.mod_lt _ hn
    have : n * (l.length / n) + min n (l.length % n) = l.length := by
      rw [min_eq_right hlt.le]; exact Nat.div_add_mod _ _
    rw [this, List.take_length]
  · intro i
    have : (i + 1) * (l.length / n) = i * (l.length / n) + l.length / n := by ring
    simp only [this]
    generalize l.length / n = q
    generalize i * q = u
    omega

/-! ## One chunk -/

/-- One of the seven arrays: `jacobian`, `sg_22[0..2]`, `B_cell[0..2]`. -/
def JState.comp (s : JState K) (q : ℕ) : Cell → K :=
  if q = 0 then s.jac else if q ≤ 3 then s.sg (q - 1) else s.B (q - 4)

/-- What is stored for a chunk in array `q`, by position in the chunk and `z`. -/
def chunkVal (e : MmEnv K) (r : ℕ) (pol : MapPol K) (y ylow yhigh : K) (chunk : List ℕ) (q : ℕ) :
    ℕ → ℕ → K :=
  let line := lineAround e r pol chunk y ylow yhigh
  let coords := pySlice line.1 r (some (-(r : ℤ)))
  let ys := pySlice line.2 r (some (-(r : ℤ)))
  let Bs : ℕ → ℕ → List K := fun i z =>
    (coords.zip ys).map fun p => e.byfunc (p.1 i z).1 (p.1 i z).2 p.2
  fun i z =>
    if q = 0 then jacobianOf (match jPerp e pol (chunk.getD i 0) z with
            | .ok v => v
            | .error _ => 0) r (Bs i z) (coords.map fun c => (c i z).1)
    else if q ≤ 3 then
      e.lineLength ((lengthWindow r (q - 1) line.1).map fun c => c i z) (lengthWindow r (q - 1) line.2)
    else (Bs i z).getD (if q = 4 then 0 else if q = 5 then r else r * 2) 0

/-- The entries of the poloidal metric that `make_maps` needs. -/
def HasPerp (pol : MapPol K) : Prop :=
  ∃ a b c, pol.metric "g_xx" = some a ∧ pol.metric "g_zz" = some b ∧ pol.metric "g_xz" = some c

theorem jPerp_ok (e : MmEnv K) (pol : MapPol K) (h : HasPerp pol) (x z : ℕ) :
    ∃ v, jPerp e pol x z = .ok v := by
  obtain ⟨a, b, c, h1, h2, h3⟩ := h
  unfold jPerp Dict.get
  rw [h1, h2, h3]
  exact ⟨_, rfl⟩

theorem length_linspaceClosed (a b : K) (n : ℕ) : (linspaceClosed a b n).length = n := by
  simp [linspaceClosed]

theorem lineAround_length (e : MmEnv K) (hf : FollowOk e) (r : ℕ) (pol : MapPol K)
    (chunk : List ℕ) (y ylow yhigh : K) :
    (lineAround e r pol chunk y ylow yhigh).1.length = 4 * r + 1 ∧
      (lineAround e r pol chunk y ylow yhigh).2.length = 4 * r + 1 := by
  unfold lineAround
  simp only [List.length_append, List.length_reverse, List.length_drop, hf _ _ _ _ _,
    length_linspaceClosed]
  omega

theorem pySlice_neg {A : Type} (l : List A) (a b : ℕ) (hb : 1 ≤ b) :
    pySlice l a (some (-(b : ℤ))) = (l.drop a).take (l.length - b - a) := by
  unfold pySlice
  have h : ¬ (0 : ℤ) ≤ -(b : ℤ) := by omega
  simp only [h, if_false]
  congr 1
  omega

theorem length_window {A : Type} (l : List A) (r : ℕ) (hr : 1 ≤ r) (hl : l.length = 4 * r + 1) :
    (pySlice l r (some (-(r : ℤ)))).length = 2 * r + 1 := by
  rw [pySlice_neg _ _ _ hr]
  simp only [List.length_take, List.length_drop, hl]
  omega

theorem jacChunk_ok (e : MmEnv K) (hf : FollowOk e) (r : ℕ) (hr : 1 ≤ r) (j : ℕ) (pol : MapPol K)
    (hp : HasPerp pol) (y ylow yhigh : K) (s : JState K) (chunk : List ℕ) :
    ∃ s', jacChunk e r j pol y ylow yhigh s chunk = .ok s' ∧ ∀ q < 7,
      s'.comp q = setRows (s.comp q) chunk j (chunkVal e r pol y ylow yhigh chunk q) := by
  obtain ⟨l1, l2⟩ := lineAround_length e hf r pol chunk y ylow yhigh
  have w1 := length_window _ r hr l1
  have w2 := length_window _ r hr l2
  obtain ⟨v, hv⟩ := jPerp_ok e pol hp 0 0
  have hmin : min (2 * r + 1) (2 * r + 1) = 2 * r + 1 := min_self _
  unfold jacChunk
  simp only [w1, w2, hmin, hv]
  rw [if_neg (by omega), if_neg (by omega), if_neg (by omega)]
  refine ⟨_, rfl, ?_⟩
  intro q hq
  interval_cases q
  · rfl
  · rfl
  · rfl
  · rfl
  · rfl
  · rfl
  · simp only [JState.comp, chunkVal]
    norm_num
    congr 1
    funext i z
    rw [Nat.mul_comm 2 r]

theorem jacFold_ok (e : MmEnv K) (hf : FollowOk e) (r : ℕ) (hr : 1 ≤ r) (j : ℕ) (pol : MapPol K)
    (hp : HasPerp pol) (y ylow yhigh : K) : ∀ (chunks : List (List ℕ)) (s : JState K),
    chunks.flatten.Nodup →
    ∃ s', chunks.foldlM (jacChunk e r j pol y ylow yhigh) s = .ok s' ∧ ∀ q < 7, ∀ c : Cell,
      (c.2.1 ≠ j ∨ c.1 ∉ chunks.flatten → s'.comp q c = s.comp q c) ∧
      (∀ ch ∈ chunks, c.2.1 = j → c.1 ∈ ch →
        s'.comp q c = chunkVal e r pol y ylow yhigh ch q (ch.idxOf c.1) c.2.2) := by
  intro chunks
  induction chunks with
  | nil =>
    intro s _
    exact ⟨s, rfl, fun q _ c => ⟨fun _ => rfl, by simp⟩⟩
  | cons ch t ih =>
    intro s hn
    obtain ⟨s1, h1, h2⟩ := jacChunk_ok e hf r hr j pol hp y ylow yhigh s ch
    rw [List.flatten_cons] at hn
    obtain ⟨n1, n2, n3⟩ := List.nodup_append.1 hn
    obtain ⟨s', h3, h4⟩ := ih s1 n2
    refine ⟨s', by rw [List.foldlM_cons, h1]; exact h3, ?_⟩
    intro q hq c
    obtain ⟨f1, f2⟩ := h4 q hq c
    refine ⟨?_, ?_⟩
    · intro hc
      rw [List.flatten_cons, List.mem_append, not_or] at hc
      rw [f1 (by rcases hc with h | h; exacts [Or.inl h, Or.inr h.2]), h2 q hq]
      unfold setRows
      rcases hc with h | h
      · rw [if_neg h]
      · rw [if_neg h.1, ite_self]
    · intro ch' hch' hj hx
      rcases List.mem_cons.1 hch' with rfl | hch'
      · rw [f1 (Or.inr fun h => n3 _ hx _ h rfl), h2 q hq]
        unfold setRows
        rw [if_pos hj, if_pos hx]
      · exact f2 ch' hch' hj hx

/-- Requirements on the grid. -/
structure GridOk (e : MmEnv K) : Prop where
  length : e.grid.polGrids.length = e.grid.ycoords.length
  pos : 0 < e.grid.ycoords.length
  perp : ∀ p ∈ e.grid.polGrids, HasPerp p

theorem getPoloidalGrid_int_ok {G : Type} (g : Grid G K) (hl : g.polGrids.length = g.ycoords.length)
    (h0 : 0 < g.ycoords.length) (k : ℤ) : ∃ p y, g.getPoloidalGrid (k : K) = .ok (p, y) := by
  rw [Grid.getPoloidalGrid_int]
  by_cases hp : g.yperiodic = true
  · have hn : (0 : ℤ) < (g.ycoords.length : ℤ) := by exact_mod_cast h0
    have hm0 := Int.emod_nonneg k hn.ne'
    have hm1 := Int.emod_lt_of_pos k hn
    obtain ⟨i, hi⟩ := Int.eq_ofNat_of_zero_le hm0
    have := Grid.getInt_periodic g hl h0 hp i (by omega) (k / (g.ycoords.length : ℤ))
    rw [Grid.getPoloidalGrid_int] at this
    have e : (i : ℤ) + k / (g.ycoords.length : ℤ) * (g.ycoords.length : ℤ) = k := by
      have := Int.emod_add_mul_ediv k (g.ycoords.length : ℤ)
      rw [hi] at this
      rw [mul_comm (k / _)]; exact this
    rw [e] at this
    exact ⟨_, _, this⟩
  · unfold Grid.getInt
    simp only
    split
    · rename_i h
      have a : 0 ≤ k := by exact_mod_cast h.1
      have b : k < (g.ycoords.length : ℤ) := by exact_mod_cast h.2
      obtain ⟨i, rfl⟩ := Int.eq_ofNat_of_zero_le a
      rw [pyInt_intCast, Grid.at_lt g hl i (by omega)]
      exact ⟨_, _, rfl⟩
    · split
      · exact ⟨_, _, rfl⟩
      · exact ⟨_, _, rfl⟩

theorem plane_ok (e : MmEnv K) (hg : GridOk e) (j : ℕ) (hj : j < e.grid.ny) :
    ∃ pol y, e.plane j = .ok (pol, y) ∧ e.grid.polGrids[j]? = some pol ∧
      e.grid.ycoords[j]? = some y ∧ HasPerp pol := by
  have hj' : j < e.grid.ycoords.length := hj
  have hl := hg.length
  refine ⟨e.grid.polGrids[j]'(by omega), e.grid.ycoords[j], ?_, List.getElem?_eq_getElem _,
    List.getElem?_eq_getElem _, hg.perp _ (List.getElem_mem _)⟩
  unfold MmEnv.plane
  have h1 : e.grid.getPoloidalGrid ((j : ℕ) : K) = .ok (some (e.grid.polGrids[j]'(by omega)),
      e.grid.ycoords[j]) := by
    have h := Grid.getPoloidalGrid_int e.grid (j : ℤ)
    rw [Int.cast_natCast] at h
    rw [h]
    unfold Grid.getInt
    simp only
    rw [if_pos ⟨by positivity, by exact_mod_cast hj⟩, pyInt_natCast, Grid.at_lt e.grid hl j hj']
    rfl
  rw [h1]

theorem jacPlane_ok (e : MmEnv K) (hf : FollowOk e) (hg : GridOk e) (nx r nc : ℕ) (hr : 1 ≤ r)
    (hc : 1 ≤ nc) (j : ℕ) (hj : j < e.grid.ny) (s : JState K) :
    ∃ pol y ylow yhigh chunks s', e.plane j = .ok (pol, y) ∧
      (∃ p, e.grid.getPoloidalGrid ((j : K) + -1) = .ok (p, ylow)) ∧
      (∃ p, e.grid.getPoloidalGrid ((j : K) + 1) = .ok (p, yhigh)) ∧
      arraySplit (List.range nx) nc = .ok chunks ∧ chunks.flatten = List.range nx ∧
      jacPlane e nx r nc s j = .ok s' ∧ ∀ q < 7, ∀ c : Cell,
        (c.2.1 ≠ j ∨ nx ≤ c.1 → s'.comp q c = s.comp q c) ∧
        (∀ ch ∈ chunks, c.2.1 = j → c.1 ∈ ch →
          s'.comp q c = chunkVal e r pol y ylow yhigh ch q (ch.idxOf c.1) c.2.2) := by
  obtain ⟨pol, y, h1, _, _, hp⟩ := plane_ok e hg j hj
  obtain ⟨p1, yl, h2⟩ := getPoloidalGrid_int_ok e.grid hg.length hg.pos ((j : ℤ) + -1)
  obtain ⟨p2, yh, h3⟩ := getPoloidalGrid_int_ok e.grid hg.length hg.pos ((j : ℤ) + 1)
  push_cast at h2 h3
  obtain ⟨chunks, h4, _, h5⟩ := arraySplit_flatten (List.range nx) nc hc
  obtain ⟨s', h6, h7⟩ := jacFold_ok e hf r hr j pol hp y yl yh chunks s
    (by rw [h5]; exact List.nodup_range)
  refine ⟨pol, y, yl, yh, chunks, s', h1, ⟨p1, h2⟩, ⟨p2, h3⟩, h4, h5, ?_, ?_⟩
  · unfold jacPlane
    rw [h4, h1]
    simp only
    rw [h2, h3]
    exact h6
  · intro q hq c
    obtain ⟨f1, f2⟩ := h7 q hq c
    refine ⟨?_, f2⟩
    intro hcc
    refine f1 ?_
    rcases hcc with h | h
    · exact Or.inl h
    · right
      rw [h5, List.mem_range]
      omega

/-- The seven arrays after all planes: an explicit value in the domain, the
initial content elsewhere. -/
theorem jacAll_prefix (e : MmEnv K) (hf : FollowOk e) (hg : GridOk e) (nx r nc : ℕ) (hr : 1 ≤ r)
    (hc : 1 ≤ nc) (empty : JState K) : ∀ n ≤ e.grid.ny, ∃ s,
    (List.range n).foldlM (jacPlane e nx r nc) empty = .ok s ∧ ∀ q < 7, ∀ c : Cell,
      (n ≤ c.2.1 ∨ nx ≤ c.1 → s.comp q c = empty.comp q c) ∧
      (c.2.1 < n → c.1 < nx → ∃ pol y ylow yhigh chunks ch, e.plane c.2.1 = .ok (pol, y) ∧
        (∃ p, e.grid.getPoloidalGrid ((c.2.1 : K) + -1) = .ok (p, ylow)) ∧
        (∃ p, e.grid.getPoloidalGrid ((c.2.1 : K) + 1) = .ok (p, yhigh)) ∧
        arraySplit (List.range nx) nc = .ok chunks ∧ ch ∈ chunks ∧ c.1 ∈ ch ∧
        s.comp q c = chunkVal e r pol y ylow yhigh ch q (ch.idxOf c.1) c.2.2) := by
  intro n
  induction n with
  | zero =>
    intro _
    exact ⟨empty, rfl, fun q _ c => ⟨fun _ => rfl, fun h => absurd h (by omega)⟩⟩
  | succ n ih =>
    intro hn
    obtain ⟨s, h1, h2⟩ := ih (by omega)
    obtain ⟨pol, y, yl, yh, chunks, s', g1, g2, g3, g4, g5, g6, g7⟩ :=
      jacPlane_ok e hf hg nx r nc hr hc n (by omega) s
    refine ⟨s', ?_, ?_⟩
    · rw [List.range_succ, List.foldlM_append, h1]
      change (jacPlane e nx r nc s n).bind (fun x => Except.ok x) = .ok s'
      rw [g6]; rfl
    · intro q hq c
      obtain ⟨f1, f2⟩ := h2 q hq c
      obtain ⟨k1, k2⟩ := g7 q hq c
      refine ⟨?_, ?_⟩
      · intro hcc
        rw [k1 (by rcases hcc with h | h; exacts [Or.inl (by omega), Or.inr h]),
          f1 (by rcases hcc with h | h; exacts [Or.inl (by omega), Or.inr h])]
      · intro hy hx
        by_cases hcn : c.2.1 = n
        · have : c.1 ∈ chunks.flatten := by rw [g5]; exact List.mem_range.2 hx
          obtain ⟨ch, hch, hxc⟩ := List.mem_flatten.1 this
          refine ⟨pol, y, yl, yh, chunks, ch, ?_, ?_, ?_, g4, hch, hxc, k2 ch hch hcn hxc⟩
          · rw [hcn]; exact g1
          · rw [hcn]; exact g2
          · rw [hcn]; exact g3
        · obtain ⟨pol, y, yl, yh, chunks, ch, a1, a2, a3, a4, a5, a6, a7⟩ := f2 (by omega) hx
          refine ⟨pol, y, yl, yh, chunks, ch, a1, a2, a3, a4, a5, a6, ?_⟩
          rw [k1 (Or.inl hcn)]
          exact a7

end Zoidberg
