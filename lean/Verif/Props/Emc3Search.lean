import Verif.Props.Emc3Tracer
import Mathlib.Data.List.GetD

/-!
# C261: the search for the cell in the zones of EMC3
-/

set_option linter.unusedSectionVars false

namespace Zoidberg

variable {K : Type} [Field K] [LinearOrder K] [IsStrictOrderedRing K]

/-- `find_cell` of eudist: with any hint, a cell that contains the point if there is one, and a negative number otherwise. -/
structure FindOk (find : PMesh K → K × K → ℤ → ℤ) (inside : PMesh K → ℕ → K × K → Prop) : Prop where
  cell : ∀ m rz h, 0 ≤ find m rz h → inside m (find m rz h).toNat rz
  all : ∀ m rz h c, inside m c rz → 0 ≤ find m rz h

/-- The meshes in the order in which they are searched. -/
def fromZone (meshes : List (PMesh K)) (zid : ℕ) : List (PMesh K) := meshes.drop zid ++ meshes.take zid

theorem mem_fromZone {meshes : List (PMesh K)} {zid : ℕ} {m : PMesh K} : m ∈ fromZone meshes zid ↔ m ∈ meshes := by
  unfold fromZone
  constructor
  · intro h
    rcases List.mem_append.1 h with h | h
    · exact List.mem_of_mem_drop h
    · exact List.mem_of_mem_take h
  · intro h
    rw [← List.take_append_drop zid meshes] at h
    rw [List.mem_append] at h ⊢
    exact h.symm

theorem searchCells_some {find : PMesh K → K × K → ℤ → ℤ} {inside : PMesh K → ℕ → K × K → Prop} (hf : FindOk find inside) (rz : K × K) :
    ∀ (ms : List (PMesh K)) (ij : ℤ), (∃ m ∈ ms, ∃ c, inside m c rz) → ∃ a m b c, ms = a ++ m :: b ∧ (∀ m' ∈ a, ∀ c, ¬ inside m' c rz) ∧ inside m c rz ∧
      searchCells find rz ms ij = some (m, c)
  | [], _, h => by simp at h
  | m :: ms, ij, h => by
    rw [searchCells]
    by_cases h0 : 0 ≤ find m rz ij
    · exact ⟨[], m, ms, _, rfl, by simp, hf.cell m rz ij h0, by rw [if_pos h0]⟩
    · rw [if_neg h0]
      have hn : ∀ c, ¬ inside m c rz := fun c hc => h0 (hf.all m rz ij c hc)
      obtain ⟨m1, hm1, c, hc⟩ := h
      rcases List.mem_cons.1 hm1 with rfl | hm1
      · exact absurd hc (hn c)
      · obtain ⟨a, m', b, c', h1, h2, h3, h4⟩ := searchCells_some hf rz ms (find m rz ij) ⟨m1, hm1, c, hc⟩
        refine ⟨m :: a, m', b, c', by rw [h1]; rfl, ?_, h3, h4⟩
        intro m2 h
        rcases List.mem_cons.1 h with rfl | h
        · exact hn
        · exact h2 m2 h

theorem searchCells_none {find : PMesh K → K × K → ℤ → ℤ} {inside : PMesh K → ℕ → K × K → Prop} (hf : FindOk find inside) (rz : K × K) :
    ∀ (ms : List (PMesh K)) (ij : ℤ), (∀ m ∈ ms, ∀ c, ¬ inside m c rz) → searchCells find rz ms ij = none
  | [], _, _ => rfl
  | m :: ms, ij, h => by
    rw [searchCells]
    rw [if_neg fun h0 => h m (by simp) _ (hf.cell m rz ij h0)]
    exact searchCells_none hf rz ms _ fun m' hm => h m' (by simp [hm])

/-- **C261.** If the point is in a cell of one of the zones, `rz_to_ab` gives its coordinates in a cell that contains it: in the first zone with such a cell, counted from
that of the hint. -/
theorem C261_found (find : PMesh K → K × K → ℤ → ℤ) (inside : PMesh K → ℕ → K × K → Prop) (hf : FindOk find inside) (lsq : Bilinear K → K × K → K × K) (rz : K × K)
    (meshes : List (PMesh K)) (ij : ℤ) (zid : ℕ) (h : ∃ m ∈ meshes, ∃ c, inside m c rz) :
    ∃ a m b c, meshes.drop zid ++ meshes.take zid = a ++ m :: b ∧ (∀ m' ∈ a, ∀ c, ¬ inside m' c rz) ∧ inside m c rz ∧
      rzToAb find lsq rz meshes ij zid = (rzToAbCell lsq m rz c).map fun ab => (ab, c, m.zid) := by
  obtain ⟨m, hm, c, hc⟩ := h
  obtain ⟨a, m', b, c', h1, h2, h3, h4⟩ := searchCells_some hf rz (fromZone meshes zid) ij ⟨m, mem_fromZone.2 hm, c, hc⟩
  refine ⟨a, m', b, c', h1, h2, h3, ?_⟩
  unfold rzToAb
  unfold fromZone at h4
  dsimp only
  rw [h4]
  rfl

/-- **C261.** If only one cell of one zone contains the point, the result does not depend on the hints. -/
theorem C261_no_hints (find : PMesh K → K × K → ℤ → ℤ) (inside : PMesh K → ℕ → K × K → Prop) (hf : FindOk find inside) (lsq : Bilinear K → K × K → K × K) (rz : K × K)
    (meshes : List (PMesh K)) (m : PMesh K) (hm : m ∈ meshes) (c : ℕ) (hc : inside m c rz) (h1 : ∀ m' ∈ meshes, ∀ c', inside m' c' rz → m' = m ∧ c' = c)
    (ij ij' : ℤ) (zid zid' : ℕ) : rzToAb find lsq rz meshes ij zid = rzToAb find lsq rz meshes ij' zid' := by
  have key : ∀ (ij : ℤ) (zid : ℕ), rzToAb find lsq rz meshes ij zid = (rzToAbCell lsq m rz c).map fun ab => (ab, c, m.zid) := by
    intro ij zid
    obtain ⟨a, m', b, c', g1, _, g3, g4⟩ := C261_found find inside hf lsq rz meshes ij zid ⟨m, hm, c, hc⟩
    have hm' : m' ∈ meshes := by
      refine (mem_fromZone (zid := zid)).1 ?_
      unfold fromZone
      rw [g1]
      simp
    obtain ⟨rfl, rfl⟩ := h1 m' hm' c' g3
    exact g4
  rw [key, key]

/-! ## Points in no cell -/

theorem foldl_min_le : ∀ (l : List K) (a : K), l.foldl min a ≤ a ∧ (∀ x ∈ l, l.foldl min a ≤ x) ∧ (l.foldl min a = a ∨ l.foldl min a ∈ l)
  | [], a => by simp
  | x :: l, a => by
    obtain ⟨h1, h2, h3⟩ := foldl_min_le l (min a x)
    rw [List.foldl_cons]
    refine ⟨h1.trans (min_le_left _ _), ?_, ?_⟩
    · intro y hy
      rcases List.mem_cons.1 hy with rfl | hy
      · exact h1.trans (min_le_right _ _)
      · exact h2 y hy
    · rcases h3 with h3 | h3
      · rcases min_choice a x with h | h
        · left; rw [h3, h]
        · right; rw [h3, h]; simp
      · right; exact List.mem_cons_of_mem _ h3

/-- `np.argmin` gives the first of the smallest values. -/
theorem argMin_spec (l : List K) (hl : l ≠ []) : argMin l < l.length ∧ ∀ x ∈ l, l.getD (argMin l) 0 ≤ x := by
  cases l with
  | nil => exact absurd rfl hl
  | cons a l =>
    obtain ⟨h1, h2, h3⟩ := foldl_min_le (a :: l) a
    have hmem : (a :: l).foldl min a ∈ a :: l := by
      rcases h3 with h3 | h3
      · rw [h3]; simp
      · exact h3
    have hlt := List.idxOf_lt_length_of_mem hmem
    have e : argMin (a :: l) = (a :: l).idxOf ((a :: l).foldl min a) := rfl
    rw [e]
    refine ⟨hlt, ?_⟩
    intro x hx
    rw [List.getD_eq_getElem _ _ hlt, List.getElem_idxOf hlt]
    exact h2 x hx

/-- The point is nearer than `d` to a node of the mesh. -/
def PMesh.NearNode (m : PMesh K) (rz : K × K) (d : K) : Prop := ∃ r < m.nr, ∃ s < m.nz, (rz.1 - (m.node r s).1) ^ 2 + (rz.2 - (m.node r s).2) ^ 2 < d ^ 2

theorem mem_dists (m : PMesh K) (rz : K × K) (v : K) :
    v ∈ m.dists rz ↔ ∃ r < m.nr, ∃ s < m.nz, v = (rz.1 - (m.node r s).1) ^ 2 + (rz.2 - (m.node r s).2) ^ 2 := by
  unfold PMesh.dists
  rw [List.mem_map]
  constructor
  · rintro ⟨k, hk, rfl⟩
    rw [List.mem_range] at hk
    have hz : 0 < m.nz := by
      rcases Nat.eq_zero_or_pos m.nz with h | h
      · rw [h, Nat.mul_zero] at hk; omega
      · exact h
    exact ⟨k / m.nz, Nat.div_lt_of_lt_mul (by rw [Nat.mul_comm]; exact hk), k % m.nz, Nat.mod_lt _ hz, rfl⟩
  · rintro ⟨r, hr, s, hs, rfl⟩
    refine ⟨r * m.nz + s, ?_, ?_⟩
    · rw [List.mem_range]
      calc r * m.nz + s < r * m.nz + m.nz := by omega
        _ = (r + 1) * m.nz := by ring
        _ ≤ m.nr * m.nz := Nat.mul_le_mul_right _ hr
    · have h1 : (r * m.nz + s) / m.nz = r := by
        rw [Nat.mul_comm, Nat.mul_add_div (by omega), Nat.div_eq_of_lt hs, Nat.add_zero]
      have h2 : (r * m.nz + s) % m.nz = s := by
        rw [Nat.mul_comm, Nat.mul_add_mod, Nat.mod_eq_of_lt hs]
      rw [h1, h2]

/-- The test in the loop over the meshes. -/
theorem near_test (m : PMesh K) (rz : K × K) (d : K) (hn : 0 < m.nr) (hz : 0 < m.nz) :
    (m.dists rz).getD (argMin (m.dists rz)) 0 < d ^ 2 ↔ m.NearNode rz d := by
  have hne : m.dists rz ≠ [] := by
    intro h
    have : (rz.1 - (m.node 0 0).1) ^ 2 + (rz.2 - (m.node 0 0).2) ^ 2 ∈ m.dists rz := (mem_dists m rz _).2 ⟨0, hn, 0, hz, rfl⟩
    rw [h] at this
    simp at this
  obtain ⟨h1, h2⟩ := argMin_spec _ hne
  constructor
  · intro h
    have hm : (m.dists rz).getD (argMin (m.dists rz)) 0 ∈ m.dists rz := by
      rw [List.getD_eq_getElem _ _ h1]; exact List.getElem_mem h1
    obtain ⟨r, hr, s, hs, e⟩ := (mem_dists m rz _).1 hm
    exact ⟨r, hr, s, hs, by rw [← e]; exact h⟩
  · rintro ⟨r, hr, s, hs, h⟩
    exact lt_of_le_of_lt (h2 _ ((mem_dists m rz _).2 ⟨r, hr, s, hs, rfl⟩)) h

theorem nearNode_none (rz : K × K) (d : K) : ∀ ms : List (PMesh K), (∀ m ∈ ms, 0 < m.nr ∧ 0 < m.nz) →
    (nearNode rz (d ^ 2) ms = none ↔ ∀ m ∈ ms, ¬ m.NearNode rz d)
  | [], _ => by simp [nearNode]
  | m :: ms, h => by
    have ht := near_test m rz d (h m (by simp)).1 (h m (by simp)).2
    have ih := nearNode_none rz d ms fun m' hm => h m' (by simp [hm])
    rw [nearNode]
    by_cases hc : (m.dists rz).getD (argMin (m.dists rz)) 0 < d ^ 2
    · rw [if_pos hc]
      simp only [reduceCtorEq, List.mem_cons, forall_eq_or_imp, false_iff, not_and]
      intro h1
      exact absurd (ht.1 hc) h1
    · rw [if_neg hc, ih]
      simp only [List.mem_cons, forall_eq_or_imp]
      exact ⟨fun h => ⟨fun h' => hc (ht.2 h'), h⟩, fun h => h.2⟩

/-- **C261.** For a point that is in no cell of any zone, "We left the domain" is raised exactly if it is at least 1 away from all nodes. -/
theorem C261_left (find : PMesh K → K × K → ℤ → ℤ) (inside : PMesh K → ℕ → K × K → Prop) (hf : FindOk find inside) (lsq : Bilinear K → K × K → K × K) (rz : K × K)
    (meshes : List (PMesh K)) (hs : ∀ m ∈ meshes, 0 < m.nr ∧ 0 < m.nz) (ij : ℤ) (zid : ℕ) (h : ∀ m ∈ meshes, ∀ c, ¬ inside m c rz) :
    rzToAb find lsq rz meshes ij zid = .error (.runtime "We left the domain") ↔ ∀ m ∈ meshes, ¬ m.NearNode rz 1 := by
  have h' : ∀ m ∈ meshes.drop zid ++ meshes.take zid, ∀ c, ¬ inside m c rz := fun m hm => h m ((mem_fromZone (zid := zid)).1 hm)
  have hs' : ∀ m ∈ meshes.drop zid ++ meshes.take zid, 0 < m.nr ∧ 0 < m.nz := fun m hm => hs m ((mem_fromZone (zid := zid)).1 hm)
  have hall : (∀ m ∈ meshes.drop zid ++ meshes.take zid, ¬ m.NearNode rz 1) ↔ ∀ m ∈ meshes, ¬ m.NearNode rz 1 :=
    ⟨fun H m hm => H m ((mem_fromZone (zid := zid)).2 hm), fun H m hm => H m ((mem_fromZone (zid := zid)).1 hm)⟩
  have hsub : ∀ d : K, 0 < d → d ≤ 1 → (∀ m ∈ meshes.drop zid ++ meshes.take zid, ¬ m.NearNode rz 1) → ∀ m ∈ meshes.drop zid ++ meshes.take zid, ¬ m.NearNode rz d := by
    intro d hd0 hd H m hm hn
    obtain ⟨r, hr, s, hs, hlt⟩ := hn
    refine H m hm ⟨r, hr, s, hs, lt_of_lt_of_le hlt ?_⟩
    exact pow_le_pow_left₀ hd0.le hd 2
  have hcell : ∀ (m : PMesh K) (c : ℕ), ((rzToAbCell lsq m rz c).map fun ab => (ab, c, m.zid)) ≠ .error (.runtime "We left the domain") := by
    intro m c hc
    have hsol : ∀ (q : Bilinear K) (tol : K) (n : ℕ) (ab : K × K), q.solve tol rz n ab ≠ .error (.runtime "We left the domain") := by
      intro q tol n
      induction n with
      | zero => intro ab h; cases h
      | succ n ih =>
        intro ab h
        rw [Bilinear.solve] at h
        unfold Bilinear.newton at h
        dsimp only at h
        split_ifs at h with h1
        · cases h
        · simp only [Except.bind] at h
          split_ifs at h with h2
          exact ih _ h
    unfold rzToAbCell at hc
    dsimp only at hc
    split_ifs at hc with h1
    · cases hc
    · cases hq : (m.cell (c / (m.nz - 1)) (c % (m.nz - 1))).solve (1 / 10 ^ 13) rz 100 (1 / 2, 1 / 2) with
      | ok r => rw [hq] at hc; cases hc
      | error e =>
        rw [hq] at hc
        simp only [Except.map] at hc
        injection hc with hc
        subst hc
        exact hsol _ _ _ _ hq
  rw [← hall]
  unfold rzToAb
  dsimp only
  rw [searchCells_none hf rz _ ij h']
  constructor
  · intro H
    by_contra hcon
    have h1 : nearNode rz (1 ^ 2) (meshes.drop zid ++ meshes.take zid) ≠ none := fun h => hcon ((nearNode_none rz 1 _ hs').1 h)
    have : ∃ p, (none <|> nearNode rz ((1 / 1000) ^ 2) (meshes.drop zid ++ meshes.take zid) <|> nearNode rz ((1 / 100) ^ 2) (meshes.drop zid ++ meshes.take zid) <|>
        nearNode rz (1 ^ 2) (meshes.drop zid ++ meshes.take zid)) = some p := by
      cases a : nearNode rz ((1 / 1000) ^ 2) (meshes.drop zid ++ meshes.take zid) with
      | some p => exact ⟨p, rfl⟩
      | none =>
        cases b : nearNode rz ((1 / 100) ^ 2) (meshes.drop zid ++ meshes.take zid) with
        | some p => exact ⟨p, rfl⟩
        | none =>
          cases c : nearNode rz (1 ^ 2) (meshes.drop zid ++ meshes.take zid) with
          | some p => exact ⟨p, rfl⟩
          | none => exact absurd c h1
    obtain ⟨p, hp⟩ := this
    rw [hp] at H
    exact hcell _ _ H
  · intro H
    rw [(nearNode_none rz (1 / 1000) _ hs').2 (hsub _ (by norm_num) (by norm_num) H),
      (nearNode_none rz (1 / 100) _ hs').2 (hsub _ (by norm_num) (by norm_num) H), (nearNode_none rz 1 _ hs').2 H]
    rfl

/-! ## The passes over the end of the period -/

/-- **C134.** Although what they give is not used, the passes over the end of the period must succeed: from the last meshes to the first if the number of periods
increases, and the other way if it decreases. -/
theorem C134_pass (locate : K × K → List (PMesh K) → ℤ → ℕ → Except Err (Spot K)) (firstlast : List (PMesh K) × List (PMesh K)) (p0 p : Plane K)
    (rz : K × K) (ij : ℤ) (zid : ℕ) (out : List (K × K)) (s : Spot K) (h : emc3Line locate firstlast p0 [p] rz ij zid = .ok (out, s)) :
    (p0.perBC s.2.2 < p.perBC s.2.2 → ∃ rz1 t, spotToRz firstlast.2 s = .ok rz1 ∧ locate rz1 firstlast.1 s.2.1 s.2.2 = .ok t) ∧
      (p.perBC s.2.2 < p0.perBC s.2.2 → ∃ rz1 t, spotToRz firstlast.1 s = .ok rz1 ∧ locate rz1 firstlast.2 s.2.1 s.2.2 = .ok t) := by
  unfold emc3Line at h
  cases hs : locate rz p0.meshes ij zid with
  | error e => rw [hs] at h; cases h
  | ok s' =>
    rw [hs] at h
    simp only [Except.bind] at h
    cases hp : emc3Planes locate firstlast p0 rz s' [p] s' [(0, s')] with
    | error e => rw [hp] at h; cases h
    | ok l =>
      rw [hp] at h
      simp only [Except.map] at h
      injection h with h
      injection h with h1 h2
      subst h2
      rw [emc3Planes] at hp
      dsimp only at hp
      have key : ∀ (src dst : List (PMesh K)) (n : ℕ) (t : Spot K), crossPeriods locate src dst (n + 1) s' = .ok t →
          ∃ rz1 t, spotToRz src s' = .ok rz1 ∧ locate rz1 dst s'.2.1 s'.2.2 = .ok t := by
        intro src dst n t ht
        rw [crossPeriods] at ht
        cases h3 : spotToRz src s' with
        | error e => rw [h3] at ht; cases ht
        | ok rz1 =>
          rw [h3] at ht
          simp only [Except.bind] at ht
          cases h4 : locate rz1 dst s'.2.1 s'.2.2 with
          | error e => rw [h4] at ht; cases ht
          | ok t' => exact ⟨rz1, t', rfl, h4⟩
      have hcross : ∀ per : ℤ, per = p.perBC s'.2.2 - p0.perBC s'.2.2 → per ≠ 0 → ∃ t, crossPeriods locate (if per > 0 then (firstlast.2, firstlast.1) else (firstlast.1, firstlast.2)).1
          (if per > 0 then (firstlast.2, firstlast.1) else (firstlast.1, firstlast.2)).2 per.natAbs s' = .ok t := by
        intro per hper hne
        rw [← hper] at hp
        have hl : List.lookup per [((0 : ℤ), s')] = none := by
          rw [List.lookup_cons]
          have : (per == 0) = false := by simpa using hne
          rw [this]; rfl
        rw [hl] at hp
        simp only at hp
        cases hcp : crossPeriods locate (if per > 0 then (firstlast.2, firstlast.1) else (firstlast.1, firstlast.2)).1
            (if per > 0 then (firstlast.2, firstlast.1) else (firstlast.1, firstlast.2)).2 per.natAbs s' with
        | error e => rw [hcp] at hp; cases hp
        | ok t => exact ⟨t, rfl⟩
      constructor
      · intro hlt
        obtain ⟨t, ht⟩ := hcross _ rfl (by omega)
        rw [if_pos (by omega)] at ht
        obtain ⟨n, hn⟩ : ∃ n, (p.perBC s'.2.2 - p0.perBC s'.2.2).natAbs = n + 1 := ⟨(p.perBC s'.2.2 - p0.perBC s'.2.2).natAbs - 1, by omega⟩
        rw [hn] at ht
        exact key _ _ n t ht
      · intro hlt
        obtain ⟨t, ht⟩ := hcross _ rfl (by omega)
        rw [if_neg (by omega)] at ht
        obtain ⟨n, hn⟩ : ∃ n, (p.perBC s'.2.2 - p0.perBC s'.2.2).natAbs = n + 1 := ⟨(p.perBC s'.2.2 - p0.perBC s'.2.2).natAbs - 1, by omega⟩
        rw [hn] at ht
        exact key _ _ n t ht

/-! ## A concrete case -/

/-- Two zones with one unit cell each, side by side. -/
def twoZones : List (PMesh ℚ) := [⟨2, 2, fun i j => ((j : ℚ), (i : ℚ)), 0⟩, ⟨2, 2, fun i j => ((j : ℚ) + 1, (i : ℚ)), 1⟩]

/-- The point is inside the one cell of the mesh. -/
def inUnit (m : PMesh ℚ) (c : ℕ) (rz : ℚ × ℚ) : Prop := c = 0 ∧ (m.node 0 0).1 < rz.1 ∧ rz.1 < (m.node 0 0).1 + 1 ∧ 0 < rz.2 ∧ rz.2 < 1

/-- `find_cell` for these meshes. -/
def findUnit (m : PMesh ℚ) (rz : ℚ × ℚ) (_ : ℤ) : ℤ := if (m.node 0 0).1 < rz.1 ∧ rz.1 < (m.node 0 0).1 + 1 ∧ 0 < rz.2 ∧ rz.2 < 1 then 0 else -1

theorem findUnit_ok : FindOk findUnit inUnit where
  cell := by
    intro m rz h h0
    unfold findUnit at h0 ⊢
    split_ifs at h0 ⊢ with h1
    · exact ⟨rfl, h1⟩
    · omega
  all := by
    rintro m rz h c ⟨_, hc⟩
    unfold findUnit
    rw [if_pos hc]

example : FindOk findUnit inUnit ∧ (∃ m ∈ twoZones, ∃ c, inUnit m c (3 / 2, 1 / 2)) ∧
    (∀ m' ∈ twoZones, ∀ c', inUnit m' c' (3 / 2, 1 / 2) → m'.zid = 1 ∧ c' = 0) ∧
    (rzToAb findUnit (fun _ _ => (0, 0)) (3 / 2, 1 / 2) twoZones (-1) 0).toOption = some ((1 / 2, 1 / 2), 0, 1) ∧
    (rzToAb findUnit (fun _ _ => (0, 0)) (1 / 2, 1 / 2) twoZones 0 1).toOption = some ((1 / 2, 1 / 2), 0, 0) := by
  refine ⟨findUnit_ok, ⟨_, List.mem_cons_of_mem _ (List.mem_cons_self ..), 0, rfl, by norm_num, by norm_num, by norm_num, by norm_num⟩, ?_, by decide +kernel, by decide +kernel⟩
  intro m hm c hc
  simp only [twoZones, List.mem_cons, List.not_mem_nil, or_false] at hm
  obtain ⟨h0, h1, h2, _⟩ := hc
  rcases hm with rfl | rfl
  · norm_num at h2
  · exact ⟨rfl, h0⟩

example : (∀ m ∈ twoZones, ∀ c, ¬ inUnit m c (5, 5)) ∧ (∀ m ∈ twoZones, 0 < m.nr ∧ 0 < m.nz) ∧
    (rzToAb findUnit (fun _ _ => (0, 0)) (5, 5) twoZones (-1) 0).toBool = false := by
  refine ⟨?_, ?_, by decide +kernel⟩
  · rintro m _ c ⟨_, _, _, _, h⟩
    norm_num at h
  · intro m hm
    simp only [twoZones, List.mem_cons, List.not_mem_nil, or_false] at hm
    rcases hm with rfl | rfl <;> simp

example : (emc3Line inCell ([shifted 0], [shifted (1 / 2)]) ⟨[shifted 0], fun _ => 0⟩ [⟨[shifted 0], fun _ => 1⟩] (1 / 4, 1 / 4) (-1) 0).toBool = true := by
  decide +kernel

end Zoidberg
