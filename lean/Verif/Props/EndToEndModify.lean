import Verif.Props.EndToEnd
import Verif.Props.ModifyMaps

/-!
# C209-C212: `modify_maps` of the maps of `make_maps`
-/

set_option linter.unusedSectionVars false

namespace Zoidberg

open Weights

variable {K : Type} [Field K] [LinearOrder K] [IsStrictOrderedRing K] [FloorRing K]

/-! ### C17, exactly -/

namespace Weights

/-- **C17**, exactly when: a boundary leg goes with a centre in the boundary if and only if a centre in the boundary goes with a
sub-sample there and, with the filter, sub-samples that are all in the boundary go with a centre there. -/
theorem C17_iff (jc : ℕ → ℤ) (jw : ℕ → K) (maps : MapDict K) (i : Input K) (cx cz : Bool → Cell → K) (h : Full maps i cx cz) (hn : 0 < i.n)
    (hg : 2 * i.mxg ≤ i.nx) (hw : i.GoodWeights) (p fwd : Bool) (c : Cell) (hc : i.Interior c) :
    C17Claim K jc jw maps i p fwd c ↔
      (i.Escapes (cx fwd c) → i.SomeEscape fwd c) ∧ (p = false → ¬ i.SomeStay fwd c → i.Escapes (cx fwd c)) := by
  have hsome : ¬ i.SomeStay fwd c → i.SomeEscape fwd c := by
    intro q
    refine ⟨0, hn, ?_⟩
    by_contra r
    exact q ⟨0, hn, r⟩
  constructor
  · intro hC
    obtain ⟨m, hm⟩ := modifyMaps_succeeds jc jw maps i cx cz h p hg hw
    obtain ⟨o, xt, ho, h1, h2⟩ := hC m hm
    obtain ⟨o', xt', ho', h1', h2', h3', h4'⟩ := boundary_leg_after jc jw maps i cx cz h hn p fwd c hc m hm
    have e1 : xt = xt' := by
      have := h1.symm.trans h1'
      injection this with this
      injection this
    have e2 : (o.legs fwd).legBoundary = (o'.legs fwd).legBoundary := by
      cases fwd
      · have := ho.bbnd.symm.trans ho'.bbnd
        injection this with this
        injection this
      · have := ho.fbnd.symm.trans ho'.fbnd
        injection this with this
        injection this
    subst e1
    rw [e2, h2'] at h2
    by_cases hE : i.SomeEscape fwd c
    · refine ⟨fun _ => hE, ?_⟩
      intro hp hS
      have hx := h4' (by rw [hp]; simp)
      rw [← hx]
      exact h2.1 ⟨hE, Or.inr (Or.inl hS)⟩
    · refine ⟨?_, fun _ hS => absurd (hsome hS) hE⟩
      intro hx
      exact (h2.2 (by rw [h4' (fun q => hE q.2)]; exact hx)).1
  · rintro ⟨a, b⟩ m hm
    obtain ⟨o, xt, ho, h1, h2, h3, h4⟩ := boundary_leg_after jc jw maps i cx cz h hn p fwd c hc m hm
    refine ⟨o, xt, ho, h1, ?_⟩
    rw [h2]
    by_cases hE : i.SomeEscape fwd c <;> by_cases hx : i.Escapes (cx fwd c) <;> by_cases hS : i.SomeStay fwd c <;> cases p <;>
      simp_all [escapes_minus_one]

end Weights

/-! ### C209 -/

theorem name_fcx : sliceName "xt_prime" 1 = "forward_xt_prime" := by decide +kernel
theorem name_fcz : sliceName "zt_prime" 1 = "forward_zt_prime" := by decide +kernel
theorem name_bcx : sliceName "xt_prime" (-1) = "backward_xt_prime" := by decide +kernel
theorem name_bcz : sliceName "zt_prime" (-1) = "backward_zt_prime" := by decide +kernel

/-- `cx`, `cz` are the maps of the cell centres in `m`. -/
def CentresIn (m : ODict (MapVal K)) (cx cz : Bool → Cell → K) : Prop :=
  ∀ fwd, m.get? (sliceName "xt_prime" (stepOf fwd)) = some (.f3 (cx fwd)) ∧ m.get? (sliceName "zt_prime" (stepOf fwd)) = some (.f3 (cz fwd))

/-- **C209.** What `make_maps` returns has all that `modify_maps` reads. -/
theorem C209_read (e : MmEnv K) (hf : FollowOk e) (nslice mxg n r nc : ℕ) (hs : 1 ≤ nslice)
    (empty : JState K) (m : ODict (MapVal K)) (h : makeMaps e nslice mxg n r nc empty = .ok m) (first : MapPol K) (i : Input K)
    (hi : ReadFrom e mxg n m first i) :
    ∃ cx cz, CentresIn m cx cz ∧ Full (asMapDict first.nx e.grid.ny first.nz (n ^ 2) m) i cx cz := by
  obtain ⟨_, _, _, pf, _, _, f3, f4, _⟩ := sub_arrays h hf (d := 1) (by norm_num) (by simpa using hs)
  obtain ⟨_, _, _, pb, _, _, b3, b4, _⟩ := sub_arrays h hf (d := -1) (by norm_num) (by simpa using hs)
  have hw : m.get? "subcell_weights" ≠ none :=
    (ODict.mem_keys_iff m _).1 (((C31_keys e hf nslice mxg n r nc empty m h).2 _).2 (Or.inl (by decide)))
  refine ⟨fun fwd => if fwd then pf.xt else pb.xt, fun fwd => if fwd then pf.zt else pb.zt, ?_, ?_⟩
  · intro fwd
    cases fwd
    · exact ⟨b3, b4⟩
    · exact ⟨f3, f4⟩
  · have x1 := hi.xs true
    have x2 := hi.xs false
    have x3 := hi.zs true
    have x4 := hi.zs false
    simp only [stepOf, if_true, Bool.false_eq_true, if_false, name_fx, name_fz, name_bx, name_bz] at x1 x2 x3 x4
    rw [name_fcx] at f3
    rw [name_fcz] at f4
    rw [name_bcx] at b3
    rw [name_bcz] at b4
    refine ⟨hi.repr.shape, hi.repr.mxg, ?_, ?_, ?_, ?_, ?_, ?_, ?_, ?_, ?_⟩
    on_goal 9 =>
      rcases hi.repr.w with q | ⟨q, _⟩
      · exact q
      · unfold asMapDict at q
        exact absurd (Option.map_eq_none_iff.1 q) hw
    all_goals
      rw [hi.enx, hi.eny, hi.enz]
      unfold asMapDict
    · rw [x1, hi.en]; rfl
    · rw [x3, hi.en]; rfl
    · rw [x2, hi.en]; rfl
    · rw [x4, hi.en]; rfl
    · rw [f3]; rfl
    · rw [f4]; rfl
    · rw [b3]; rfl
    · rw [b4]; rfl

/-- **C209.** `modify_maps` accepts it, with either setting; the sub-sampled maps are gone and the rest of the maps, but for the centre
maps of the adjacent planes with partial boundaries, is as `make_maps` returned it. -/
theorem C209_succeeds (jc : ℕ → ℤ) (jw : ℕ → K) (e : MmEnv K) (hf : FollowOk e) (hg : GridOk e) (nslice mxg n r nc : ℕ) (hs : 1 ≤ nslice) (hn : 1 ≤ n)
    (hgs : GaussOk e n) (hlen : (e.gauss n).length = n) (hpos : ∀ p ∈ e.gauss n, 0 < p.2)
    (empty : JState K) (m : ODict (MapVal K)) (h : makeMaps e nslice mxg n r nc empty = .ok m)
    (first : MapPol K) (y0 : K) (h0 : e.grid.getPoloidalGrid ((0 : ℕ) : K) = .ok (some first, y0)) (hm : 2 * mxg ≤ first.nx) (p : Bool) :
    ∃ m', modifyMaps jc jw (asMapDict first.nx e.grid.ny first.nz (n ^ 2) m) p = .ok m' ∧ (∃ o, Exports m' o) ∧
      (∀ k ∈ subsampleNames, m' k = none) ∧
      ∀ k, k ∉ exportedNames → k ∉ subsampleNames → (p = true → k ≠ "forward_xt_prime" ∧ k ≠ "backward_xt_prime") →
        m' k = (m.get? k).map (MapVal.toVal first.nx e.grid.ny first.nz (n ^ 2)) := by
  obtain ⟨first', i, hi⟩ := C205_read e hf hg nslice mxg n r nc hs hn hgs hlen hpos empty m h
  have := hi.first_eq h0
  subst this
  obtain ⟨cx, cz, _, hfull⟩ := C209_read e hf nslice mxg n r nc hs empty m h _ i hi
  obtain ⟨m', hm'⟩ := modifyMaps_succeeds jc jw _ i cx cz hfull p (by rw [hi.emxg, hi.enx]; exact hm) hi.good
  obtain ⟨a, b, c, _⟩ := C18_returned_dictionary jc jw _ i cx cz hfull p m' hm'
  exact ⟨m', hm', b, a, c⟩

/-! ### C210 -/

/-- **C210 (partial).** With one sample per cell and one slice, a cell has a boundary leg exactly if its centre map is in the boundary,
after `modify_maps` with either setting. -/
theorem C210_one_sample_partial (jc : ℕ → ℤ) (jw : ℕ → K) (e : MmEnv K) (hf : FollowOk e) (mxg r nc : ℕ)
    (empty : JState K) (m : ODict (MapVal K)) (h : makeMaps e 1 mxg 1 r nc empty = .ok m) (first : MapPol K) (i : Input K)
    (hi : ReadFrom e mxg 1 m first i) (p fwd : Bool) (c : Cell) (hc : i.Interior c) :
    C17Claim K jc jw (asMapDict first.nx e.grid.ny first.nz (1 ^ 2) m) i p fwd c := by
  obtain ⟨cx, cz, hcen, hfull⟩ := C209_read e hf 1 mxg 1 r nc le_rfl empty m h _ i hi
  refine C17_boundary_leg_iff_centre_partial jc jw _ i cx cz hfull p fwd c hc ⟨0, by rw [hi.en]; norm_num, ?_⟩
  obtain ⟨xt, zt, xts, zts, a1, _, a3, _, a5⟩ := C33_one_slice_partial e hf mxg r nc empty m h (stepOf fwd) (by cases fwd <;> simp [stepOf])
    (by cases fwd <;> simp [stepOf])
  have e1 : i.xs fwd = xts := by
    have := (hi.xs fwd).symm.trans a3
    injection this with this
    injection this
  have e2 : cx fwd = xt := by
    have := (hcen fwd).1.symm.trans a1
    injection this with this
    injection this
  rw [e1, e2]
  exact (a5 c.2.1 (by rw [← hi.eny]; exact hc.2.2.1) c.1 c.2.2).1

/-- The sample in the centre of the cell is the centre map. -/
theorem centre_is_sample (e : MmEnv K) (hf : FollowOk e) (φ : K → K → K → K → K × K) (hφ : PointTracer e φ) (mxg n r nc : ℕ) (hn : 1 < n)
    (empty : JState K) (m : ODict (MapVal K)) (h : makeMaps e 1 mxg n r nc empty = .ok m) (first : MapPol K) (i : Input K)
    (hi : ReadFrom e mxg n m first i) (cx cz : Bool → Cell → K) (hcen : CentresIn m cx cz)
    (hpt : ∀ (y : K) (p : MapPol K) (y' : K), e.grid.getPoloidalGrid y = .ok (some p, y') → PointIndex p) (hx : 2 ≤ first.nx)
    (s : ℕ) (hs : (cellNodes e n)[s]? = some (0, 0)) (fwd : Bool) (c : Cell) (hc : i.InGrid c) : i.xs fwd c s = cx fwd c := by
  obtain ⟨x, j, z⟩ := c
  obtain ⟨hcx, hcy, hcz⟩ := hc
  rw [hi.enx] at hcx
  rw [hi.eny] at hcy
  rw [hi.enz] at hcz
  have hd0 : stepOf fwd ≠ 0 := by cases fwd <;> simp [stepOf]
  have hd1 : (stepOf fwd).natAbs = 1 := by cases fwd <;> simp [stepOf]
  obtain ⟨first', y0, smp, ps, h1, h2, h3, h4, h5, h6, h7⟩ := sub_arrays h hf hd0 hd1.le
  have hfe := hi.first_eq (plane_eq h1)
  subst hfe
  have e1 : i.xs fwd = ps.xts := by
    have := (hi.xs fwd).symm.trans h5
    injection this with this
    injection this
  have e2 : cx fwd = ps.xt := by
    have := (hcen fwd).1.symm.trans h3
    injection this with this
    injection this
  rw [e1, e2]
  obtain ⟨pol, y, targets, coord, t, g1, g2, g3, g4, g5, _, g7⟩ := h7 j hcy
  obtain ⟨ho, _⟩ := offsetsOf_int (K := K) 1 (stepOf fwd) hd0 hd1.le
  obtain ⟨b, hb1, hb2⟩ := mapM_getElem? g2 _ _ ho
  rw [g4] at hb1
  injection hb1 with hb1
  subst hb1
  have hgt : (targets.map (·.2))[(stepOf fwd).natAbs]? = some t.2 := by rw [List.getElem?_map, g4]; rfl
  have hgl : (targets.map (·.2)).getLastD y = t.2 := by
    have hl : (targets.map (·.2)).length = (stepOf fwd).natAbs + 1 := by
      rw [List.length_map, mapM_length g2, length_offsetsOf, hd1]
    rw [List.getLastD_eq_getLast?, List.getLast?_eq_getElem?, hl, Nat.add_sub_cancel, hgt]
    rfl
  have hns : n ^ 2 ≠ 1 := by
    have : 1 < n ^ 2 := Nat.one_lt_pow (by norm_num) hn
    omega
  have hsam := g7 (by rw [length_offsetsOf, hd1])
  obtain ⟨_, _, a3, _⟩ := g5 x z
  rw [a3]
  rw [hφ, List.getElem?_map, List.getElem?_cons_succ, hgt] at g3
  simp only [Option.map_some] at g3
  injection g3 with g3
  cases ht : t.1 with
  | none =>
    rw [(hsam.boundary hns ht x z s).1]
    rfl
  | some tp =>
    have hpi : PointIndex tp := hpt _ tp t.2 (hb2.trans (by rw [← ht]))
    obtain ⟨l, hl1, hl2⟩ := hsam.many hns tp ht
    obtain ⟨l', hl1', hl3, _⟩ := samples_nodes e n hn smp h2
    rw [hl1] at hl1'
    injection hl1' with hl1'
    subst hl1'
    rw [← hl3, List.getElem?_map] at hs
    obtain ⟨q, hq1, hq2⟩ := Option.map_eq_some_iff.1 hs
    injection hq2 with hqx hqz
    obtain ⟨c', hc1, hc2⟩ := hl2 s q hq1
    rw [hgl, hφ, List.map_cons, List.map_cons, List.map_nil] at hc1
    simp only [List.getElem?_cons_succ, List.getElem?_cons_zero] at hc1
    injection hc1 with hc1
    have hsame : c' x z = coord x z := by
      rw [← hc1, ← g3]
      simp only [sampleStart, hqx, hqz, add_zero]
      rw [rgInterp_grid _ _ _ _ _ hcx hx hcz, rgInterp_grid _ _ _ _ _ hcx hx hcz]
    rw [(hc2 x z).1]
    simp only [indexOf, indicesOf]
    rw [hpi, hpi (fun x z => (coord x z).1), hsame]

/-- **C210 (partial).** With several samples, one of them in the centre of the cell (`samples_per_dim` odd), the same, for a tracer and grids
that treat every point on its own.  Missing: rules without a sample in the centre (`C210_fails`), and more than one slice (`C211_all_marked`). -/
theorem C210_centre_sample_partial (jc : ℕ → ℤ) (jw : ℕ → K) (e : MmEnv K) (hf : FollowOk e) (φ : K → K → K → K → K × K) (hφ : PointTracer e φ)
    (mxg n r nc : ℕ) (hn : 1 < n) (hlen : (e.gauss n).length = n)
    (empty : JState K) (m : ODict (MapVal K)) (h : makeMaps e 1 mxg n r nc empty = .ok m) (first : MapPol K) (i : Input K)
    (hi : ReadFrom e mxg n m first i)
    (hpt : ∀ (y : K) (p : MapPol K) (y' : K), e.grid.getPoloidalGrid y = .ok (some p, y') → PointIndex p) (hx : 2 ≤ first.nx)
    (s : ℕ) (hs : (cellNodes e n)[s]? = some (0, 0)) (p fwd : Bool) (c : Cell) (hc : i.Interior c) :
    C17Claim K jc jw (asMapDict first.nx e.grid.ny first.nz (n ^ 2) m) i p fwd c := by
  obtain ⟨cx, cz, hcen, hfull⟩ := C209_read e hf 1 mxg n r nc le_rfl empty m h _ i hi
  have hsn : s < i.n := by
    have : s < (cellNodes e n).length := (List.getElem?_eq_some_iff.1 hs).1
    rw [hi.en]
    unfold cellNodes at this
    simp only [List.length_flatMap, List.length_map, hlen, List.map_const', List.sum_replicate, smul_eq_mul] at this
    rw [sq]
    exact this
  refine C17_boundary_leg_iff_centre_partial jc jw _ i cx cz hfull p fwd c hc ⟨s, hsn, ?_⟩
  obtain ⟨a, b, d, f⟩ := hc
  exact centre_is_sample e hf φ hφ mxg n r nc hn empty m h first i hi cx cz hcen hpt hx s hs fwd c ⟨by omega, d, f⟩

/-- The example with three samples per dimension meets the hypotheses. -/
example (p fwd : Bool) (empty : JState ℚ) : ∃ m i, makeMaps (exMm [0, 1] true false) 1 0 3 1 1 empty = .ok m ∧ i.Interior (1, 0, 0) ∧
    C17Claim ℚ (fun _ => 0) (fun _ => 0) (asMapDict 3 2 4 (3 ^ 2) m) i p fwd (1, 0, 0) := by
  obtain ⟨m, h⟩ := exMm_succeeds [0, 1] true false (by simp) 1 0 3 1 1 (by norm_num) (by norm_num) (by norm_num) empty
  have hp := exMm_positive [0, 1] true false 3 (by norm_num)
  obtain ⟨f1, i, hi⟩ := C205_read _ (exMm_follow _ _ _) (exMm_grid _ _ _ (by simp)) 1 0 3 1 1 (by norm_num) (by norm_num) (exMm_gauss _ _ _ 3) hp.1 hp.2 empty m h
  have e1 := hi.first_eq exMm_first
  subst e1
  have hc : i.Interior (1, 0, 0) := by
    refine ⟨?_, ?_, ?_, ?_⟩
    · rw [hi.emxg]; norm_num
    · rw [hi.emxg, hi.enx]; decide
    · rw [hi.eny]; decide
    · rw [hi.enz]; decide
  refine ⟨m, i, h, hc, C210_centre_sample_partial _ _ _ (exMm_follow _ _ _) _ (exMm_point _ _ _) 0 3 1 1 (by norm_num) hp.1 empty m h _ i hi ?_
    (by decide) 4 (by decide +kernel) p fwd _ hc⟩
  intro y pol y' hy
  have := getPoloidalGrid_mem _ y pol y' hy
  obtain ⟨_, _, rfl⟩ := List.mem_map.1 this
  exact fun _ _ _ _ => rfl

/-- The example with a thin plate at `R = 2`, where the centres of the cells `x = 1` are. -/
def plateMm : MmEnv ℚ := { exMm [0, 1] true false with outside := fun x _ _ => decide (x = 2) }

theorem plateMm_first : plateMm.grid.getPoloidalGrid ((0 : ℕ) : ℚ) = .ok (some exMapPol, 0) := exMm_first

theorem plateMm_second : plateMm.grid.getPoloidalGrid (((0 : ℕ) : ℚ) + (((1 : ℤ)) : ℚ)) = .ok (some exMapPol, 1) := exMm_second

theorem plateMm_point : PointTracer plateMm (fun R Z y y' => (R, Z + (y' - y) / 2)) := exMm_point [0, 1] true false

/-- **C210 (refutation).** With two samples per dimension, the centre of the cell (1, 0, 0) ends on the plate and none of its samples does: the
cell has its centre map in the boundary and no boundary leg, with either setting. -/
theorem C210_fails (p : Bool) (empty : JState ℚ) : ∃ m i, makeMaps plateMm 1 0 2 1 1 empty = .ok m ∧ ReadFrom plateMm 0 2 m exMapPol i ∧
    i.Interior (1, 0, 0) ∧ ¬ C17Claim ℚ (fun _ => 0) (fun _ => 0) (asMapDict 3 2 4 (2 ^ 2) m) i p true (1, 0, 0) := by
  have hf : FollowOk plateMm := exMm_follow [0, 1] true false
  have hg : GridOk plateMm := by
    obtain ⟨a, b, c⟩ := exMm_grid [0, 1] true false (by simp)
    exact ⟨a, b, c⟩
  have hgs : GaussOk plateMm 2 := exMm_gauss [0, 1] true false 2
  have hp := exMm_positive [0, 1] true false 2 (by norm_num)
  obtain ⟨m, h⟩ := makeMaps_succeeds plateMm hf hg 1 0 2 1 1 (by norm_num) hgs (by norm_num) (by norm_num) empty
  obtain ⟨f1, i, hi⟩ := C205_read _ hf hg 1 0 2 1 1 (by norm_num) (by norm_num) hgs hp.1 hp.2 empty m h
  have e1 := hi.first_eq plateMm_first
  subst e1
  have hc : i.Interior (1, 0, 0) := by
    refine ⟨?_, ?_, ?_, ?_⟩
    · rw [hi.emxg]; norm_num
    · rw [hi.emxg, hi.enx]; decide
    · rw [hi.eny]; decide
    · rw [hi.enz]; decide
  refine ⟨m, i, h, hi, hc, ?_⟩
  obtain ⟨cx, cz, hcen, hfull⟩ := C209_read _ hf 1 0 2 1 1 le_rfl empty m h _ i hi
  have hpl : (plateMm.grid.ny : ℕ) = 2 := rfl
  intro hC
  have hiff := (C17_iff (fun _ => 0) (fun _ => 0) _ i cx cz hfull (by rw [hi.en]; norm_num) (by rw [hi.emxg]; omega) hi.good p true (1, 0, 0) hc).1 hC
  have hcx : cx true (1, 0, 0) = -1 := by
    obtain ⟨R, Z, xt, zt, _, _, i3, _, i5⟩ := C32_slice_index plateMm hf (fun _ _ _ _ => rfl) 1 0 2 1 1 empty m h 1 (by norm_num) (by simp)
    have : cx true = xt := by
      have := (hcen true).1.symm.trans i3
      injection this with this
      injection this
    rw [this]
    obtain ⟨coord, target, yt, k1, k2, k3⟩ := i5 0 (by rw [hpl]; norm_num)
    obtain ⟨pol, y, t, yt', q1, q2, q3⟩ := traced_point plateMm_point k1 (o := 1) (by decide +kernel)
    rw [plateMm_first] at q1
    injection q1 with q1
    injection q1 with qa qb
    injection qa with qa
    subst qa qb
    refine ((k3 1 0).2.2.2.1 ?_).1
    rw [q3]
    change decide (_ = _) = true
    norm_num [exMapPol]
  obtain ⟨s, hs1, hs2⟩ := hiff.1 (by rw [hcx]; exact escapes_minus_one i)
  rw [hi.en] at hs1
  have hnode : ∃ xo zo : ℚ, (cellNodes plateMm 2)[s]? = some (xo, zo) ∧ (xo = 1 / 4 ∨ xo = -1 / 4) := by
    interval_cases s
    · exact ⟨-1 / 4, -1 / 4, by decide +kernel, Or.inr rfl⟩
    · exact ⟨-1 / 4, 1 / 4, by decide +kernel, Or.inr rfl⟩
    · exact ⟨1 / 4, -1 / 4, by decide +kernel, Or.inl rfl⟩
    · exact ⟨1 / 4, 1 / 4, by decide +kernel, Or.inl rfl⟩
  obtain ⟨xo, zo, n1, n2⟩ := hnode
  obtain ⟨xts, zts, b1, _, b3⟩ := C34_actual_start plateMm hf _ plateMm_point 1 0 2 1 1 (by norm_num) empty m h exMapPol 0 plateMm_first 1
    (by norm_num) (by norm_num) s xo zo n1
  have hxs : i.xs true = xts := by
    have := (hi.xs true).symm.trans b1
    injection this with this
    injection this
  have hv := b3 0 (by rw [hpl]; norm_num) exMapPol 0 exMapPol 1 plateMm_first plateMm_second (fun _ _ _ _ => rfl) 1 0 trivial
  have hR : rgInterp exMapPol.nx exMapPol.nz exMapPol.R (((1 : ℕ) : ℚ) + xo) ((0 : ℕ) : ℚ) = 2 + xo := by
    rcases n2 with rfl | rfl <;> decide +kernel
  unfold IndexOfLine at hv
  simp only [hR] at hv
  have hne : plateMm.outside (2 + xo) 1 (rgInterp exMapPol.nx exMapPol.nz exMapPol.Z (((1 : ℕ) : ℚ) + zo) ((0 : ℕ) : ℚ) + (1 - 0) / 2) = false := by
    change decide (_ = _) = false
    rcases n2 with rfl | rfl <;> norm_num
  rw [hne, if_neg (by simp)] at hv
  have hx := congrArg Prod.fst hv
  change xts (1, 0, 0) s = 2 + xo - 1 at hx
  rw [hxs, hx] at hs2
  unfold Input.Escapes at hs2
  rw [hi.emxg, hi.enx] at hs2
  revert hs2
  rcases n2 with rfl | rfl <;> norm_num [exMapPol]

/-! ### C211 -/

/-- The centre map after `modify_maps` with partial boundaries. -/
def MarkedMap (jc : ℕ → ℤ) (jw : ℕ → K) (maps : MapDict K) (i : Input K) (fwd : Bool) (P : (Cell → K) → Prop) : Prop :=
  ∀ m', modifyMaps jc jw maps true = .ok m' → ∃ xt, m' (xtPrimeKey fwd) = some (.arr3 i.nx i.ny i.nz xt) ∧ P xt

/-- **C211 (partial).** With one slice and one sample per cell, `modify_maps` with partial boundaries sets the centre maps to -1 where they are in
the boundary and leaves all others as `make_maps` returned them.  Missing: more slices, for which it is false (`C211_all_marked`, `C211_fails`). -/
theorem C211_one_slice_partial (jc : ℕ → ℤ) (jw : ℕ → K) (e : MmEnv K) (hf : FollowOk e) (mxg r nc : ℕ)
    (empty : JState K) (m : ODict (MapVal K)) (h : makeMaps e 1 mxg 1 r nc empty = .ok m) (first : MapPol K) (i : Input K)
    (hi : ReadFrom e mxg 1 m first i) (cx cz : Bool → Cell → K) (hcen : CentresIn m cx cz) (fwd : Bool) :
    MarkedMap jc jw (asMapDict first.nx e.grid.ny first.nz (1 ^ 2) m) i fwd fun xt =>
      ∀ c, i.InGrid c → (i.Escapes (cx fwd c) → xt c = -1) ∧ (¬ i.Escapes (cx fwd c) → xt c = cx fwd c) := by
  intro m' hm'
  obtain ⟨cx', cz', hcen', hfull⟩ := C209_read e hf 1 mxg 1 r nc le_rfl empty m h _ i hi
  have ecx : cx' fwd = cx fwd := by
    have := (hcen' fwd).1.symm.trans (hcen fwd).1
    injection this with this
    injection this
  obtain ⟨xt, x1, x2⟩ := (C15_partial_marks jc jw _ i cx' cz' hfull m' hm').1 fwd
  refine ⟨xt, x1, ?_⟩
  intro c hc
  obtain ⟨xt', zt', xts, zts, a1, _, a3, _, a5⟩ := C33_one_slice_partial e hf mxg r nc empty m h (stepOf fwd) (by cases fwd <;> simp [stepOf])
    (by cases fwd <;> simp [stepOf])
  have e1 : i.xs fwd = xts := by
    have := (hi.xs fwd).symm.trans a3
    injection this with this
    injection this
  have e2 : cx fwd = xt' := by
    have := (hcen fwd).1.symm.trans a1
    injection this with this
    injection this
  have hv : i.xs fwd c 0 = cx fwd c := by
    rw [e1, e2]
    exact (a5 c.2.1 (by rw [← hi.eny]; exact hc.2.1) c.1 c.2.2).1
  have hsome : i.SomeEscape fwd c ↔ i.Escapes (cx fwd c) := by
    constructor
    · rintro ⟨s, s1, s2⟩
      rw [hi.en] at s1
      have : s = 0 := by omega
      subst this
      rwa [hv] at s2
    · intro q
      exact ⟨0, by rw [hi.en]; norm_num, by rwa [hv]⟩
  rw [← hsome, ← ecx]
  exact x2 c hc

/-- **C211.** What the code does with more than one slice and guard cells in x: all centre maps of the adjacent planes are set to -1, whatever
the field lines do. -/
theorem C211_all_marked (jc : ℕ → ℤ) (jw : ℕ → K) (e : MmEnv K) (hf : FollowOk e) (nslice mxg n r nc : ℕ) (hs : 2 ≤ nslice) (hn : 1 ≤ n) (hx : 1 ≤ mxg)
    (empty : JState K) (m : ODict (MapVal K)) (h : makeMaps e nslice mxg n r nc empty = .ok m) (first : MapPol K) (i : Input K)
    (hi : ReadFrom e mxg n m first i) (fwd : Bool) :
    MarkedMap jc jw (asMapDict first.nx e.grid.ny first.nz (n ^ 2) m) i fwd fun xt => ∀ c, i.InGrid c → xt c = -1 := by
  intro m' hm'
  obtain ⟨cx, cz, hcen, hfull⟩ := C209_read e hf nslice mxg n r nc (by omega) empty m h _ i hi
  obtain ⟨xt, x1, x2⟩ := (C15_partial_marks jc jw _ i cx cz hfull m' hm').1 fwd
  refine ⟨xt, x1, fun c hc => (x2 c hc).1 ⟨0, by rw [hi.en]; positivity, ?_⟩⟩
  obtain ⟨xts, zts, z1, z2, z3⟩ := C33_zero_between e hf nslice mxg n r nc empty m h (stepOf fwd) (by cases fwd <;> simp [stepOf])
    (by cases fwd <;> simp [stepOf] <;> omega)
  have hxs : i.xs fwd = xts := by
    have := (hi.xs fwd).symm.trans z1
    injection this with this
    injection this
  rw [hxs, (z3 c.2.1 (by rw [← hi.eny]; exact hc.2.1) c.1 c.2.2 0).1]
  left
  rw [hi.emxg]
  exact_mod_cast hx

/-- **C211 (refutation).** In the example with two slices, the centre of cell (1, 0, 0) is mapped to `x = 1`, inside, and marked as lost. -/
theorem C211_fails (empty : JState ℚ) : ∃ m m' i cx cz, makeMaps (exMm [0, 1] true false) 2 1 1 1 1 empty = .ok m ∧
    ReadFrom (exMm [0, 1] true false) 1 1 m exMapPol i ∧ CentresIn m cx cz ∧
    modifyMaps (fun _ => 0) (fun _ => 0) (asMapDict 3 2 4 (1 ^ 2) m) true = .ok m' ∧
    ¬ i.Escapes (cx true (1, 0, 0)) ∧ ∀ xt, m' "forward_xt_prime" = some (.arr3 3 2 4 xt) → xt (1, 0, 0) = -1 ∧ xt (1, 0, 0) ≠ cx true (1, 0, 0) := by
  have hf := exMm_follow [0, 1] true false
  obtain ⟨m, h⟩ := exMm_succeeds [0, 1] true false (by simp) 2 1 1 1 1 (by norm_num) (by norm_num) (by norm_num) empty
  have hp := exMm_positive [0, 1] true false 1 le_rfl
  obtain ⟨f1, i, hi⟩ := C205_read _ hf (exMm_grid _ _ _ (by simp)) 2 1 1 1 1 (by norm_num) (by norm_num) (exMm_gauss _ _ _ 1) hp.1 hp.2 empty m h
  have e1 := hi.first_eq exMm_first
  subst e1
  obtain ⟨cx, cz, hcen, hfull⟩ := C209_read _ hf 2 1 1 1 1 (by norm_num) empty m h _ i hi
  obtain ⟨m', hm'⟩ := modifyMaps_succeeds (fun _ => 0) (fun _ => 0) _ i cx cz hfull true (by rw [hi.emxg, hi.enx]; decide) hi.good
  have hny : (exMm [0, 1] true false).grid.ny = 2 := rfl
  have hcx : cx true (1, 0, 0) = 1 := by
    obtain ⟨R, Z, xt, zt, _, _, i3, _, i5⟩ := C32_slice_index _ hf (fun _ _ _ _ => rfl) 2 1 1 1 1 empty m h 1 (by norm_num) (by simp)
    have : cx true = xt := by
      have := (hcen true).1.symm.trans i3
      injection this with this
      injection this
    rw [this]
    obtain ⟨coord, target, yt, k1, k2, k3⟩ := i5 0 (by rw [hny]; norm_num)
    obtain ⟨pol, y, t, yt', q1, q2, q3⟩ := traced_point (exMm_point _ _ _) k1 (o := 1) (by decide +kernel)
    rw [exMm_first] at q1
    injection q1 with q1
    injection q1 with qa qb
    injection qa with qa
    subst qa qb
    have k2' := k2.symm.trans exMm_second
    injection k2' with k2'
    injection k2' with ka kb
    have q2' := q2.symm.trans k2
    injection q2' with q2'
    injection q2' with qa qb
    subst kb
    have hv := (k3 1 0).2.2.2.2 exMapPol ka (by
      rw [q3, qb]
      change decide (_ < _) = false
      norm_num [exMapPol])
    have := congrArg Prod.fst hv
    simp only at this
    rw [this]
    change (coord 1 0).1 - 1 = 1
    rw [q3]
    norm_num [exMapPol]
  refine ⟨m, m', i, cx, cz, h, hi, hcen, hm', ?_, ?_⟩
  · rw [hcx]
    unfold Input.Escapes
    rw [hi.emxg, hi.enx]
    norm_num [exMapPol]
  · intro xt hxt
    obtain ⟨xt', y1, y2⟩ := C211_all_marked (fun _ => 0) (fun _ => 0) _ hf 2 1 1 1 1 le_rfl le_rfl le_rfl empty m h _ i hi true m' hm'
    have hee : xt' = xt := by
      have := y1.symm.trans hxt
      injection this with this
      injection this
    subst hee
    have := y2 (1, 0, 0) ⟨by rw [hi.enx]; decide, by rw [hi.eny, hny]; norm_num, by rw [hi.enz]; decide⟩
    refine ⟨this, ?_⟩
    rw [this, hcx]
    norm_num

/-! ### C212 -/

/-- **C212.** With `nslice = 0` `make_maps` returns no maps of adjacent planes, and both functions of `weights.py` raise `KeyError` for the
first one they miss (the first of them `IndexError` before that if there are more guard cells than cells). -/
theorem C212_no_slices (jc : ℕ → ℤ) (jw : ℕ → K) (e : MmEnv K) (hf : FollowOk e) (hg : GridOk e) (mxg n r nc : ℕ)
    (empty : JState K) (m : ODict (MapVal K)) (h : makeMaps e 0 mxg n r nc empty = .ok m) (nx ny nz ns : ℕ) :
    (¬ (nx < mxg ∧ 0 < ny ∧ 0 < nz) → calculateOps jc jw (asMapDict nx ny nz ns m) = .error (.key "forward_xt_primes")) ∧
    (nx < mxg ∧ 0 < ny ∧ 0 < nz → calculateOps jc jw (asMapDict nx ny nz ns m) = .error (.index "cell_number")) ∧
    ∀ p, modifyMaps jc jw (asMapDict nx ny nz ns m) p = .error (.key "forward_xt_primes") := by
  have hk := (C31_keys e hf 0 mxg n r nc empty m h).2
  obtain ⟨g1, _, R, Z, g2, _, _⟩ := C31_grid_points e hf hg 0 mxg n r nc empty m h
  have hno : ∀ k ∈ ["forward_xt_primes", "forward_xt_prime"], asMapDict nx ny nz ns m k = none := by
    intro k hkm
    unfold asMapDict
    rw [Option.map_eq_none_iff, ODict.get?_eq_none_iff, hk]
    rintro (q | ⟨d, d1, d2, _⟩ | q | q | ⟨_, q⟩)
    · revert q; revert k; decide
    · omega
    · revert q; revert k; decide
    · revert q; revert k; decide
    · revert q; revert k; decide
  have hxs := hno "forward_xt_primes" (by simp)
  have hx := hno "forward_xt_prime" (by simp)
  have hR : asMapDict nx ny nz ns m "R" = some (.arr3 nx ny nz R) := by unfold asMapDict; rw [g2]; rfl
  have hM : asMapDict nx ny nz ns m "MXG" = some (.nat mxg) := by unfold asMapDict; rw [g1]; rfl
  have hm1 : getMXG (asMapDict nx ny nz ns m) = .ok mxg := by simp [getMXG, Dict.get, hM, bind, Except.bind]
  have hsh : shapeR (asMapDict nx ny nz ns m) = .ok (nx, ny, nz) := by simp [shapeR, Dict.get, hR, bind, Except.bind]
  refine ⟨fun hfit => ?_, fun hfit => ?_, ?_⟩
  · simp [calculateOps, hsh, assignCellSpaceNumbers, hm1, getSub, getMapArray, hxs, hx, bind, Except.bind, hfit]
  · simp [calculateOps, hsh, assignCellSpaceNumbers, hm1, bind, Except.bind, hfit]
  · have e1 : "forward" ++ "_xt_primes" = "forward_xt_primes" := rfl
    have h4 : get4 (asMapDict nx ny nz ns m) "forward_xt_primes" = .error (.key "forward_xt_primes") := by
      simp [get4, Dict.get, hxs, bind, Except.bind]
    intro p
    cases p <;> simp [modifyMaps, hm1, h4, bind, Except.bind, List.foldlM, markDir, filterDir, e1]

example (empty : JState ℚ) : ∃ m, makeMaps (exMm [0, 1] true false) 0 2 1 1 1 empty = .ok m ∧
    modifyMaps (fun _ => 0) (fun _ => 0) (asMapDict 3 2 4 1 m) true = .error (.key "forward_xt_primes") := by
  obtain ⟨m, h⟩ := exMm_succeeds [0, 1] true false (by simp) 0 2 1 1 1 (by norm_num) (by norm_num) (by norm_num) empty
  exact ⟨m, h, (C212_no_slices _ _ _ (exMm_follow _ _ _) (exMm_grid _ _ _ (by simp)) 2 1 1 1 empty m h 3 2 4 1).2.2 true⟩

end Zoidberg
