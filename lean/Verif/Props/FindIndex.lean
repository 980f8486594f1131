import Verif.Model.PolStructured
import Mathlib.Tactic.FieldSimp
import Mathlib.Tactic.LinearCombination

/-!
# C47, C48, C109, C110, C111: `getCoordinate` and `findIndex` of the structured grid
-/

set_option linter.unusedSectionVars false

namespace Zoidberg

variable {K : Type} [Field K] [LinearOrder K] [IsStrictOrderedRing K] [FloorRing K]

/-! ## The coordinates -/

theorem npRem_nonneg (x : K) {n : ℕ} (h : 0 < n) : 0 ≤ npRem x n ∧ npRem x n < n := by
  have hn : (0 : K) < n := by exact_mod_cast h
  unfold npRem
  have h1 := Int.floor_le (x / n)
  have h2 := Int.lt_floor_add_one (x / n)
  rw [le_div_iff₀ hn] at h1
  rw [div_lt_iff₀ hn] at h2
  constructor
  · linarith [mul_comm ((⌊x / (n : K)⌋ : ℤ) : K) (n : K)]
  · nlinarith

theorem npRem_add (x : K) {n : ℕ} (h : 0 < n) (k : ℤ) : npRem (x + k * n) n = npRem x n := by
  have hn : (n : K) ≠ 0 := by exact_mod_cast h.ne'
  unfold npRem
  rw [add_div, mul_div_cancel_right₀ _ hn, Int.floor_add_intCast]
  push_cast
  ring

theorem npRem_self {x : K} {n : ℕ} (h1 : 0 ≤ x) (h2 : x < n) : npRem x n = x := by
  have hn : (0 : K) < n := lt_of_le_of_lt h1 h2
  unfold npRem
  have : ⌊x / (n : K)⌋ = 0 := by
    rw [Int.floor_eq_zero_iff]
    exact ⟨div_nonneg h1 hn.le, (div_lt_one hn).2 h2⟩
  rw [this]
  simp

/-- Splines are exact at the data points. -/
def MkSpline.Exact (mk : MkSpline K) : Prop :=
  ∀ n m data (i j : ℕ), i < n → j < m → mk n m data 0 0 (i : K) (j : K) = data i j

theorem StrPol.init_ok {mk : MkSpline K} {area : List (K × K) → K} {nx nz : ℕ} {R Z : ℕ → ℕ → K} {g : StrPol K}
    (h : StrPol.init mk area nx nz R Z = .ok g) :
    g = ⟨nx, nz, R, Z, mk nx (nz * 3) fun x k => R x (k % nz), mk nx (nz * 3) fun x k => Z x (k % nz)⟩ := by
  unfold StrPol.init at h
  simp only at h
  split at h
  · simp at h
  · injection h with h; exact h.symm

/-- **C111.** The coordinates are periodic in `z`, for the values and all derivatives. -/
theorem C111_periodic (g : StrPol K) (hz : 0 < g.nz) (x z : K) (k : ℤ) (dx dz : ℕ) :
    g.getCoordinate x (z + k * g.nz) dx dz = g.getCoordinate x z dx dz := by
  unfold StrPol.getCoordinate
  rw [npRem_add z hz k]

/-- **C111.** At integer indices they are the points that were given, whatever multiple of
`nz` is added. -/
theorem C111_nodes (mk : MkSpline K) (hmk : mk.Exact) (area : List (K × K) → K) (nx nz : ℕ)
    (R Z : ℕ → ℕ → K) (g : StrPol K) (h : StrPol.init mk area nx nz R Z = .ok g) (i j : ℕ) (hi : i < nx)
    (hj : j < nz) (k : ℤ) : g.getCoordinate i ((j : K) + k * nz) 0 0 = .ok (R i j, Z i j) := by
  have e := StrPol.init_ok h
  have hnz : 0 < nz := by omega
  have h1 : g.nz = nz := by rw [e]
  have h2 : g.nx = nx := by rw [e]
  have := C111_periodic g (by rw [h1]; exact hnz) (i : K) (j : K) k 0 0
  rw [h1] at this
  rw [this]
  unfold StrPol.getCoordinate
  rw [if_neg, h1, npRem_self (by positivity) (by exact_mod_cast hj)]
  · have hc : (j : K) + (nz : K) = ((j + nz : ℕ) : K) := by push_cast; ring
    simp only [hc, e]
    rw [hmk _ _ _ i (j + nz) hi (by omega), hmk _ _ _ i (j + nz) hi (by omega)]
    rw [Nat.add_mod_right, Nat.mod_eq_of_lt hj]
  · rw [h2, not_or, not_lt, not_lt]
    constructor
    · positivity
    · have : ((i + 1 : ℕ) : K) ≤ (nx : K) := by exact_mod_cast hi
      push_cast at this
      linarith

/-! ## The iteration -/

/-- What holds of every point during the iteration. -/
structure FiPt.Inv (nx : ℕ) (p : FiPt K) : Prop where
  range : 0 ≤ p.x ∧ p.x ≤ (nx : K) - 1
  on : p.on = true → 1 / 2 ≤ p.x ∧ p.x ≤ (nx : K) - 3 / 2
  off : p.on = false → p.x < 1 / 2 ∨ p.x > (nx : K) - 3 / 2

theorem start_inv {nx nz : ℕ} {nearest : K → K → ℕ} (hn : ∀ R Z, nearest R Z < nx * nz) (p : K × K) :
    (FiPt.start nx nz nearest p).Inv nx := by
  have hz : 0 < nz := by
    rcases Nat.eq_zero_or_pos nz with e | e
    · have := hn 0 0; rw [e] at this; simp at this
    · exact e
  have hlt : nearest p.1 p.2 / nz < nx := (Nat.div_lt_iff_lt_mul hz).2 (hn _ _)
  have hc : ((nearest p.1 p.2 / nz : ℕ) : K) + 1 ≤ nx := by exact_mod_cast hlt
  refine ⟨⟨by simp [FiPt.start], ?_⟩, ?_, ?_⟩
  · simp only [FiPt.start]; linarith
  · simp only [FiPt.start, Bool.not_eq_true', decide_eq_false_iff_not, not_or, not_lt]
    exact fun h => h
  · simp only [FiPt.start, Bool.not_eq_false', decide_eq_true_eq]
    exact fun h => h

theorem newton_inv {nx : ℕ} (hx : 1 ≤ nx) {u : K} {p q : FiPt K} {pos a b : K × K} (h : p.Inv nx)
    (e : p.newton nx u pos a b = .ok q) : q.Inv nx ∧ q.R = p.R ∧ q.Z = p.Z := by
  have hnx : (1 : K) ≤ nx := by exact_mod_cast hx
  have hnx2 : nx = 1 ∨ (2 : K) ≤ nx := by
    rcases Nat.lt_or_ge nx 2 with h | h
    · exact Or.inl (by omega)
    · exact Or.inr (by exact_mod_cast h)
  unfold FiPt.newton at e
  simp only at e
  split at e
  · simp at e
  · injection e with e
    have key : ∀ (x z : K) (o : Bool), (o = false → x < 1 / 2 ∨ x > (nx : K) - 3 / 2) →
        ∀ r : FiPt K, r = (if x < 1 / 2 then (⟨p.R, p.Z, 0, z, false⟩ : FiPt K) else ⟨p.R, p.Z, x, z, o⟩) →
        ∀ q : FiPt K, q = (if r.x > (nx : K) - 3 / 2 then { r with on := false, x := (nx : K) - 1 } else r) →
        q.Inv nx ∧ q.R = p.R ∧ q.Z = p.Z := by
      intro x z o ho r hr q hq
      by_cases h1 : x < 1 / 2
      · rw [if_pos h1] at hr
        subst hr
        by_cases h2 : (0 : K) > (nx : K) - 3 / 2
        · rw [if_pos h2] at hq
          subst hq
          refine ⟨⟨⟨by simp only; linarith, le_refl _⟩, by simp, fun _ => Or.inr (by simp only; linarith)⟩, rfl, rfl⟩
        · rw [if_neg h2] at hq
          subst hq
          refine ⟨⟨⟨le_refl _, by simp only; linarith⟩, by simp, fun _ => Or.inl (by simp only; norm_num)⟩, rfl, rfl⟩
      · rw [if_neg h1] at hr
        subst hr
        by_cases h2 : x > (nx : K) - 3 / 2
        · rw [if_pos h2] at hq
          subst hq
          refine ⟨⟨⟨by simp only; linarith, le_refl _⟩, by simp, fun _ => Or.inr (by simp only; linarith)⟩, rfl, rfl⟩
        · rw [if_neg h2] at hq
          subst hq
          push Not at h1 h2
          refine ⟨⟨⟨by simp only; linarith, by simp only; linarith⟩, fun _ => ⟨h1, h2⟩, fun hc => ?_⟩, rfl, rfl⟩
          rcases ho hc with h' | h'
          · exact absurd h' (not_lt.2 h1)
          · exact absurd h' (not_lt.2 h2)
    refine key _ _ p.on ?_ _ rfl q e.symm
    intro ho
    have := h.off ho
    simp only [ho, Bool.false_eq_true, if_false, zero_mul, sub_zero]
    exact this

theorem newtonAll_inv {nx : ℕ} (hx : 1 ≤ nx) {u : K} : ∀ {ps : List (FiPt K)} {cs as bs : List (K × K)}
    {qs : List (FiPt K)}, (∀ p ∈ ps, p.Inv nx) → newtonAll nx u ps cs as bs = .ok qs →
    cs.length = ps.length → as.length = ps.length → bs.length = ps.length →
    (∀ q ∈ qs, q.Inv nx) ∧ qs.map (fun q => (q.R, q.Z)) = ps.map fun p => (p.R, p.Z)
  | [], [], [], [], qs, _, e, _, _, _ => by
    simp only [newtonAll, Except.ok.injEq] at e
    subst e
    simp
  | p :: ps, c :: cs, a :: as, b :: bs, qs, h, e, l1, l2, l3 => by
    simp only [newtonAll, bind, Except.bind] at e
    cases h1 : p.newton nx u c a b with
    | error x => rw [h1] at e; simp at e
    | ok q =>
      rw [h1] at e
      simp only at e
      cases h2 : newtonAll nx u ps cs as bs with
      | error x => rw [h2] at e; simp at e
      | ok qs' =>
        rw [h2] at e
        simp only [pure, Except.pure, Except.ok.injEq] at e
        subst e
        obtain ⟨i1, i2, i3⟩ := newton_inv hx (h p List.mem_cons_self) h1
        obtain ⟨j1, j2⟩ := newtonAll_inv hx (fun p hp => h p (List.mem_cons_of_mem _ hp)) h2
          (by simpa using l1) (by simpa using l2) (by simpa using l3)
        constructor
        · intro q' hq'
          rcases List.mem_cons.1 hq' with rfl | hq'
          · exact i1
          · exact j1 q' hq'
        · rw [List.map_cons, List.map_cons, i2, i3, j2]

theorem getCoordinate_inv {g : StrPol K} {p : FiPt K} (h : p.Inv g.nx) (dx dz : ℕ) :
    g.getCoordinate p.x p.z dx dz = .ok (g.splR dx dz p.x (npRem p.z (g.nz : K) + (g.nz : K)),
      g.splZ dx dz p.x (npRem p.z (g.nz : K) + (g.nz : K))) := by
  unfold StrPol.getCoordinate
  rw [if_neg]
  rw [not_or, not_lt, not_lt]
  exact h.range

theorem coords_inv {g : StrPol K} {pts : List (FiPt K)} (hne : pts ≠ []) (h : ∀ p ∈ pts, p.Inv g.nx)
    (dx dz : ℕ) : g.coords pts dx dz = .ok (pts.map fun p => (g.splR dx dz p.x (npRem p.z (g.nz : K) + (g.nz : K)),
      g.splZ dx dz p.x (npRem p.z (g.nz : K) + (g.nz : K)))) := by
  unfold StrPol.coords
  rw [if_neg hne]
  clear hne
  induction pts with
  | nil => rfl
  | cons p t ih =>
    rw [List.mapM_cons, getCoordinate_inv (h p List.mem_cons_self),
      ih fun q hq => h q (List.mem_cons_of_mem _ hq)]
    rfl

/-- The result of the loop, if it returns. -/
theorem fiLoop_ok {g : StrPol K} (hx : 1 ≤ g.nx) {tol : K} : ∀ {fuel cnt extra : ℕ} {pts qs : List (FiPt K)},
    (∀ p ∈ pts, p.Inv g.nx) → g.fiLoop tol fuel cnt extra pts = .ok qs →
    (∀ q ∈ qs, q.Inv g.nx) ∧ qs.map (fun q => (q.R, q.Z)) = pts.map (fun p => (p.R, p.Z)) ∧
      ∀ q ∈ qs, ∃ c, g.getCoordinate q.x q.z 0 0 = .ok c ∧ q.dist c < tol
  | 0, _, _, _, _, _, e => by simp [StrPol.fiLoop] at e
  | fuel + 1, cnt, extra, pts, qs, h, e => by
    by_cases hne : pts = []
    · simp [StrPol.fiLoop, StrPol.coords, hne, bind, Except.bind] at e
    · have ec := coords_inv hne h
      simp only [StrPol.fiLoop, ec 0 0, ec 1 0, ec 0 1, bind, Except.bind] at e
      split at e
      · rename_i hc
        simp only [pure, Except.pure, Except.ok.injEq] at e
        subst e
        refine ⟨h, rfl, ?_⟩
        intro q hq
        refine ⟨_, getCoordinate_inv (h q hq) 0 0, ?_⟩
        have := hc.1
        rw [List.all_eq_true] at this
        have hz : List.zipWith FiPt.dist pts (pts.map fun p => (g.splR 0 0 p.x (npRem p.z (g.nz : K) + (g.nz : K)),
            g.splZ 0 0 p.x (npRem p.z (g.nz : K) + (g.nz : K)))) = pts.map fun p => p.dist
              (g.splR 0 0 p.x (npRem p.z (g.nz : K) + (g.nz : K)), g.splZ 0 0 p.x (npRem p.z (g.nz : K) + (g.nz : K))) := by
          clear * -
          induction pts with
          | nil => rfl
          | cons p t ih => simp [ih]
        rw [hz] at this
        have := this _ (List.mem_map.2 ⟨q, hq, rfl⟩)
        simpa using this
      · split at e
        · simp at e
        · split at e
          · simp at e
          · split at e
            · simp at e
            · rename_i pts' hp
              obtain ⟨i1, i2⟩ := newtonAll_inv hx h hp (by simp) (by simp) (by simp)
              obtain ⟨j1, j2, j3⟩ := fiLoop_ok hx i1 e
              exact ⟨j1, by rw [j2, i2], j3⟩

/-- **C47.** If `findIndex` returns, it returns as many indices as positions were given; each
`x` index is -1, `nx` or between 1/2 and `nx - 3/2`; and in the last case the coordinates at the
index are within the tolerance of the position. -/
theorem C47_converged (g : StrPol K) (nearest : K → K → ℕ) (hn : ∀ R Z, nearest R Z < g.nx * g.nz) (tol : K)
    (fuel : ℕ) (ps : List (K × K)) (r : List (K × K)) (h : g.findIndex nearest tol fuel ps = .ok r) :
    r.length = ps.length ∧ ∀ i (hi : i < r.length) (hi' : i < ps.length),
      (r[i].1 = -1 ∨ r[i].1 = g.nx ∨ (1 / 2 ≤ r[i].1 ∧ r[i].1 ≤ g.nx - 3 / 2)) ∧
      (1 / 2 ≤ r[i].1 → r[i].1 ≤ g.nx - 3 / 2 → ∃ R Z, g.getCoordinate r[i].1 r[i].2 0 0 = .ok (R, Z) ∧
        (R - ps[i].1) ^ 2 + (Z - ps[i].2) ^ 2 < tol) := by
  have hx : 1 ≤ g.nx := by
    rcases Nat.eq_zero_or_pos g.nx with e | e
    · have := hn 0 0; rw [e] at this; simp at this
    · exact e
  have hnx : (1 : K) ≤ g.nx := by exact_mod_cast hx
  unfold StrPol.findIndex at h
  cases hl : g.fiLoop tol fuel 0 0 (ps.map (FiPt.start g.nx g.nz nearest)) with
  | error e => rw [hl] at h; simp [Except.map] at h
  | ok qs =>
    rw [hl] at h
    simp only [Except.map, Except.ok.injEq] at h
    subst h
    obtain ⟨h1, h2, h3⟩ := fiLoop_ok hx (pts := ps.map (FiPt.start g.nx g.nz nearest)) (by
      intro p hp
      obtain ⟨q, _, rfl⟩ := List.mem_map.1 hp
      exact start_inv hn q) hl
    have h2' : qs.map (fun q => (q.R, q.Z)) = ps := by
      rw [h2, List.map_map]
      conv_rhs => rw [← List.map_id ps]
      apply List.map_congr_left
      intro p _
      rfl
    have hlen : qs.length = ps.length := by rw [← h2', List.length_map]
    refine ⟨by rw [List.length_map, hlen], ?_⟩
    intro i hi hi'
    have hi'' : i < qs.length := by rw [hlen]; exact hi'
    have hp : ps[i] = (qs[i].R, qs[i].Z) := by
      have := List.getElem_of_eq h2'.symm hi'
      rw [this, List.getElem_map]
    have hinv := h1 qs[i] (List.getElem_mem hi'')
    rw [List.getElem_map]
    have hres : ∀ q : FiPt K, q.Inv g.nx → ((q.result g.nx).1 = -1 ∨ (q.result g.nx).1 = g.nx ∨
        (1 / 2 ≤ (q.result g.nx).1 ∧ (q.result g.nx).1 ≤ g.nx - 3 / 2)) ∧
        (1 / 2 ≤ (q.result g.nx).1 → (q.result g.nx).1 ≤ g.nx - 3 / 2 →
          (q.result g.nx) = (q.x, q.z) ∧ 1 / 2 ≤ q.x ∧ q.x ≤ g.nx - 3 / 2) := by
      intro q hq
      unfold FiPt.result
      simp only
      by_cases a : q.x < 1 / 2
      · rw [if_pos a, if_neg (by intro hc; linarith)]
        refine ⟨Or.inl rfl, fun hc => ?_⟩
        exfalso; norm_num at hc
      · rw [if_neg a]
        by_cases b : q.x > (g.nx : K) - 3 / 2
        · rw [if_pos b]
          exact ⟨Or.inr (Or.inl rfl), fun _ hc => by exfalso; linarith⟩
        · rw [if_neg b]
          push Not at a b
          exact ⟨Or.inr (Or.inr ⟨a, b⟩), fun _ _ => ⟨rfl, a, b⟩⟩
    obtain ⟨r1, r2⟩ := hres qs[i] hinv
    refine ⟨r1, ?_⟩
    intro ha hb
    obtain ⟨e, a, b⟩ := r2 ha hb
    rw [e]
    obtain ⟨c, hc1, hc2⟩ := h3 qs[i] (List.getElem_mem hi'')
    refine ⟨c.1, c.2, hc1, ?_⟩
    have hon : qs[i].on = true := by
      cases ho : qs[i].on with
      | true => rfl
      | false =>
        rcases hinv.off ho with h' | h'
        · exact absurd h' (not_lt.2 a)
        · exact absurd h' (not_lt.2 b)
    rw [hp]
    unfold FiPt.dist at hc2
    rw [hon] at hc2
    simpa using hc2

theorem fiLoop_err {g : StrPol K} (hx : 1 ≤ g.nx) {tol : K} : ∀ {fuel cnt extra : ℕ} {pts : List (FiPt K)}
    {e : Err}, pts ≠ [] → (∀ p ∈ pts, p.Inv g.nx) → cnt < 1000 → 1000 ≤ fuel + cnt →
    g.fiLoop tol fuel cnt extra pts = .error e → e = .runtime "Failed to converge"
  | 0, cnt, _, _, _, _, _, h1, h2, _ => by omega
  | fuel + 1, cnt, extra, pts, e, hne, h, h1, h2, he => by
    have ec := coords_inv hne h
    simp only [StrPol.fiLoop, ec 0 0, ec 1 0, ec 0 1, bind, Except.bind] at he
    split at he
    · simp [pure, Except.pure] at he
    · split at he
      · injection he with he; exact he.symm
      · split at he
        · injection he with he; exact he.symm
        · rename_i hc
          split at he
          · rename_i e' hn
            injection he with he
            subst he
            have key : ∀ (u : K) (ps : List (FiPt K)) (cs as bs : List (K × K)),
                newtonAll g.nx u ps cs as bs = .error e' → e' = .runtime "Failed to converge" := by
              intro u ps
              induction ps with
              | nil => intro cs as bs hh; simp [newtonAll] at hh
              | cons p t ih =>
                intro cs as bs hh
                match cs, as, bs with
                | [], _, _ => simp [newtonAll] at hh
                | _ :: _, [], _ => simp [newtonAll] at hh
                | _ :: _, _ :: _, [] => simp [newtonAll] at hh
                | c :: cs, a :: as, b :: bs =>
                  simp only [newtonAll, bind, Except.bind] at hh
                  cases h1 : p.newton g.nx u c a b with
                  | error x =>
                    rw [h1] at hh
                    simp only [Except.error.injEq] at hh
                    subst hh
                    unfold FiPt.newton at h1
                    simp only at h1
                    split at h1
                    · injection h1 with h1; exact h1.symm
                    · simp at h1
                  | ok q =>
                    rw [h1] at hh
                    simp only at hh
                    cases h2 : newtonAll g.nx u t cs as bs with
                    | error x =>
                      rw [h2] at hh
                      simp only [Except.error.injEq] at hh
                      subst hh
                      exact ih cs as bs h2
                    | ok qs => rw [h2] at hh; simp [pure, Except.pure] at hh
            exact key _ _ _ _ _ hn
          · rename_i pts' hp
            obtain ⟨i1, i2⟩ := newtonAll_inv hx h hp (by simp) (by simp) (by simp)
            refine fiLoop_err hx ?_ i1 (by omega) (by omega) he
            intro hc
            rw [hc] at i2
            exact hne (List.map_eq_nil_iff.1 i2.symm)

/-- **C48.** 1000 passes are enough, and the only exception, for a non-empty list of positions,
is the failure to converge: in particular `x index out of range` is never raised. -/
theorem C48_terminates (g : StrPol K) (nearest : K → K → ℕ) (hn : ∀ R Z, nearest R Z < g.nx * g.nz) (tol : K)
    (fuel : ℕ) (hf : 1000 ≤ fuel) (ps : List (K × K)) (hne : ps ≠ []) (e : Err)
    (h : g.findIndex nearest tol fuel ps = .error e) : e = .runtime "Failed to converge" := by
  have hx : 1 ≤ g.nx := by
    rcases Nat.eq_zero_or_pos g.nx with e | e
    · have := hn 0 0; rw [e] at this; simp at this
    · exact e
  unfold StrPol.findIndex at h
  cases hl : g.fiLoop tol fuel 0 0 (ps.map (FiPt.start g.nx g.nz nearest)) with
  | ok qs => rw [hl] at h; simp [Except.map] at h
  | error e' =>
    rw [hl] at h
    simp only [Except.map, Except.error.injEq] at h
    subst h
    refine fiLoop_err hx (by simpa using hne) ?_ (by decide) (by omega) hl
    intro p hp
    obtain ⟨q, _, rfl⟩ := List.mem_map.1 hp
    exact start_inv hn q

/-- **C48.** More passes than 1000 change nothing: the loop itself stops. -/
theorem C48_bound (g : StrPol K) (nearest : K → K → ℕ) (hn : ∀ R Z, nearest R Z < g.nx * g.nz) (tol : K)
    (fuel : ℕ) (hf : 1000 ≤ fuel) (ps : List (K × K)) (hne : ps ≠ []) :
    g.findIndex nearest tol fuel ps = g.findIndex nearest tol 1000 ps := by
  have key : ∀ n cnt extra (pts : List (FiPt K)), ∀ m, n ≤ m →
      g.fiLoop tol n cnt extra pts ≠ .error (.runtime "does not terminate") →
      g.fiLoop tol m cnt extra pts = g.fiLoop tol n cnt extra pts := by
    intro n
    induction n with
    | zero => intro cnt extra pts m _ h; simp [StrPol.fiLoop] at h
    | succ n ih =>
      intro cnt extra pts m hm h
      obtain ⟨m, rfl⟩ : ∃ k, m = k + 1 := ⟨m - 1, by omega⟩
      simp only [StrPol.fiLoop, bind, Except.bind] at h ⊢
      split
      · rfl
      · rename_i hp
        simp only [hp] at h
        split
        · rfl
        · rename_i c1
          rw [if_neg c1] at h
          split
          · rfl
          · rename_i c2
            rw [if_neg c2] at h
            split
            · rfl
            · rename_i c3
              rw [if_neg c3] at h
              split
              · rfl
              · rename_i d1 hd1
                simp only [hd1] at h
                split
                · rfl
                · rename_i d2 hd2
                  simp only [hd2] at h
                  split
                  · rfl
                  · rename_i q hq
                    simp only [hq] at h
                    exact ih _ _ _ m (by omega) h
  unfold StrPol.findIndex
  rw [key 1000 0 0 _ fuel hf]
  intro hc
  have := C48_terminates g nearest hn tol 1000 (le_refl _) ps hne (.runtime "does not terminate") (by
    unfold StrPol.findIndex
    rw [hc]
    rfl)
  exact absurd this (by decide)

/-! ## Exact indices -/

/-- A point that has arrived: it is at its position, or it is in the boundary. -/
structure FiPt.Arrived (g : StrPol K) (p : FiPt K) : Prop where
  inv : p.Inv g.nx
  here : p.on = true → g.getCoordinate p.x p.z 0 0 = .ok (p.R, p.Z)
  edge : p.on = false → p.x = 0 ∨ p.x = (g.nx : K) - 1
  det : g.splR 1 0 p.x (npRem p.z (g.nz : K) + (g.nz : K)) * g.splZ 0 1 p.x (npRem p.z (g.nz : K) + (g.nz : K)) -
    g.splR 0 1 p.x (npRem p.z (g.nz : K) + (g.nz : K)) * g.splZ 1 0 p.x (npRem p.z (g.nz : K) + (g.nz : K)) ≠ 0

theorem newton_arrived {g : StrPol K} (hx : 1 ≤ g.nx) {p : FiPt K} (h : p.Arrived g) (u : K) :
    p.newton g.nx u (g.splR 0 0 p.x (npRem p.z (g.nz : K) + (g.nz : K)),
      g.splZ 0 0 p.x (npRem p.z (g.nz : K) + (g.nz : K)))
      (g.splR 1 0 p.x (npRem p.z (g.nz : K) + (g.nz : K)), g.splZ 1 0 p.x (npRem p.z (g.nz : K) + (g.nz : K)))
      (g.splR 0 1 p.x (npRem p.z (g.nz : K) + (g.nz : K)), g.splZ 0 1 p.x (npRem p.z (g.nz : K) + (g.nz : K))) =
      .ok p := by
  have hnx : (1 : K) ≤ g.nx := by exact_mod_cast hx
  unfold FiPt.newton
  simp only
  rw [if_neg h.det]
  congr 1
  cases ho : p.on with
  | true =>
    have e := h.here ho
    rw [getCoordinate_inv h.inv, Except.ok.injEq, Prod.mk.injEq] at e
    obtain ⟨a, b⟩ := h.inv.on ho
    simp only [e.1, e.2, sub_self, mul_zero, zero_div, sub_zero]
    rw [if_neg (not_lt.2 a)]
    simp only
    rw [if_neg (not_lt.2 b)]
    cases p
    simp only at ho
    rw [ho]
  | false =>
    simp only [Bool.false_eq_true, if_false, zero_mul, sub_zero]
    have hnx2 : g.nx = 1 ∨ (2 : K) ≤ g.nx := by
      rcases Nat.lt_or_ge g.nx 2 with h | h
      · exact Or.inl (by omega)
      · exact Or.inr (by exact_mod_cast h)
    obtain ⟨R, Z, x, z, on⟩ := p
    simp only at ho
    subst ho
    rcases h.edge rfl with he | he
    · simp only at he
      subst he
      rw [if_pos (show (0 : K) < 1 / 2 by norm_num)]
      dsimp only
      rcases hnx2 with h1 | h1
      · rw [h1]; norm_num
      · rw [if_neg (show ¬ (0 : K) > (g.nx : K) - 3 / 2 by intro hc; linarith)]
    · simp only at he
      subst he
      simp only
      rcases hnx2 with h1 | h1
      · rw [h1]; norm_num
      · rw [if_neg (show ¬ (g.nx : K) - 1 < 1 / 2 by intro hc; linarith)]
        dsimp only
        rw [if_pos (show (g.nx : K) - 1 > (g.nx : K) - 3 / 2 by linarith)]

theorem newtonAll_arrived {g : StrPol K} (hx : 1 ≤ g.nx) (u : K) : ∀ {ps : List (FiPt K)},
    (∀ p ∈ ps, p.Arrived g) → newtonAll g.nx u ps
      (ps.map fun p => (g.splR 0 0 p.x (npRem p.z (g.nz : K) + (g.nz : K)),
        g.splZ 0 0 p.x (npRem p.z (g.nz : K) + (g.nz : K))))
      (ps.map fun p => (g.splR 1 0 p.x (npRem p.z (g.nz : K) + (g.nz : K)),
        g.splZ 1 0 p.x (npRem p.z (g.nz : K) + (g.nz : K))))
      (ps.map fun p => (g.splR 0 1 p.x (npRem p.z (g.nz : K) + (g.nz : K)),
        g.splZ 0 1 p.x (npRem p.z (g.nz : K) + (g.nz : K)))) = .ok ps
  | [], _ => rfl
  | p :: ps, h => by
    simp only [List.map_cons, newtonAll]
    rw [newton_arrived hx (h p List.mem_cons_self) u,
      newtonAll_arrived hx u fun q hq => h q (List.mem_cons_of_mem _ hq)]
    rfl

/-- Four passes are enough when all points have arrived. -/
theorem fiLoop_arrived {g : StrPol K} (hx : 1 ≤ g.nx) {tol : K} (ht : 0 < tol) {pts : List (FiPt K)}
    (hne : pts ≠ []) (h : ∀ p ∈ pts, p.Arrived g) : ∀ n fuel cnt extra, extra + n = 3 → n < fuel →
    cnt + n < 1000 → g.fiLoop tol fuel cnt extra pts = .ok pts := by
  have ec := coords_inv hne fun p hp => (h p hp).inv
  have hconv : ((List.zipWith FiPt.dist pts (pts.map fun p => (g.splR 0 0 p.x (npRem p.z (g.nz : K) + (g.nz : K)),
      g.splZ 0 0 p.x (npRem p.z (g.nz : K) + (g.nz : K))))).all fun v => decide (v < tol)) = true := by
    clear hne ec
    induction pts with
    | nil => rfl
    | cons p t ih =>
      rw [List.map_cons, List.zipWith_cons_cons, List.all_cons, ih fun q hq => h q (List.mem_cons_of_mem _ hq)]
      have hp := h p List.mem_cons_self
      simp only [Bool.and_true, decide_eq_true_eq]
      unfold FiPt.dist
      cases ho : p.on with
      | true =>
        have e := hp.here ho
        rw [getCoordinate_inv hp.inv, Except.ok.injEq, Prod.mk.injEq] at e
        simp only [e.1, e.2, sub_self]
        simpa using ht
      | false => simpa using ht
  intro n
  induction n with
  | zero =>
    intro fuel cnt extra h1 h2 _
    obtain ⟨fuel, rfl⟩ : ∃ k, fuel = k + 1 := ⟨fuel - 1, by omega⟩
    simp only [StrPol.fiLoop, ec, bind, Except.bind, hconv]
    rw [if_pos ⟨trivial, by omega⟩]
    rfl
  | succ n ih =>
    intro fuel cnt extra h1 h2 h3
    obtain ⟨fuel, rfl⟩ : ∃ k, fuel = k + 1 := ⟨fuel - 1, by omega⟩
    simp only [StrPol.fiLoop, ec, bind, Except.bind, hconv, newtonAll_arrived hx _ h]
    rw [if_neg (by omega), if_neg (by simp), if_neg (by omega)]
    simp only [if_true]
    exact ih fuel (cnt + 1) (extra + 1) (by omega) (by omega) (by omega)

/-- The derivatives are independent at an index. -/
def StrPol.Regular (g : StrPol K) (x z : K) : Prop :=
  ∃ Rx Zx Rz Zz, g.getCoordinate x z 1 0 = .ok (Rx, Zx) ∧ g.getCoordinate x z 0 1 = .ok (Rz, Zz) ∧
    Rx * Zz - Rz * Zx ≠ 0

/-- **C110**, the claim: looking up the coordinates of grid points gives their indices. -/
def NodesFound (g : StrPol K) (nearest : K → K → ℕ) (tol : K) (nodes : List (ℕ × ℕ)) : Prop :=
  g.findIndex nearest tol 1000 (nodes.map fun n => (g.R n.1 n.2, g.Z n.1 n.2)) =
    .ok (nodes.map fun n => ((n.1 : K), (n.2 : K)))

theorem nodes_found (mk : MkSpline K) (hmk : mk.Exact) (area : List (K × K) → K) (nx nz : ℕ)
    (R Z : ℕ → ℕ → K) (g : StrPol K) (h : StrPol.init mk area nx nz R Z = .ok g) (nearest : K → K → ℕ)
    (hn : ∀ i < nx, ∀ j < nz, nearest (R i j) (Z i j) = i * nz + j) (tol : K) (ht : 0 < tol)
    (nodes : List (ℕ × ℕ)) (hne : nodes ≠ []) (hin : ∀ n ∈ nodes, n.1 < nx ∧ n.2 < nz)
    (hreg : ∀ n ∈ nodes, g.Regular (n.1 : K) (n.2 : K)) :
    g.findIndex nearest tol 1000 (nodes.map fun n => (g.R n.1 n.2, g.Z n.1 n.2)) =
      .ok (nodes.map fun n => (if n.1 = 0 then -1 else if n.1 = nx - 1 then (nx : K) else (n.1 : K), (n.2 : K))) := by
  have e := StrPol.init_ok h
  have h1 : g.nx = nx := by rw [e]
  have h2 : g.nz = nz := by rw [e]
  have h3 : g.R = R := by rw [e]
  have h4 : g.Z = Z := by rw [e]
  have hx : 1 ≤ nx := by
    obtain ⟨n, hn⟩ := List.exists_mem_of_ne_nil nodes hne
    have := (hin n hn).1
    omega
  have hst : ∀ n ∈ nodes, FiPt.start nx nz nearest (R n.1 n.2, Z n.1 n.2) =
      ⟨R n.1 n.2, Z n.1 n.2, (n.1 : K), (n.2 : K), !decide ((n.1 : K) < 1 / 2 ∨ (n.1 : K) > (nx : K) - 3 / 2)⟩ := by
    intro n hnm
    obtain ⟨a, b⟩ := hin n hnm
    unfold FiPt.start
    simp only [hn n.1 a n.2 b]
    have hz : 0 < nz := by omega
    have d1 : (n.1 * nz + n.2) / nz = n.1 := by
      rw [Nat.add_comm, Nat.add_mul_div_right _ _ hz, Nat.div_eq_of_lt b, Nat.zero_add]
    have d2 : (n.1 * nz + n.2) % nz = n.2 := by
      rw [Nat.add_comm, Nat.add_mul_mod_self_right, Nat.mod_eq_of_lt b]
    rw [d1, d2]
  have hcast : ∀ n ∈ nodes, ((n.1 : K) < 1 / 2 ↔ n.1 = 0) ∧ ((n.1 : K) > (nx : K) - 3 / 2 ↔ n.1 = nx - 1) := by
    intro n hnm
    have a := (hin n hnm).1
    constructor
    · constructor
      · intro hc
        by_contra h0
        have : (1 : K) ≤ (n.1 : K) := by exact_mod_cast Nat.one_le_iff_ne_zero.2 h0
        linarith
      · intro hc; rw [hc]; norm_num
    · constructor
      · intro hc
        by_contra h0
        have : ((n.1 + 2 : ℕ) : K) ≤ (nx : K) := by exact_mod_cast (by omega : n.1 + 2 ≤ nx)
        push_cast at this
        linarith
      · intro hc
        have : (nx : K) = ((n.1 + 1 : ℕ) : K) := by exact_mod_cast (by omega : nx = n.1 + 1)
        push_cast at this
        linarith
  have harr : ∀ p ∈ nodes.map fun n => FiPt.start nx nz nearest (R n.1 n.2, Z n.1 n.2), p.Arrived g := by
    intro p hp
    obtain ⟨n, hnm, rfl⟩ := List.mem_map.1 hp
    rw [hst n hnm]
    obtain ⟨a, b⟩ := hin n hnm
    obtain ⟨c1, c2⟩ := hcast n hnm
    have hle : (n.1 : K) + 1 ≤ (nx : K) := by exact_mod_cast a
    have hinv : FiPt.Inv g.nx (⟨R n.1 n.2, Z n.1 n.2, (n.1 : K), (n.2 : K),
        !decide ((n.1 : K) < 1 / 2 ∨ (n.1 : K) > (nx : K) - 3 / 2)⟩ : FiPt K) := by
      rw [h1]
      refine ⟨⟨by simp, by simp only; linarith⟩, ?_, ?_⟩
      · simp only [Bool.not_eq_true', decide_eq_false_iff_not, not_or, not_lt]; exact fun h => h
      · simp only [Bool.not_eq_false', decide_eq_true_eq]; exact fun h => h
    refine ⟨hinv, ?_, ?_, ?_⟩
    · intro _
      have := C111_nodes mk hmk area nx nz R Z g h n.1 n.2 a b 0
      simpa using this
    · simp only [Bool.not_eq_false', decide_eq_true_eq, c1, c2]
      rintro (h0 | h0)
      · left; rw [h0]; simp
      · right
        rw [h1]
        have : (nx : K) = ((n.1 + 1 : ℕ) : K) := by exact_mod_cast (by omega : nx = n.1 + 1)
        rw [this]
        push_cast
        ring
    · obtain ⟨Rx, Zx, Rz, Zz, r1, r2, r3⟩ := hreg n hnm
      have g1 := getCoordinate_inv hinv 1 0
      have g2 := getCoordinate_inv hinv 0 1
      simp only at g1 g2
      rw [r1, Except.ok.injEq, Prod.mk.injEq] at g1
      rw [r2, Except.ok.injEq, Prod.mk.injEq] at g2
      simp only
      rw [← g1.1, ← g1.2, ← g2.1, ← g2.2]
      exact r3
  unfold StrPol.findIndex
  rw [List.map_map, h1, h2, h3, h4]
  have hmap : nodes.map (FiPt.start nx nz nearest ∘ fun n => (R n.1 n.2, Z n.1 n.2)) =
      nodes.map fun n => FiPt.start nx nz nearest (R n.1 n.2, Z n.1 n.2) := rfl
  rw [hmap, fiLoop_arrived (by rw [h1]; exact hx) ht (by simpa using hne) harr 3 1000 0 0 rfl (by decide) (by decide)]
  simp only [Except.map, List.map_map, Except.ok.injEq]
  apply List.map_congr_left
  intro n hnm
  simp only [Function.comp_apply, hst n hnm]
  obtain ⟨c1, c2⟩ := hcast n hnm
  have hnx : (1 : K) ≤ nx := by exact_mod_cast hx
  unfold FiPt.result
  simp only [Prod.mk.injEq, and_true]
  by_cases h0 : n.1 = 0
  · rw [if_pos (c1.2 h0), if_pos h0, if_neg (by intro hc; linarith)]
  · rw [if_neg (fun hc => h0 (c1.1 hc)), if_neg h0]
    by_cases h1 : n.1 = nx - 1
    · rw [if_pos (c2.2 h1), if_pos h1]
    · rw [if_neg (fun hc => h1 (c2.1 hc)), if_neg h1]

/-- **C110** for points that are not on the first or last row.  Missing: these two rows, for
which `C110_boundary_fails` shows that it is false. -/
theorem C110_nodes_partial (mk : MkSpline K) (hmk : mk.Exact) (area : List (K × K) → K) (nx nz : ℕ)
    (R Z : ℕ → ℕ → K) (g : StrPol K) (h : StrPol.init mk area nx nz R Z = .ok g) (nearest : K → K → ℕ)
    (hn : ∀ i < nx, ∀ j < nz, nearest (R i j) (Z i j) = i * nz + j) (tol : K) (ht : 0 < tol)
    (nodes : List (ℕ × ℕ)) (hne : nodes ≠ []) (hin : ∀ n ∈ nodes, 1 ≤ n.1 ∧ n.1 + 1 < nx ∧ n.2 < nz)
    (hreg : ∀ n ∈ nodes, g.Regular (n.1 : K) (n.2 : K)) : NodesFound g nearest tol nodes := by
  unfold NodesFound
  rw [nodes_found mk hmk area nx nz R Z g h nearest hn tol ht nodes hne
    (fun n hn => ⟨by have := (hin n hn).2.1; omega, (hin n hn).2.2⟩) hreg]
  congr 1
  apply List.map_congr_left
  intro n hn
  obtain ⟨a, b, _⟩ := hin n hn
  rw [if_neg (by omega), if_neg (by omega)]

/-- **C110** is false for the boundary rows of every regular grid: the index that is returned
for a point on the first row is -1, for one on the last row `nx`. -/
theorem C110_boundary_fails (mk : MkSpline K) (hmk : mk.Exact) (area : List (K × K) → K) (nx nz : ℕ)
    (R Z : ℕ → ℕ → K) (g : StrPol K) (h : StrPol.init mk area nx nz R Z = .ok g) (nearest : K → K → ℕ)
    (hn : ∀ i < nx, ∀ j < nz, nearest (R i j) (Z i j) = i * nz + j) (tol : K) (ht : 0 < tol) (i j : ℕ)
    (hi : i < nx) (hj : j < nz) (hreg : g.Regular (i : K) (j : K)) (hb : i = 0 ∨ i = nx - 1) :
    ¬ NodesFound g nearest tol [(i, j)] := by
  unfold NodesFound
  rw [nodes_found mk hmk area nx nz R Z g h nearest hn tol ht [(i, j)] (by simp)
    (by simpa using ⟨hi, hj⟩) (by simpa using hreg)]
  simp only [List.map_cons, List.map_nil, Except.ok.injEq, List.cons.injEq, and_true, Prod.mk.injEq]
  by_cases h0 : i = 0
  · rw [if_pos h0, h0]
    norm_num
  · rw [if_neg h0, if_pos (by omega)]
    intro hc
    have : nx = i := by exact_mod_cast hc
    omega

/-! ## Affine grids -/

/-- A grid of which the coordinates are linear functions of the indices. -/
structure StrPol.Affine (g : StrPol K) (R0 Z0 a b c d : K) : Prop where
  value : ∀ x z : K, 0 ≤ x → x ≤ (g.nx : K) - 1 → 0 ≤ z → z < g.nz →
    g.getCoordinate x z 0 0 = .ok (R0 + a * x + b * z, Z0 + c * x + d * z)
  dx : ∀ x z : K, 0 ≤ x → x ≤ (g.nx : K) - 1 → g.getCoordinate x z 1 0 = .ok (a, c)
  dz : ∀ x z : K, 0 ≤ x → x ≤ (g.nx : K) - 1 → g.getCoordinate x z 0 1 = .ok (b, d)
  det : a * d - b * c ≠ 0

/-- One Newton step is exact. -/
theorem newton_affine {g : StrPol K} {R0 Z0 a b c d : K} (hg : g.Affine R0 Z0 a b c d) {xt zt : K}
    (h1 : 1 / 2 ≤ xt) (h2 : xt ≤ (g.nx : K) - 3 / 2) {p : FiPt K} (hon : p.on = true)
    (hR : p.R = R0 + a * xt + b * zt) (hZ : p.Z = Z0 + c * xt + d * zt) :
    p.newton g.nx 1 (R0 + a * p.x + b * p.z, Z0 + c * p.x + d * p.z) (a, c) (b, d) =
      .ok ⟨p.R, p.Z, xt, zt, true⟩ := by
  have hdet := hg.det
  unfold FiPt.newton
  simp only
  rw [if_neg hdet]
  have ex : p.x - (if p.on then (1 : K) else 0) * ((d * (R0 + a * p.x + b * p.z - p.R) -
      b * (Z0 + c * p.x + d * p.z - p.Z)) / (a * d - b * c) / 1) = xt := by
    have e : d * (R0 + a * p.x + b * p.z - p.R) - b * (Z0 + c * p.x + d * p.z - p.Z) =
        (a * d - b * c) * (p.x - xt) := by rw [hR, hZ]; ring
    rw [hon, e, mul_div_cancel_left₀ _ hdet, if_pos rfl]
    ring
  have ez : p.z - (if p.on then (1 : K) else 0) * ((a * (Z0 + c * p.x + d * p.z - p.Z) -
      c * (R0 + a * p.x + b * p.z - p.R)) / (a * d - b * c) / 1) = zt := by
    have e : a * (Z0 + c * p.x + d * p.z - p.Z) - c * (R0 + a * p.x + b * p.z - p.R) =
        (a * d - b * c) * (p.z - zt) := by rw [hR, hZ]; ring
    rw [hon, e, mul_div_cancel_left₀ _ hdet, if_pos rfl]
    ring
  rw [ex, ez, hon, if_neg (not_lt.2 h1)]
  simp only
  rw [if_neg (not_lt.2 h2)]

/-- **C109.** On a grid with linear coordinates `findIndex` is exact, for every list of positions
with indices between 1/2 and `nx - 3/2` for which the nearest grid point is not on the first or
last row. -/
theorem C109_affine (g : StrPol K) (R0 Z0 a b c d : K) (hg : g.Affine R0 Z0 a b c d) (nearest : K → K → ℕ)
    (hn : ∀ R Z, nearest R Z < g.nx * g.nz) (tol : K) (ht : 0 < tol) (ts : List (K × K)) (hne : ts ≠ [])
    (hts : ∀ t ∈ ts, 1 / 2 ≤ t.1 ∧ t.1 ≤ (g.nx : K) - 3 / 2 ∧ 0 ≤ t.2 ∧ t.2 < g.nz)
    (hnear : ∀ t ∈ ts, (FiPt.start g.nx g.nz nearest
      (R0 + a * t.1 + b * t.2, Z0 + c * t.1 + d * t.2)).on = true) :
    g.findIndex nearest tol 1000 (ts.map fun t => (R0 + a * t.1 + b * t.2, Z0 + c * t.1 + d * t.2)) = .ok ts := by
  have hx : 1 ≤ g.nx := by
    rcases Nat.eq_zero_or_pos g.nx with e | e
    · have := hn 0 0; rw [e] at this; simp at this
    · exact e
  have hz : 0 < g.nz := by
    rcases Nat.eq_zero_or_pos g.nz with e | e
    · have := hn 0 0; rw [e] at this; simp at this
    · exact e
  unfold StrPol.findIndex
  rw [List.map_map]
  set st := fun t : K × K => FiPt.start g.nx g.nz nearest (R0 + a * t.1 + b * t.2, Z0 + c * t.1 + d * t.2)
    with hst
  set fin := fun t : K × K => (⟨R0 + a * t.1 + b * t.2, Z0 + c * t.1 + d * t.2, t.1, t.2, true⟩ : FiPt K)
    with hfin
  have hmap : ts.map (FiPt.start g.nx g.nz nearest ∘ fun t => (R0 + a * t.1 + b * t.2, Z0 + c * t.1 + d * t.2)) =
      ts.map st := rfl
  rw [hmap]
  have hinv : ∀ p ∈ ts.map st, p.Inv g.nx := by
    intro p hp
    obtain ⟨t, _, rfl⟩ := List.mem_map.1 hp
    exact start_inv hn _
  have hnest : ts.map st ≠ [] := by simpa using hne
  have hstz : ∀ t, 0 ≤ (st t).z ∧ (st t).z < g.nz := by
    intro t
    simp only [hst, FiPt.start]
    exact ⟨by positivity, by exact_mod_cast Nat.mod_lt _ hz⟩
  have hstep : ∀ l : List (K × K), (∀ t ∈ l, t ∈ ts) → newtonAll g.nx 1 (l.map st)
      ((l.map st).map fun p => (g.splR 0 0 p.x (npRem p.z (g.nz : K) + (g.nz : K)),
        g.splZ 0 0 p.x (npRem p.z (g.nz : K) + (g.nz : K))))
      ((l.map st).map fun p => (g.splR 1 0 p.x (npRem p.z (g.nz : K) + (g.nz : K)),
        g.splZ 1 0 p.x (npRem p.z (g.nz : K) + (g.nz : K))))
      ((l.map st).map fun p => (g.splR 0 1 p.x (npRem p.z (g.nz : K) + (g.nz : K)),
        g.splZ 0 1 p.x (npRem p.z (g.nz : K) + (g.nz : K)))) = .ok (l.map fin) := by
    intro l
    induction l with
    | nil => intro _; rfl
    | cons t l ih =>
      intro hl
      have htm := hl t List.mem_cons_self
      obtain ⟨t1, t2, t3, t4⟩ := hts t htm
      simp only [List.map_cons, newtonAll]
      rw [ih fun q hq => hl q (List.mem_cons_of_mem _ hq)]
      have i := hinv (st t) (List.mem_map.2 ⟨t, htm, rfl⟩)
      have e0 := getCoordinate_inv i 0 0
      have e1 := getCoordinate_inv i 1 0
      have e2 := getCoordinate_inv i 0 1
      rw [hg.value _ _ i.range.1 i.range.2 (hstz t).1 (hstz t).2, Except.ok.injEq] at e0
      rw [hg.dx _ _ i.range.1 i.range.2, Except.ok.injEq] at e1
      rw [hg.dz _ _ i.range.1 i.range.2, Except.ok.injEq] at e2
      rw [← e0, ← e1, ← e2, newton_affine hg t1 t2 (hnear t htm) rfl rfl]
      rfl
  have harr : ∀ p ∈ ts.map fin, p.Arrived g := by
    intro p hp
    obtain ⟨t, htm, rfl⟩ := List.mem_map.1 hp
    obtain ⟨t1, t2, t3, t4⟩ := hts t htm
    have hinv : (fin t).Inv g.nx :=
      ⟨⟨by simp only [hfin]; linarith, by simp only [hfin]; linarith⟩, fun _ => ⟨t1, t2⟩, by simp [hfin]⟩
    refine ⟨hinv, fun _ => ?_, by simp [hfin], ?_⟩
    · exact hg.value _ _ (by linarith) (by linarith) t3 t4
    · have e1 := getCoordinate_inv hinv 1 0
      have e2 := getCoordinate_inv hinv 0 1
      rw [hg.dx _ _ hinv.range.1 hinv.range.2, Except.ok.injEq, Prod.mk.injEq] at e1
      rw [hg.dz _ _ hinv.range.1 hinv.range.2, Except.ok.injEq, Prod.mk.injEq] at e2
      rw [← e1.1, ← e1.2, ← e2.1, ← e2.2]
      exact hg.det
  have hfinne : ts.map fin ≠ [] := by simpa using hne
  have hloop : ∀ fuel, 4 ≤ fuel → g.fiLoop tol (fuel + 1) 0 0 (ts.map st) = .ok (ts.map fin) := by
    intro fuel hf
    have ec := coords_inv hnest hinv
    have hu : underrelax (K := K) (0 + 1) = 1 := rfl
    have hs := hstep ts fun _ h => h
    simp only [StrPol.fiLoop, ec, bind, Except.bind, hu, hs]
    generalize ((List.zipWith FiPt.dist (ts.map st) _).all fun v => decide (v < tol)) = conv
    rw [if_neg (by omega), if_neg (by simp), if_neg (by omega)]
    cases conv with
    | true =>
      simp only [if_true]
      exact fiLoop_arrived hx ht hfinne harr 2 fuel 1 1 rfl (by omega) (by decide)
    | false =>
      simp only [Bool.false_eq_true, if_false]
      exact fiLoop_arrived hx ht hfinne harr 3 fuel 1 0 rfl (by omega) (by decide)
  rw [hloop 999 (by decide)]
  simp only [Except.map, List.map_map, Except.ok.injEq]
  conv_rhs => rw [← List.map_id ts]
  apply List.map_congr_left
  intro t htm
  obtain ⟨t1, t2, _, _⟩ := hts t htm
  simp only [Function.comp_apply, hfin, FiPt.result, id]
  rw [if_neg (not_lt.2 t1), if_neg (not_lt.2 t2)]

/-! ## Examples -/

/-- Interpolation between neighbouring points. -/
def exMk : MkSpline ℚ := fun _ _ data dx dz x z =>
  let i := ⌊x⌋₊
  let j := ⌊z⌋₊
  let a := data (i + 1) j - data i j
  let b := data i (j + 1) - data i j
  match dx, dz with
  | 0, 0 => data i j + a * (x - i) + b * (z - j)
  | 1, 0 => a
  | 0, 1 => b
  | _, _ => 0

theorem exMk_exact : exMk.Exact := by
  intro n m data i j _ _
  simp [exMk]

/-- A 4 × 3 grid. -/
def exStr : StrPol ℚ :=
  ⟨4, 3, fun i _ => i, fun _ j => j, exMk 4 9 fun x _ => x, exMk 4 9 fun _ k => (k % 3 : ℕ)⟩

theorem exStr_init : StrPol.init exMk (fun _ => 1) 4 3 (fun i _ => (i : ℚ)) (fun _ j => (j : ℚ)) = .ok exStr := by
  unfold StrPol.init
  simp only
  rw [if_neg (by decide)]
  rfl

/-- The index of the nearest point for positions at points, some index otherwise. -/
def exNear : ℚ → ℚ → ℕ := fun R Z => min (⌊R⌋₊ * 3 + ⌊Z⌋₊) 11

theorem exNear_lt (R Z : ℚ) : exNear R Z < 4 * 3 := by unfold exNear; omega

theorem exNear_nodes : ∀ i : ℕ, i < 4 → ∀ j : ℕ, j < 3 → exNear (i : ℚ) (j : ℚ) = i * 3 + j := by
  intro i hi j hj
  simp only [exNear, Nat.floor_natCast]
  omega

example : exStr.getCoordinate (2 : ℕ) (((1 : ℕ) : ℚ) + ((-2 : ℤ) : ℚ) * ((3 : ℕ) : ℚ)) 0 0 =
    .ok (((2 : ℕ) : ℚ), ((1 : ℕ) : ℚ)) :=
  C111_nodes exMk exMk_exact _ 4 3 _ _ exStr exStr_init 2 1 (by decide) (by decide) (-2)

example : exStr.getCoordinate (3 / 2) (-1 / 4 + ((5 : ℤ) : ℚ) * ((3 : ℕ) : ℚ)) 0 1 =
    exStr.getCoordinate (3 / 2) (-1 / 4) 0 1 :=
  C111_periodic exStr (by decide) (3 / 2) (-1 / 4) 5 0 1

theorem exStr_regular : ∀ i : ℕ, i < 4 → ∀ j : ℕ, j < 3 → exStr.Regular (i : ℚ) (j : ℚ) := by
  intro i hi j hj
  have hf : ∀ n : ℕ, ⌊((n : ℚ) + 3)⌋₊ = n + 3 := by
    intro n
    have : (n : ℚ) + 3 = ((n + 3 : ℕ) : ℚ) := by push_cast; ring
    rw [this, Nat.floor_natCast]
  have hr : npRem (j : ℚ) ((3 : ℕ) : ℚ) = j := npRem_self (by positivity) (by exact_mod_cast hj)
  have hi3 : (i : ℚ) ≤ 3 := by exact_mod_cast (by omega : i ≤ 3)
  have hng : ¬ ((i : ℚ) < 0 ∨ (i : ℚ) > ((4 : ℕ) : ℚ) - 1) := by
    rw [not_or, not_lt, not_lt]
    exact ⟨by positivity, by norm_num; omega⟩
  have hv : ∀ dx dz, exStr.getCoordinate (i : ℚ) (j : ℚ) dx dz = .ok (exStr.splR dx dz i ((j : ℚ) + ((3 : ℕ) : ℚ)),
      exStr.splZ dx dz i ((j : ℚ) + ((3 : ℕ) : ℚ))) := by
    intro dx dz
    unfold StrPol.getCoordinate
    rw [show exStr.nx = 4 from rfl, show exStr.nz = 3 from rfl, if_neg hng, hr]
  refine ⟨1, 0, 0, (((j + 4) % 3 : ℕ) : ℚ) - ((j + 3) % 3 : ℕ), ?_, ?_, ?_⟩
  · rw [hv]
    simp [exStr, exMk]
  · rw [hv]
    simp [exStr, exMk, hf]
  · have : (j + 4) % 3 ≠ (j + 3) % 3 := by omega
    have h2 : (((j + 4) % 3 : ℕ) : ℚ) ≠ ((j + 3) % 3 : ℕ) := by exact_mod_cast this
    intro hc
    apply h2
    linarith

/-- Two inner points are found. -/
theorem exStr_found : NodesFound exStr exNear (1 / 1000) [(1, 0), (2, 2)] :=
  C110_nodes_partial exMk exMk_exact _ 4 3 _ _ exStr exStr_init exNear exNear_nodes _ (by norm_num) _ (by simp)
    (by simp) (by
      intro n hn
      simp only [List.mem_cons, List.not_mem_nil, or_false] at hn
      rcases hn with rfl | rfl
      · exact exStr_regular 1 (by decide) 0 (by decide)
      · exact exStr_regular 2 (by decide) 2 (by decide))

/-- A point of the first row, and one of the last row, are not. -/
example : ¬ NodesFound exStr exNear (1 / 1000) [(0, 1)] :=
  C110_boundary_fails exMk exMk_exact _ 4 3 _ _ exStr exStr_init exNear exNear_nodes _ (by norm_num) 0 1
    (by decide) (by decide) (exStr_regular 0 (by decide) 1 (by decide)) (Or.inl rfl)

example : ¬ NodesFound exStr exNear (1 / 1000) [(3, 1)] :=
  C110_boundary_fails exMk exMk_exact _ 4 3 _ _ exStr exStr_init exNear exNear_nodes _ (by norm_num) 3 1
    (by decide) (by decide) (exStr_regular 3 (by decide) 1 (by decide)) (Or.inr rfl)

/-- The hypothesis of C47. -/
example := C47_converged exStr exNear exNear_lt (1 / 1000) 1000 _ _ exStr_found

/-- No position: the exception of numpy, so that C48 needs a non-empty list. -/
example : exStr.findIndex exNear (1 / 1000) 1000 [] = .error (.value "zero-size array to reduction operation") :=
  rfl

/-- The hypothesis of C48: a tolerance that cannot be met. -/
example : ∃ e, exStr.findIndex exNear 0 1000 [(3 / 2, 3 / 2)] = .error e := by
  cases h : exStr.findIndex exNear 0 1000 [(3 / 2, 3 / 2)] with
  | error e => exact ⟨e, rfl⟩
  | ok r =>
    exfalso
    obtain ⟨h1, h2⟩ := C47_converged exStr exNear exNear_lt 0 1000 _ _ h
    unfold StrPol.findIndex at h
    cases hl : exStr.fiLoop 0 1000 0 0 ([((3 : ℚ) / 2, (3 : ℚ) / 2)].map (FiPt.start exStr.nx exStr.nz exNear)) with
    | error e => rw [hl] at h; simp [Except.map] at h
    | ok qs =>
      obtain ⟨_, i2, i3⟩ := fiLoop_ok (by decide) (by
        intro p hp
        obtain ⟨q, _, rfl⟩ := List.mem_map.1 hp
        exact start_inv exNear_lt q) hl
      cases qs with
      | nil => simp at i2
      | cons q qs =>
        obtain ⟨pos, _, hd⟩ := i3 q List.mem_cons_self
        unfold FiPt.dist at hd
        have : (0 : ℚ) ≤ (if q.on = true then 1 else 0) * ((pos.1 - q.R) ^ 2 + (pos.2 - q.Z) ^ 2) := by
          apply mul_nonneg
          · split <;> norm_num
          · positivity
        linarith

/-- A grid with linear coordinates. -/
def exAff : StrPol ℚ :=
  ⟨5, 4, fun i j => 1 + 2 * i + j, fun i j => 3 - i + j,
    fun dx dz x z => match dx, dz with
      | 0, 0 => 1 + 2 * x + 1 * (z - 4)
      | 1, 0 => 2
      | 0, 1 => 1
      | _, _ => 0,
    fun dx dz x z => match dx, dz with
      | 0, 0 => 3 + (-1) * x + 1 * (z - 4)
      | 1, 0 => -1
      | 0, 1 => 1
      | _, _ => 0⟩

theorem exAff_affine : exAff.Affine 1 3 2 1 (-1) 1 := by
  have hng : ∀ x : ℚ, 0 ≤ x → x ≤ (exAff.nx : ℚ) - 1 → ¬ (x < 0 ∨ x > (exAff.nx : ℚ) - 1) := by
    intro x h1 h2
    rw [not_or, not_lt, not_lt]
    exact ⟨h1, h2⟩
  constructor
  · intro x z h1 h2 h3 h4
    unfold StrPol.getCoordinate
    rw [if_neg (hng x h1 h2), npRem_self h3 h4]
    simp [exAff]
  · intro x z h1 h2
    unfold StrPol.getCoordinate
    rw [if_neg (hng x h1 h2)]
    rfl
  · intro x z h1 h2
    unfold StrPol.getCoordinate
    rw [if_neg (hng x h1 h2)]
    rfl
  · norm_num

example : exAff.findIndex (fun _ _ => 6) (1 / 1000) 1000
    [(1 + 2 * (3 / 2) + 1 * (1 / 3), 3 + -1 * (3 / 2) + 1 * (1 / 3)), (1 + 2 * 2 + 1 * 3, 3 + -1 * 2 + 1 * 3)] =
      .ok [(3 / 2, 1 / 3), (2, 3)] :=
  C109_affine exAff 1 3 2 1 (-1) 1 exAff_affine (fun _ _ => 6) (fun _ _ => by decide) (1 / 1000) (by norm_num)
    [(3 / 2, 1 / 3), (2, 3)] (by simp) (by
      intro t ht
      simp only [List.mem_cons, List.not_mem_nil, or_false] at ht
      rcases ht with rfl | rfl <;> norm_num [exAff]) (by
      intro t _
      simp [FiPt.start, exAff]
      norm_num)

end Zoidberg
