import Verif.Model.FieldTracer
import Mathlib.Data.List.GetD
import Mathlib.Algebra.Group.Action.Defs
import Mathlib.Tactic.FieldSimp

/-!
# C68, C69, C128: `FieldTracer.follow_field_lines`
-/

set_option linter.unusedSectionVars false

namespace Zoidberg

/-! ## `np.array_split` -/

theorem cutAt_flatten {α : Type} : ∀ (ks : List ℕ) (l : List α), l.length = ks.sum → (cutAt ks l).flatten = l
  | [], l, h => by simp at h; simp [cutAt, h]
  | k :: ks, l, h => by
    rw [cutAt, List.flatten_cons, cutAt_flatten ks (l.drop k) (by simp at h ⊢; omega), List.take_append_drop]

theorem splitSizes_sum (len n : ℕ) (hn : 0 < n) : (splitSizes len n).sum = len := by
  have h1 := Nat.div_add_mod len n
  have h2 := Nat.mod_lt len hn
  unfold splitSizes
  rw [List.sum_append, List.sum_replicate, List.sum_replicate, smul_eq_mul, smul_eq_mul]
  obtain ⟨d, hd⟩ : ∃ d, n = len % n + d := ⟨n - len % n, by omega⟩
  have e : n - len % n = d := by omega
  rw [e]
  calc len % n * (len / n + 1) + d * (len / n) = (len % n + d) * (len / n) + len % n := by ring
    _ = len := by rw [← hd]; exact h1

theorem splitParts_flatten {α : Type} (l : List α) {n : ℕ} (hn : 0 < n) : (splitParts l n).flatten = l :=
  cutAt_flatten _ _ (splitSizes_sum _ _ hn).symm

theorem cutAt_mem {α : Type} : ∀ (ks : List ℕ) (l : List α), l.length = ks.sum → ∀ c ∈ cutAt ks l, c.length ∈ ks
  | [], l, h => by simp [cutAt]
  | k :: ks, l, h => by
    intro c hc
    rw [cutAt, List.mem_cons] at hc
    rcases hc with rfl | hc
    · simp at h ⊢; omega
    · exact List.mem_cons_of_mem _ (cutAt_mem ks _ (by simp at h ⊢; omega) c hc)

/-- The pieces have between 1000 and 1999 points. -/
theorem chunk_size {α : Type} (l : List α) (h : ¬ l.length < 1000) (c : List α) (hc : c ∈ splitParts l (l.length / 1000)) :
    1000 ≤ c.length ∧ c.length < 2000 := by
  have hn : 0 < l.length / 1000 := by omega
  have hm := cutAt_mem _ _ (splitSizes_sum _ _ hn).symm c hc
  have hq : 1000 ≤ l.length / (l.length / 1000) := by
    rw [Nat.le_div_iff_mul_le hn]; omega
  have h3 := Nat.div_add_mod l.length (l.length / 1000)
  have h4 := Nat.mod_lt l.length hn
  have h5 := Nat.div_add_mod l.length 1000
  have h6 := Nat.mod_lt l.length (by omega : 0 < 1000)
  generalize l.length / 1000 = n at *
  generalize hq' : l.length / n = q at *
  generalize hr' : l.length % n = r at *
  -- n * q + r = len < 1000 * n + 1000
  unfold splitSizes at hm
  rw [hq', hr'] at hm
  have hq2 : q < 2000 := by
    by_contra hc
    have : n * 2000 ≤ n * q := Nat.mul_le_mul_left _ (by omega)
    omega
  rcases List.mem_append.1 hm with hm | hm
  · obtain ⟨h7, h8⟩ := List.mem_replicate.1 hm
    refine ⟨by omega, ?_⟩
    by_contra hc
    have : q = 1999 := by omega
    subst this
    omega
  · obtain ⟨h7, h8⟩ := List.mem_replicate.1 hm
    omega

/-! ## The integrator -/

variable {K : Type}

/-- The integrator treats the lines independently: `line q ys i` is the position for `ys[i]` of the
field line that starts at `q`. -/
def LineWise (ode : List K → List K → Except Err (List (List K))) (line : K × K → List K → ℕ → K × K) : Prop :=
  ∀ p ys, ode (interleave p) ys = .ok ((List.range ys.length).map fun i => interleave (p.map fun q => line q ys i))

theorem mapM_ok_of {α β : Type} (f : α → Except Err β) (g : α → β) (h : ∀ a, f a = .ok (g a)) (l : List α) :
    l.mapM f = .ok (l.map g) := by
  induction l with
  | nil => rfl
  | cons a l ih => rw [List.mapM_cons, h a, ih]; rfl

theorem interleave_append (p q : List (K × K)) : interleave (p ++ q) = interleave p ++ interleave q := by
  unfold interleave; rw [List.flatMap_append]

theorem interleave_flatten : ∀ ps : List (List (K × K)), interleave ps.flatten = ps.flatMap interleave
  | [] => rfl
  | p :: ps => by rw [List.flatten_cons, interleave_append, interleave_flatten ps, List.flatMap_cons]

/-- Cutting into pieces does not matter. -/
theorem traceChunks_eq {ode : List K → List K → Except Err (List (List K))} {line : K × K → List K → ℕ → K × K}
    (h : LineWise ode line) (p : List (K × K)) (ys : List K) :
    traceChunks ode p ys = .ok ((List.range ys.length).map fun i => interleave (p.map fun q => line q ys i)) := by
  unfold traceChunks
  split_ifs with hl
  · exact h p ys
  · rw [mapM_ok_of _ _ fun c => h c ys]
    simp only [Except.map]
    congr 1
    unfold concatRows
    refine List.map_congr_left fun i hi => ?_
    have hi' := List.mem_range.1 hi
    rw [List.flatMap_map]
    have e : ∀ c : List (K × K), ((List.range ys.length).map fun i => interleave (c.map fun q => line q ys i)).getD i [] =
        interleave (c.map fun q => line q ys i) := by
      intro c
      rw [List.getD_eq_getElem?_getD, List.getElem?_map, List.getElem?_range hi']
      rfl
    simp only [e]
    have hn : 0 < p.length / 1000 := by omega
    conv_rhs => rw [← splitParts_flatten p hn]
    rw [List.map_flatten, interleave_flatten, List.flatMap_map]

theorem interleave_length (p : List (K × K)) : (interleave p).length = 2 * p.length := by
  induction p with
  | nil => rfl
  | cons a p ih =>
    have : interleave (a :: p) = a.1 :: a.2 :: interleave p := rfl
    rw [this]; simp only [List.length_cons, ih]; omega

theorem interleave_getD (d : K) : ∀ (p : List (K × K)) (j : ℕ), j < p.length →
    (interleave p).getD (2 * j) d = (p.getD j (d, d)).1 ∧ (interleave p).getD (2 * j + 1) d = (p.getD j (d, d)).2
  | [], j, h => by simp at h
  | a :: p, 0, h => ⟨rfl, rfl⟩
  | a :: p, j + 1, h => by
    have e : interleave (a :: p) = a.1 :: a.2 :: interleave p := rfl
    rw [e, show 2 * (j + 1) = 2 * j + 1 + 1 by ring, List.getD_cons_succ, List.getD_cons_succ, List.getD_cons_succ,
      List.getD_cons_succ, List.getD_cons_succ]
    exact interleave_getD d p j (by simpa using h)

/-- The entries of rows of the same length. -/
theorem flatten_getD {α : Type} (d : α) (m : ℕ) (f : ℕ → List α) (hf : ∀ i, (f i).length = m) : ∀ (n i k : ℕ), i < n → k < m →
    (((List.range n).map f).flatten).getD (i * m + k) d = (f i).getD k d := by
  intro n
  induction n with
  | zero => intro i k hi; omega
  | succ n ih =>
    intro i k hi hk
    rw [List.range_succ, List.map_append, List.flatten_append]
    have hlen : ((List.range n).map f).flatten.length = n * m := by
      rw [List.length_flatten, List.map_map]
      have : (List.length ∘ f) = fun _ => m := by funext i; exact hf i
      rw [this]; simp
    rcases Nat.lt_or_ge i n with h | h
    · rw [List.getD_append _ _ _ _ (by
        rw [hlen]
        calc i * m + k < i * m + m := by omega
          _ = (i + 1) * m := by ring
          _ ≤ n * m := Nat.mul_le_mul_right _ h)]
      exact ih i k h hk
    · have : i = n := by omega
      subst this
      rw [List.getD_append_right _ _ _ _ (by rw [hlen]; omega), hlen, Nat.add_sub_cancel_left]
      simp

theorem flatten_length {α : Type} (m : ℕ) (f : ℕ → List α) (hf : ∀ i, (f i).length = m) (n : ℕ) :
    (((List.range n).map f).flatten).length = n * m := by
  rw [List.length_flatten, List.map_map]
  have : (List.length ∘ f) = fun _ => m := by funext i; exact hf i
  rw [this]; simp

/-- An array has as many values as its shape says. -/
def FArr.Ok (a : FArr K) : Prop := a.data.length = a.shape.prod

variable [Zero K]

/-- The shape of an array that has at least one axis. -/
def shape1 (a : FArr K) : List ℕ := if a.shape = [] then [1] else a.shape

/-- The shape of the starting points: that of the array, if the other one is a scalar. -/
def commonShape (x z : FArr K) : List ℕ :=
  if shape1 x = shape1 z then shape1 x
  else if x.data.length = 1 then List.replicate ((shape1 x).length - (shape1 z).length) 1 ++ shape1 z
  else shape1 x

/-- The starting point `j`. -/
def startPoint (x z : FArr K) (j : ℕ) : K × K :=
  (x.data.getD (if x.data.length = 1 then 0 else j) 0, z.data.getD (if z.data.length = 1 then 0 else j) 0)

/-- The inputs are valid: at least two values of `y` on one axis, and arrays of the same shape or a scalar. -/
def ValidInput (x z y : FArr K) : Prop :=
  (∃ n ≥ 2, y.shape = [n]) ∧ (shape1 x = shape1 z ∨ x.data.length = 1 ∨ z.data.length = 1)

/-- The exception: a one-dimensional `x` with a scalar `z` that has more than one axis. -/
def OddScalar (x z : FArr K) : Prop := (shape1 x).length = 1 ∧ x.data.length ≠ 1 ∧ z.data.length = 1 ∧ 1 < (shape1 z).length

theorem atleast1d_shape (a : FArr K) : a.atleast1d.shape = shape1 a := by
  unfold FArr.atleast1d shape1; split_ifs <;> rfl

theorem atleast1d_data (a : FArr K) : a.atleast1d.data = a.data := by
  unfold FArr.atleast1d; split_ifs <;> rfl

theorem shape1_prod {a : FArr K} (h : a.Ok) : (shape1 a).prod = a.data.length := by
  unfold shape1
  rw [h]
  split_ifs with h1
  · rw [h1]; rfl
  · rfl

theorem shape1_length (a : FArr K) : 1 ≤ (shape1 a).length := by
  unfold shape1
  split_ifs with h
  · simp
  · exact List.length_pos_iff.2 h

theorem y_cases (y : FArr K) : ((∃ n ≥ 2, y.shape = [n]) ∧ y.atleast1d = y ∧ ¬ y.len < 2 ∧ ¬ y.shape.length > 1) ∨
    ((¬ ∃ n ≥ 2, y.shape = [n]) ∧ (y.atleast1d.len < 2 ∨ y.atleast1d.shape.length > 1)) := by
  by_cases h : ∃ n ≥ 2, y.shape = [n]
  · left
    obtain ⟨n, hn, e⟩ := h
    refine ⟨⟨n, hn, e⟩, ?_, ?_, ?_⟩
    · unfold FArr.atleast1d; rw [e]; simp
    · unfold FArr.len; rw [e]; simpa using hn
    · rw [e]; simp
  · right
    refine ⟨h, ?_⟩
    unfold FArr.len
    rw [atleast1d_shape]
    unfold shape1
    split_ifs with h1
    · left; simp
    · match hy : y.shape, h1 with
      | [n], _ =>
        left
        by_contra hc
        exact h ⟨n, by simpa using hc, hy⟩
      | _ :: _ :: _, _ => right; simp

theorem repl_getD (a : List K) (n j : ℕ) (hj : j < n) (h1 : a.length = 1) :
    (List.replicate n (a.getD 0 0)).getD j 0 = a.getD (if a.length = 1 then 0 else j) 0 := by
  rw [if_pos h1]
  rw [List.getD_eq_getElem?_getD, List.getElem?_replicate, if_pos hj]
  rfl

theorem prod_ones (n : ℕ) (s : List ℕ) : (List.replicate n 1 ++ s).prod = s.prod := by
  rw [List.prod_append, List.prod_replicate, one_pow, one_mul]

/-- What passes the checks. -/
theorem checkInputs_valid {x z y : FArr K} (hx : x.Ok) (hz : z.Ok) (h : ValidInput x z y) :
    ∃ x' z', checkInputs x z y = .ok (x', z', y) ∧ x'.shape = commonShape x z ∧
      (x'.shape.length ≤ 1 ∧ z'.shape.length > 1 ↔ OddScalar x z) ∧
      x'.data.length = (commonShape x z).prod ∧ z'.data.length = (commonShape x z).prod ∧
      ∀ j < (commonShape x z).prod, (x'.data.getD j 0, z'.data.getD j 0) = startPoint x z j := by
  obtain ⟨hy, hv⟩ := h
  have hpx := shape1_prod hx
  have hpz := shape1_prod hz
  have lx := shape1_length x
  have lz := shape1_length z
  rcases y_cases y with ⟨-, ey, hy1, hy2⟩ | ⟨hy', -⟩
  swap
  · exact absurd hy hy'
  unfold checkInputs
  simp only [ey, if_neg hy1, if_neg hy2, atleast1d_shape, FArr.size, ne_eq, ite_not]
  by_cases hs : shape1 x = shape1 z
  · rw [if_pos hs]
    have hc : commonShape x z = shape1 x := by unfold commonShape; rw [if_pos hs]
    refine ⟨_, _, rfl, ?_, ?_, ?_, ?_, ?_⟩
    · rw [atleast1d_shape, hc]
    · rw [atleast1d_shape, atleast1d_shape]
      constructor
      · rintro ⟨h1, h2⟩; rw [hs] at h1; omega
      · rintro ⟨h1, -, -, h4⟩; rw [hs] at h1; omega
    · rw [atleast1d_data, hc, hpx]
    · rw [atleast1d_data, hc, hs, hpz]
    · intro j hj
      rw [hc] at hj
      rw [atleast1d_data, atleast1d_data]
      unfold startPoint
      have hj1 : j < x.data.length := by rw [← hpx]; exact hj
      have hj2 : j < z.data.length := by rw [← hpz, ← hs]; exact hj
      congr 2
      · split_ifs with h1
        · omega
        · rfl
      · split_ifs with h1
        · omega
        · rfl
  · rw [if_neg hs, hpx, hpz]
    by_cases h1 : x.data.length = 1
    · rw [if_pos h1]
      have hc : commonShape x z = List.replicate ((shape1 x).length - (shape1 z).length) 1 ++ shape1 z := by
        unfold commonShape; rw [if_neg hs, if_pos h1]
      have hcp : (commonShape x z).prod = z.data.length := by rw [hc, prod_ones, hpz]
      refine ⟨_, _, rfl, ?_, ?_, ?_, ?_, ?_⟩
      · rw [hc]; unfold FArr.spread; rw [atleast1d_shape]
      · unfold FArr.spread
        simp only [atleast1d_shape, List.length_append, List.length_replicate]
        constructor
        · rintro ⟨a, b⟩; omega
        · rintro ⟨-, b, -, -⟩; exact absurd h1 b
      · unfold FArr.spread; rw [hcp, ← hpz]; simp
      · rw [atleast1d_data, hcp]
      · intro j hj
        rw [hcp] at hj
        unfold FArr.spread startPoint
        simp only [atleast1d_data]
        rw [repl_getD _ _ _ (by rw [hpz]; exact hj) h1]
        congr 2
        split_ifs with h2
        · omega
        · rfl
    · rw [if_neg h1]
      have h2 : z.data.length = 1 := by tauto
      rw [if_pos h2]
      have hc : commonShape x z = shape1 x := by unfold commonShape; rw [if_neg hs, if_neg h1]
      refine ⟨_, _, rfl, ?_, ?_, ?_, ?_, ?_⟩
      · rw [atleast1d_shape, hc]
      · unfold FArr.spread
        simp only [atleast1d_shape, List.length_append, List.length_replicate]
        unfold OddScalar
        constructor
        · rintro ⟨a, b⟩; exact ⟨by omega, h1, h2, by omega⟩
        · rintro ⟨a, -, -, b⟩; omega
      · rw [atleast1d_data, hc, hpx]
      · unfold FArr.spread; rw [hc]; simp
      · intro j hj
        rw [hc] at hj
        unfold FArr.spread startPoint
        simp only [atleast1d_data]
        rw [repl_getD _ _ _ hj h2, if_neg h1]

theorem checkInputs_invalid {x z y : FArr K} (hx : x.Ok) (hz : z.Ok) (h : ¬ ValidInput x z y) :
    ∃ m, checkInputs x z y = .error (.value m) := by
  have hpx := shape1_prod hx
  have hpz := shape1_prod hz
  unfold checkInputs
  dsimp only
  rcases y_cases y with ⟨hy, ey, hy1, hy2⟩ | ⟨-, hy⟩
  · rw [ey, if_neg hy1, if_neg hy2]
    have hv : ¬ (shape1 x = shape1 z ∨ x.data.length = 1 ∨ z.data.length = 1) := fun hv => h ⟨hy, hv⟩
    push Not at hv
    obtain ⟨a, b, c⟩ := hv
    unfold FArr.size
    rw [atleast1d_shape, atleast1d_shape, if_pos a, hpx, hpz, if_neg b, if_neg c]
    exact ⟨_, rfl⟩
  · split_ifs with h1 h2
    · exact ⟨_, rfl⟩
    · exact ⟨_, rfl⟩
    all_goals exact absurd hy (by tauto)

/-! ## C69 -/

/-- **C69.** Invalid inputs raise a `ValueError`, whatever the integrator does. -/
theorem C69_invalid (ode : List K → List K → Except Err (List (List K))) (x z y : FArr K) (hx : x.Ok) (hz : z.Ok)
    (h : ¬ ValidInput x z y) : ∃ m, followFieldLines ode x z y = .error (.value m) := by
  obtain ⟨m, hm⟩ := checkInputs_invalid hx hz h
  exact ⟨m, by unfold followFieldLines; rw [hm]; rfl⟩

/-- The result with valid inputs. -/
theorem follow_valid {ode : List K → List K → Except Err (List (List K))} {line : K × K → List K → ℕ → K × K}
    (ho : LineWise ode line) {x z y : FArr K} (hx : x.Ok) (hz : z.Ok) (hy : y.Ok) (h : ValidInput x z y) (hs : ¬ OddScalar x z) :
    followFieldLines ode x z y = .ok ⟨y.shape ++ commonShape x z ++ [2], ((List.range y.data.length).map fun i =>
      interleave ((List.range (commonShape x z).prod).map fun j => line (startPoint x z j) y.data i)).flatten⟩ := by
  obtain ⟨x', z', he, hsh, hodd, lx, lz, hp⟩ := checkInputs_valid hx hz h
  have hzip : x'.data.zip z'.data = (List.range (commonShape x z).prod).map (startPoint x z) := by
    apply List.ext_getElem
    · simp [lx, lz]
    · intro j h1 h2
      have hj : j < (commonShape x z).prod := by simpa using h2
      have := hp j hj
      rw [List.getD_eq_getElem _ _ (by omega), List.getD_eq_getElem _ _ (by omega)] at this
      simp [this]
  unfold followFieldLines
  rw [he]
  simp only [Except.bind]
  rw [if_neg (fun hc => hs (hodd.1 hc)), traceChunks_eq ho, hzip, hsh]
  simp only [List.map_map]
  rw [if_neg]
  · rfl
  · rw [not_not, flatten_length (2 * (commonShape x z).prod) _ (by
      intro i; rw [interleave_length]; simp)]
    rw [List.prod_append, List.prod_append, hy]
    simp
    ring

/-- **C69 (partial).** For an integrator that works, a `ValueError` is raised exactly for invalid inputs; missing:
a one-dimensional `x_values` and a scalar `z_values` with two axes or more (`C69_fails`). -/
theorem C69_validation_partial (ode : List K → List K → Except Err (List (List K))) (line : K × K → List K → ℕ → K × K)
    (ho : LineWise ode line) (x z y : FArr K) (hx : x.Ok) (hz : z.Ok) (hy : y.Ok) (hs : ¬ OddScalar x z) :
    (∃ m, followFieldLines ode x z y = .error (.value m)) ↔ ¬ ValidInput x z y := by
  constructor
  · rintro ⟨m, hm⟩ hv
    rw [follow_valid ho hx hz hy hv hs] at hm
    cases hm
  · exact C69_invalid ode x z y hx hz

/-- What the statement says for all inputs. -/
def ValidationExact (K : Type) [Zero K] : Prop :=
  ∀ (ode : List K → List K → Except Err (List (List K))) (line : K × K → List K → ℕ → K × K), LineWise ode line →
    ∀ x z y : FArr K, x.Ok → z.Ok → y.Ok →
      ((∃ m, followFieldLines ode x z y = .error (.value m)) ↔ ¬ ValidInput x z y)

theorem unInterleave (K : Type) : Function.Injective (interleave : List (K × K) → List K) := by
  intro p
  induction p with
  | nil => intro q h; cases q with
    | nil => rfl
    | cons a q => cases h
  | cons a p ih => intro q h; cases q with
    | nil => cases h
    | cons b q =>
      have e1 : interleave (a :: p) = a.1 :: a.2 :: interleave p := rfl
      have e2 : interleave (b :: q) = b.1 :: b.2 :: interleave q := rfl
      rw [e1, e2] at h
      injection h with h1 h
      injection h with h2 h
      rw [ih h, Prod.ext h1 h2]

/-- An integrator for lines that do not move. -/
def stillOde (p ys : List K) : Except Err (List (List K)) := .ok (ys.map fun _ => p)

theorem stillOde_lineWise : LineWise (stillOde (K := K)) fun q _ _ => q := by
  intro p ys
  unfold stillOde
  congr 1
  simp only [List.map_id']
  apply List.ext_getElem <;> simp

/-- **C69 (refutation).** `x = [0, 1]` and `z = [[5]]` are refused. -/
theorem C69_fails : ¬ ValidationExact ℚ := by
  intro h
  have := (h stillOde _ stillOde_lineWise ⟨[2], [0, 1]⟩ ⟨[1, 1], [5]⟩ ⟨[2], [0, 1]⟩ rfl rfl rfl).1 ⟨_, rfl⟩
  exact this ⟨⟨2, le_rfl, rfl⟩, Or.inr (Or.inr rfl)⟩

/-! ## C68 -/

/-- **C68.** The result has the shape of the starting points between that of `y` and 2, and entry
`(i, j)` is the position at `y[i]` of the line that starts at point `j`, however many points there are. -/
theorem C68_lines (ode : List K → List K → Except Err (List (List K))) (line : K × K → List K → ℕ → K × K)
    (ho : LineWise ode line) (x z y : FArr K) (hx : x.Ok) (hz : z.Ok) (hy : y.Ok) (h : ValidInput x z y) (hs : ¬ OddScalar x z) :
    ∃ r, followFieldLines ode x z y = .ok r ∧ r.Ok ∧ r.shape = y.shape ++ commonShape x z ++ [2] ∧
      ∀ i < y.data.length, ∀ j < (commonShape x z).prod,
        r.data.getD (2 * (i * (commonShape x z).prod + j)) 0 = (line (startPoint x z j) y.data i).1 ∧
        r.data.getD (2 * (i * (commonShape x z).prod + j) + 1) 0 = (line (startPoint x z j) y.data i).2 := by
  have hlen : ∀ i, (interleave ((List.range (commonShape x z).prod).map fun j => line (startPoint x z j) y.data i)).length =
      2 * (commonShape x z).prod := by
    intro i; rw [interleave_length]; simp
  refine ⟨_, follow_valid ho hx hz hy h hs, ?_, rfl, ?_⟩
  · unfold FArr.Ok
    rw [flatten_length _ _ hlen, List.prod_append, List.prod_append, hy]
    simp
    ring
  · intro i hi j hj
    have e : ∀ c, 2 * (i * (commonShape x z).prod + j) + c = i * (2 * (commonShape x z).prod) + (2 * j + c) := by
      intro c; ring
    have g := interleave_getD (0 : K) ((List.range (commonShape x z).prod).map fun j => line (startPoint x z j) y.data i) j (by simpa using hj)
    constructor
    · have := e 0
      rw [Nat.add_zero, Nat.add_zero] at this
      rw [this, flatten_getD 0 _ _ hlen _ _ _ hi (by omega), g.1]
      rw [List.getD_eq_getElem _ _ (by simpa using hj)]; simp
    · rw [e 1, flatten_getD 0 _ _ hlen _ _ _ hi (by omega), g.2]
      rw [List.getD_eq_getElem _ _ (by simpa using hj)]; simp

/-- The flat index of `[i, idx..., c]`. -/
theorem ravel_last : ∀ (s idx : List ℕ) (c : ℕ), s.length = idx.length →
    ravel (s ++ [2]) (idx ++ [c]) = 2 * ravel s idx + c
  | [], [], c, _ => by simp [ravel]
  | n :: s, i :: t, c, h => by
    rw [List.cons_append, List.cons_append, ravel, ravel, ravel_last s t c (by simpa using h), List.prod_append]
    simp
    ring
  | [], _ :: _, _, h => by simp at h
  | _ :: _, [], _, h => by simp at h

/-- **C68.** The same with the indices of the arrays: `result[i, idx..., 0]` and `result[i, idx..., 1]`. -/
theorem C68_indices (ode : List K → List K → Except Err (List (List K))) (line : K × K → List K → ℕ → K × K)
    (ho : LineWise ode line) (x z y : FArr K) (hx : x.Ok) (hz : z.Ok) (hy : y.Ok) (h : ValidInput x z y) (hs : ¬ OddScalar x z)
    (r : FArr K) (hr : followFieldLines ode x z y = .ok r) (i : ℕ) (hi : i < y.data.length) (idx : List ℕ)
    (hidx : idx.length = (commonShape x z).length) (hin : ravel (commonShape x z) idx < (commonShape x z).prod) :
    (r.data.getD (ravel r.shape (i :: idx ++ [0])) 0, r.data.getD (ravel r.shape (i :: idx ++ [1])) 0) =
      line (startPoint x z (ravel (commonShape x z) idx)) y.data i := by
  obtain ⟨r', hr', -, hsh, hv⟩ := C68_lines ode line ho x z y hx hz hy h hs
  have e : r' = r := by rw [hr] at hr'; injection hr' with hr'; exact hr'.symm
  subst e
  obtain ⟨⟨n, -, hn⟩, -⟩ := h
  rw [hsh, hn]
  have e1 : ∀ c, ravel ([n] ++ commonShape x z ++ [2]) (i :: idx ++ [c]) =
      2 * (i * (commonShape x z).prod + ravel (commonShape x z) idx) + c := by
    intro c
    rw [show [n] ++ commonShape x z ++ [2] = (n :: commonShape x z) ++ [2] by simp,
      show i :: idx ++ [c] = (i :: idx) ++ [c] by simp, ravel_last _ _ _ (by simp [hidx])]
    rfl
  rw [e1, e1]
  obtain ⟨a, b⟩ := hv i hi _ hin
  rw [Nat.add_zero, a, b]

/-- **C68.** Alone or with others: point `j` of a result is the result for this point alone. -/
theorem C68_alone (ode : List K → List K → Except Err (List (List K))) (line : K × K → List K → ℕ → K × K)
    (ho : LineWise ode line) (x z y : FArr K) (hx : x.Ok) (hz : z.Ok) (hy : y.Ok) (h : ValidInput x z y) (hs : ¬ OddScalar x z)
    (r r1 : FArr K) (hr : followFieldLines ode x z y = .ok r) (j : ℕ) (hj : j < (commonShape x z).prod)
    (hr1 : followFieldLines ode ⟨[], [(startPoint x z j).1]⟩ ⟨[], [(startPoint x z j).2]⟩ y = .ok r1)
    (i : ℕ) (hi : i < y.data.length) (c : ℕ) (hc : c < 2) :
    r.data.getD (2 * (i * (commonShape x z).prod + j) + c) 0 = r1.data.getD (2 * i + c) 0 := by
  obtain ⟨r', hr', -, -, hv⟩ := C68_lines ode line ho x z y hx hz hy h hs
  have e : r' = r := by rw [hr] at hr'; injection hr' with hr'; exact hr'.symm
  subst e
  obtain ⟨r2, hr2, -, -, hv2⟩ := C68_lines ode line ho (⟨[], [(startPoint x z j).1]⟩ : FArr K) ⟨[], [(startPoint x z j).2]⟩ y rfl rfl hy
    ⟨h.1, Or.inl rfl⟩ (by rintro ⟨-, b, -⟩; exact b rfl)
  have e : r2 = r1 := by rw [hr1] at hr2; injection hr2 with hr2; exact hr2.symm
  subst e
  have hcs : (commonShape (⟨[], [(startPoint x z j).1]⟩ : FArr K) ⟨[], [(startPoint x z j).2]⟩).prod = 1 := rfl
  rw [hcs] at hv2
  obtain ⟨a, b⟩ := hv i hi j hj
  obtain ⟨a2, b2⟩ := hv2 i hi 0 (by omega)
  have es : startPoint (⟨[], [(startPoint x z j).1]⟩ : FArr K) ⟨[], [(startPoint x z j).2]⟩ 0 = startPoint x z j := rfl
  rw [es] at a2 b2
  rw [show 2 * (i * 1 + 0) = 2 * i by ring] at a2 b2
  obtain rfl | rfl : c = 0 ∨ c = 1 := by omega
  · rw [Nat.add_zero, Nat.add_zero, a, a2]
  · rw [b, b2]

/-- A 2 by 3 array of points, a scalar `z` and three values of `y`. -/
example : ValidInput (⟨[2, 3], [1, 2, 3, 4, 5, 6]⟩ : FArr ℚ) ⟨[], [7]⟩ ⟨[3], [0, 1, 2]⟩ ∧
    ¬ OddScalar (⟨[2, 3], [1, 2, 3, 4, 5, 6]⟩ : FArr ℚ) ⟨[], [7]⟩ :=
  ⟨⟨⟨3, by norm_num, rfl⟩, Or.inr (Or.inr rfl)⟩, by rintro ⟨h, -⟩; exact absurd h (by decide)⟩

/-! ## C128 -/

/-- **C128.** The integrator never gets more than 1999 points at once: two integrators that agree on
so many give the same results. -/
theorem C128_chunks (ode ode' : List K → List K → Except Err (List (List K)))
    (h : ∀ p ys, p.length < 2 * 2000 → ode p ys = ode' p ys) (x z y : FArr K) :
    followFieldLines ode x z y = followFieldLines ode' x z y := by
  have ht : ∀ p ys, traceChunks ode p ys = traceChunks ode' p ys := by
    intro p ys
    unfold traceChunks
    split_ifs with hl
    · exact h _ _ (by rw [interleave_length]; omega)
    · congr 1
      have : ∀ l : List (List (K × K)), (∀ c ∈ l, c.length < 2000) →
          (l.mapM fun c => ode (interleave c) ys) = l.mapM fun c => ode' (interleave c) ys := by
        intro l
        induction l with
        | nil => intro _; rfl
        | cons c l ih =>
          intro hc
          rw [List.mapM_cons, List.mapM_cons, h _ _ (by
            rw [interleave_length]; have := hc c (by simp); omega), ih fun c' hc' => hc c' (by simp [hc'])]
      exact this _ fun c hc => (chunk_size p hl c hc).2
  unfold followFieldLines
  simp only [ht]

/-- **C128.** If there are at least 1000 points, no call gets fewer than 1000. -/
theorem C128_not_small (ode ode' : List K → List K → Except Err (List (List K)))
    (h : ∀ p ys, 2 * 1000 ≤ p.length → ode p ys = ode' p ys) (x z y : FArr K) (hx : x.Ok) (hz : z.Ok)
    (hn : ValidInput x z y → 1000 ≤ (commonShape x z).prod) :
    followFieldLines ode x z y = followFieldLines ode' x z y := by
  by_cases hv : ValidInput x z y
  swap
  · obtain ⟨m, hm⟩ := checkInputs_invalid hx hz hv
    unfold followFieldLines; rw [hm]; rfl
  obtain ⟨x', z', he, hsh, hodd, lx, lz, hp⟩ := checkInputs_valid hx hz hv
  have hlen : ¬ (x'.data.zip z'.data).length < 1000 := by
    rw [List.length_zip, lx, lz, min_self]; have := hn hv; omega
  unfold followFieldLines
  rw [he]
  simp only [Except.bind]
  have : traceChunks ode (x'.data.zip z'.data) y.data = traceChunks ode' (x'.data.zip z'.data) y.data := by
    unfold traceChunks
    rw [if_neg hlen, if_neg hlen]
    congr 1
    have : ∀ l : List (List (K × K)), (∀ c ∈ l, 1000 ≤ c.length) →
        (l.mapM fun c => ode (interleave c) y.data) = l.mapM fun c => ode' (interleave c) y.data := by
      intro l
      induction l with
      | nil => intro _; rfl
      | cons c l ih =>
        intro hc
        rw [List.mapM_cons, List.mapM_cons, h _ _ (by
          rw [interleave_length]; have := hc c (by simp); omega), ih fun c' hc' => hc c' (by simp [hc'])]
    exact this _ fun c hc => (chunk_size _ hlen c hc).1
  rw [this]

/-- 2500 points are two pieces. -/
example : (splitParts (List.replicate 2500 (0 : ℕ)) (2500 / 1000)).map List.length = [1250, 1250] := by decide +kernel

end Zoidberg
