import Verif.Model.Reversible
import Verif.Props.FieldTracer
import Mathlib.Tactic.LinearCombination

/-!
# C70, C71, C130, C131: `FieldTracerReversible`
-/

set_option linter.unusedSectionVars false

namespace Zoidberg

variable {K : Type} [Field K] [LinearOrder K] [IsStrictOrderedRing K]

/-- The direction of the field is that of `f` at every point.  Without any points
`field_direction` raises. -/
def Pointwise (dir : List (K × K) → K → Except Err (List (K × K))) (f : K × K → K → K × K) : Prop :=
  ∀ p y, p ≠ [] → dir p y = .ok (p.map fun q => f q y)

/-- The trapezoidal relation between `q` at `y` and `q'` at `y + h`. -/
def Trap (f : K × K → K → K × K) (y h : K) (q q' : K × K) : Prop :=
  q'.1 = q.1 + h / 2 * ((f q y).1 + (f q' (y + h)).1) ∧ q'.2 = q.2 + h / 2 * ((f q y).2 + (f q' (y + h)).2)

/-- **C70.** The trapezoidal relation is symmetric under reversal. -/
theorem C70_symmetric (f : K × K → K → K × K) (y h : K) (q q' : K × K) :
    Trap f y h q q' ↔ Trap f (y + h) (-h) q' q := by
  unfold Trap
  rw [add_neg_cancel_right]
  constructor
  · rintro ⟨h1, h2⟩; exact ⟨by linear_combination -h1, by linear_combination -h2⟩
  · rintro ⟨h1, h2⟩; exact ⟨by linear_combination -h1, by linear_combination -h2⟩

/-! ## One iteration -/

theorem addXZ_map (p : List (K × K)) (g k : K × K → K) :
    addZ false (addX false p (p.map g)) (p.map k) = p.map fun q => (q.1 + g q, q.2 + k q) := by
  unfold addZ addX
  induction p with
  | nil => rfl
  | cons a p ih => simp only [List.map_cons, List.zipWith_cons_cons] at ih ⊢; rw [ih]; rfl

theorem range_map_getD {α β : Type} (l : List α) (d : α) (f : α → β) :
    ((List.range l.length).map fun i => f (l.getD i d)) = l.map f := by
  apply List.ext_getElem
  · simp
  · intro i h1 h2
    have : i < l.length := by simpa using h2
    simp [List.getD_eq_getElem?_getD, this]

/-- The change of one point with the direction field `f`; `hf` gives the half-step values. -/
def deltaAt (f : K × K → K → K × K) (eps dy y : K) (half : K × K) (q : K × K) : Option (K × K) :=
  newtonDelta eps dy q half (f q y) (f (q.1 + eps, q.2) y) (f (q.1, q.2 + eps) y)

/-- Points with their half-step values. -/
theorem newtonLoop_succ {dir : List (K × K) → K → Except Err (List (K × K))} {f : K × K → K → K × K} (hd : Pointwise dir f)
    (rtol eps dy y : K) (ps : List ((K × K) × (K × K))) (fuel : ℕ) (hne : ps ≠ [])
    (δ : (K × K) × (K × K) → K × K) (hδ : ∀ s ∈ ps, deltaAt f eps dy y s.2 s.1 = some (δ s)) :
    newtonLoop false dir rtol eps dy y (ps.map Prod.snd) (fuel + 1) (ps.map Prod.fst) =
      if ∀ s ∈ ps, (δ s).1 ^ 2 + (δ s).2 ^ 2 < rtol then
        .ok (ps.map fun s => (s.1.1 - (δ s).1, s.1.2 - (δ s).2))
      else newtonLoop false dir rtol eps dy y (ps.map Prod.snd) fuel (ps.map fun s => (s.1.1 - (δ s).1, s.1.2 - (δ s).2)) := by
  rw [newtonLoop, hd _ _ (by simpa using hne), hd _ _ (by simpa using hne), hd _ _ (by simpa using hne)]
  simp only [Except.bind]
  rw [if_neg (by simpa using hne)]
  have e : ((List.range (ps.map Prod.fst).length).map fun i =>
      newtonDelta eps dy ((ps.map Prod.fst).getD i (0, 0)) ((ps.map Prod.snd).getD i (0, 0))
        (((ps.map Prod.fst).map fun q => f q y).getD i (0, 0))
        ((((ps.map Prod.fst).map fun q => (q.1 + eps, q.2)).map fun q => f q y).getD i (0, 0))
        ((((ps.map Prod.fst).map fun q => (q.1, q.2 + eps)).map fun q => f q y).getD i (0, 0))) =
      ps.map fun s => some (δ s) := by
    apply List.ext_getElem
    · simp
    · intro i h1 h2
      have hi : i < ps.length := by simpa using h2
      have := hδ _ (List.getElem_mem hi)
      unfold deltaAt at this
      simp [List.getD_eq_getElem?_getD, hi, this]
  rw [e]
  have en : (ps.map fun s => some (δ s)).any Option.isNone = false := by
    rw [List.any_eq_false]
    intro x hx
    obtain ⟨s, -, rfl⟩ := List.mem_map.1 hx
    simp
  rw [en]
  simp only [Bool.false_eq_true, if_false, List.map_map]
  have eds : (fun o : Option (K × K) => o.getD (0, 0)) ∘ (fun s => some (δ s)) = δ := by funext s; rfl
  rw [eds]
  have ep : addZ false (addX false (ps.map Prod.fst) (ps.map ((fun e : K × K => -e.1) ∘ δ))) (ps.map ((fun e : K × K => -e.2) ∘ δ)) =
      ps.map fun s => (s.1.1 - (δ s).1, s.1.2 - (δ s).2) := by
    unfold addZ addX
    clear hne hδ e en eds
    induction ps with
    | nil => rfl
    | cons a p ih =>
      simp only [List.map_cons, List.zipWith_cons_cons] at ih ⊢
      rw [ih]
      simp [sub_eq_add_neg]
  rw [ep]
  have ea : ((ps.map δ).all fun e => decide (e.1 ^ 2 + e.2 ^ 2 < rtol)) = true ↔ ∀ s ∈ ps, (δ s).1 ^ 2 + (δ s).2 ^ 2 < rtol := by
    simp [List.all_eq_true]
  by_cases hh : ∀ s ∈ ps, (δ s).1 ^ 2 + (δ s).2 ^ 2 < rtol
  · rw [if_pos hh, if_pos (ea.2 hh)]
  · rw [if_neg hh, if_neg (fun h => hh (ea.1 h))]

/-- The residual of the trapezoidal relation at `q`. -/
def residual (f : K × K → K → K × K) (dy y : K) (half q : K × K) : K × K :=
  (1 / 2 * (f q y).1 * dy - q.1 + half.1, 1 / 2 * (f q y).2 * dy - q.2 + half.2)

/-! ## Fields that are affine in the position -/

/-- A field direction that is affine in the position. -/
structure Affine (K : Type) where
  a11 : K → K
  a12 : K → K
  a21 : K → K
  a22 : K → K
  b1 : K → K
  b2 : K → K

/-- The direction. -/
def Affine.f (A : Affine K) (q : K × K) (y : K) : K × K :=
  (A.a11 y * q.1 + A.a12 y * q.2 + A.b1 y, A.a21 y * q.1 + A.a22 y * q.2 + A.b2 y)

/-- The determinant of the implicit equation. -/
def Affine.det (A : Affine K) (y h : K) : K := (1 - h / 2 * A.a11 y) * (1 - h / 2 * A.a22 y) - (h / 2) ^ 2 * A.a12 y * A.a21 y

/-- The solution of `q = half + h/2 f(q, y)`. -/
def Affine.solve (A : Affine K) (y h : K) (half : K × K) : K × K :=
  let r1 := half.1 + h / 2 * A.b1 y
  let r2 := half.2 + h / 2 * A.b2 y
  (((1 - h / 2 * A.a22 y) * r1 + h / 2 * A.a12 y * r2) / A.det y h,
    ((1 - h / 2 * A.a11 y) * r2 + h / 2 * A.a21 y * r1) / A.det y h)

theorem Affine.solve_iff (A : Affine K) {y h : K} (hd : A.det y h ≠ 0) (half q : K × K) :
    (q.1 = half.1 + h / 2 * (A.f q y).1 ∧ q.2 = half.2 + h / 2 * (A.f q y).2) ↔ q = A.solve y h half := by
  constructor
  · rintro ⟨h1, h2⟩
    unfold Affine.solve Affine.f at *
    dsimp only at *
    ext
    · dsimp only
      rw [eq_div_iff hd]
      unfold Affine.det
      linear_combination (1 - h / 2 * A.a22 y) * h1 + (h / 2 * A.a12 y) * h2
    · dsimp only
      rw [eq_div_iff hd]
      unfold Affine.det
      linear_combination (1 - h / 2 * A.a11 y) * h2 + (h / 2 * A.a21 y) * h1
  · rintro rfl
    unfold Affine.solve Affine.f
    dsimp only
    constructor
    · rw [div_eq_iff hd]
      field_simp
      unfold Affine.det
      ring
    · rw [div_eq_iff hd]
      field_simp
      unfold Affine.det
      ring

/-- One iteration from any point gives the solution. -/
theorem Affine.delta (A : Affine K) {eps y h : K} (he : eps ≠ 0) (hd : A.det y h ≠ 0) (half q : K × K) :
    deltaAt A.f eps h y half q = some (q.1 - (A.solve y h half).1, q.2 - (A.solve y h half).2) := by
  obtain ⟨s1, s2⟩ := (A.solve_iff hd half _).2 rfl
  set s := A.solve y h half with hs
  unfold deltaAt newtonDelta
  have e1 : ((A.f (q.1 + eps, q.2) y).1 - (A.f q y).1) / eps = A.a11 y := by unfold Affine.f; field_simp; ring
  have e2 : ((A.f (q.1 + eps, q.2) y).2 - (A.f q y).2) / eps = A.a21 y := by unfold Affine.f; field_simp; ring
  have e3 : ((A.f (q.1, q.2 + eps) y).1 - (A.f q y).1) / eps = A.a12 y := by unfold Affine.f; field_simp; ring
  have e4 : ((A.f (q.1, q.2 + eps) y).2 - (A.f q y).2) / eps = A.a22 y := by unfold Affine.f; field_simp; ring
  dsimp only
  rw [e1, e2, e3, e4]
  have ed : (1 / 2 * A.a11 y * h - 1) * (1 / 2 * A.a22 y * h - 1) - 1 / 2 * A.a12 y * h * (1 / 2 * A.a21 y * h) = A.det y h := by
    unfold Affine.det; ring
  rw [ed, if_neg (by push Not; exact ⟨he, hd⟩)]
  congr 1
  unfold Affine.f at s1 s2 ⊢
  dsimp only at s1 s2 ⊢
  ext
  · dsimp only
    rw [div_eq_iff hd]
    unfold Affine.det
    linear_combination (-(1 / 2 * A.a22 y * h) + 1) * s1 + (1 / 2 * A.a12 y * h) * s2
  · dsimp only
    rw [div_eq_iff hd]
    unfold Affine.det
    linear_combination (-(1 / 2 * A.a11 y * h) + 1) * s2 + (1 / 2 * A.a21 y * h) * s1

theorem revNewton_affine (A : Affine K) {dir : List (K × K) → K → Except Err (List (K × K))} (hdir : Pointwise dir A.f)
    {rtol eps y h : K} (hr : 0 < rtol) (he : eps ≠ 0) (hd : A.det y h ≠ 0) (ps : List ((K × K) × (K × K))) (hne : ps ≠ []) (fuel : ℕ) :
    newtonLoop false dir rtol eps h y (ps.map Prod.snd) (fuel + 2) (ps.map Prod.fst) = .ok (ps.map fun s => A.solve y h s.2) := by
  rw [newtonLoop_succ hdir rtol eps h y ps (fuel + 1) hne _ fun s _ => A.delta he hd s.2 s.1]
  have e : (ps.map fun s => (s.1.1 - (s.1.1 - (A.solve y h s.2).1), s.1.2 - (s.1.2 - (A.solve y h s.2).2))) =
      ps.map fun s => A.solve y h s.2 := by
    refine List.map_congr_left fun s _ => ?_
    ext <;> simp
  rw [e]
  split_ifs with hc
  · rfl
  · set qs := ps.map fun s => (A.solve y h s.2, s.2) with hqs
    have e1 : (ps.map fun s => A.solve y h s.2) = qs.map Prod.fst := by rw [hqs, List.map_map]; rfl
    have e2 : ps.map Prod.snd = qs.map Prod.snd := by rw [hqs, List.map_map]; rfl
    rw [e1, e2, newtonLoop_succ hdir rtol eps h y qs fuel (by rw [hqs]; simpa using hne) _ fun s _ => A.delta he hd s.2 s.1]
    have hz : ∀ s ∈ qs, s.1 = A.solve y h s.2 := by
      intro s hs
      rw [hqs, List.mem_map] at hs
      obtain ⟨t, -, rfl⟩ := hs
      rfl
    rw [if_pos]
    · congr 1
      refine List.map_congr_left fun s hs => ?_
      rw [← hz s hs]
      ext <;> simp
    · intro s hs
      rw [← hz s hs]
      simpa using hr

/-- The trapezoidal step. -/
def Affine.trap (A : Affine K) (y h : K) (q : K × K) : K × K :=
  A.solve (y + h) h (q.1 + 1 / 2 * (A.f q y).1 * h, q.2 + 1 / 2 * (A.f q y).2 * h)

theorem Affine.trap_iff (A : Affine K) {y h : K} (hd : A.det (y + h) h ≠ 0) (q q' : K × K) :
    Trap A.f y h q q' ↔ q' = A.trap y h q := by
  unfold Affine.trap
  rw [← A.solve_iff hd]
  unfold Trap
  constructor
  · rintro ⟨h1, h2⟩; exact ⟨by linear_combination h1, by linear_combination h2⟩
  · rintro ⟨h1, h2⟩; exact ⟨by linear_combination h1, by linear_combination h2⟩

theorem Affine.trap_reverse (A : Affine K) {y h : K} (h1 : A.det (y + h) h ≠ 0) (h2 : A.det y (-h) ≠ 0) (q : K × K) :
    A.trap (y + h) (-h) (A.trap y h q) = q := by
  have := (A.trap_iff h1 q _).2 rfl
  rw [C70_symmetric] at this
  exact ((A.trap_iff (by rw [add_neg_cancel_right]; exact h2) _ _).1 this).symm

/-- Nothing is refused. -/
def revGood : RevBad := ⟨false, false, false⟩

theorem revStep_affine (A : Affine K) {dir : List (K × K) → K → Except Err (List (K × K))} (hdir : Pointwise dir A.f)
    {rtol eps : K} (hr : 0 < rtol) (he : eps ≠ 0) {y h : K} (hd : A.det (y + h) h ≠ 0) (p : List (K × K)) (hne : p ≠ []) (fuel : ℕ) :
    revStep false revGood dir rtol eps (fuel + 2) h p y = .ok (p.map (A.trap y h)) := by
  unfold revStep
  rw [hdir _ _ hne]
  simp only [Except.bind, RevBad.check, revGood, Bool.false_eq_true, if_false, List.map_map]
  have e0 := addXZ_map p ((fun e : K × K => e.1 * h) ∘ fun q => A.f q y) ((fun e : K × K => e.2 * h) ∘ fun q => A.f q y)
  rw [e0]
  set ps := p.map fun q => (((q.1 + (A.f q y).1 * h, q.2 + (A.f q y).2 * h) : K × K),
    ((q.1 + 1 / 2 * (A.f q y).1 * h, q.2 + 1 / 2 * (A.f q y).2 * h) : K × K)) with hps
  have e1 : (p.map fun q => (q.1 + ((fun e : K × K => e.1 * h) ∘ fun q => A.f q y) q, q.2 + ((fun e : K × K => e.2 * h) ∘ fun q => A.f q y) q)) =
      ps.map Prod.fst := by rw [hps, List.map_map]; rfl
  have e2 : List.zipWith (fun q e : K × K => (q.1 + 1 / 2 * e.1 * h, q.2 + 1 / 2 * e.2 * h)) p (p.map fun q => A.f q y) = ps.map Prod.snd := by
    rw [hps, List.map_map, List.zipWith_map_right]
    clear hne e0 hps e1 ps
    induction p with
    | nil => rfl
    | cons a p ih => simp only [List.zipWith_cons_cons, List.map_cons] at ih ⊢; rw [ih]; rfl
  rw [e1, e2, revNewton_affine A hdir hr he hd ps (by rw [hps]; simpa using hne)]
  rw [hps, List.map_map]
  rfl

/-- `n` steps. -/
def Affine.traps (A : Affine K) (h : K) : ℕ → K → K × K → K × K
  | 0, _, q => q
  | n + 1, y, q => A.traps h n (y + h) (A.trap y h q)

theorem Affine.traps_last (A : Affine K) (h : K) : ∀ (n : ℕ) (y : K) (q : K × K),
    A.traps h (n + 1) y q = A.trap (y + (n : K) * h) h (A.traps h n y q)
  | 0, y, q => by simp [Affine.traps]
  | n + 1, y, q => by
    rw [Affine.traps, Affine.traps_last A h n (y + h), Affine.traps]
    congr 1
    push_cast
    ring

/-- All determinants of steps with `h` are not zero. -/
def Affine.Regular (A : Affine K) (h : K) : Prop := ∀ y, A.det y h ≠ 0

theorem Affine.traps_reverse (A : Affine K) {h : K} (h1 : A.Regular h) (h2 : A.Regular (-h)) : ∀ (n : ℕ) (y : K) (q : K × K),
    A.traps (-h) n (y + (n : K) * h) (A.traps h n y q) = q
  | 0, y, q => rfl
  | n + 1, y, q => by
    rw [Affine.traps_last A h n, Affine.traps]
    have e : y + ((n + 1 : ℕ) : K) * h = y + (n : K) * h + h := by push_cast; ring
    rw [e, A.trap_reverse (h1 _) (h2 _), add_neg_cancel_right]
    exact Affine.traps_reverse A h1 h2 n y q

theorem revSteps_affine (A : Affine K) {step : List (K × K) → K → Except Err (List (K × K))} {h : K}
    (hs : ∀ p y, p ≠ [] → step p y = .ok (p.map (A.trap y h))) : ∀ (n : ℕ) (p : List (K × K)) (y : K), p ≠ [] →
    revSteps step h n p y = .ok (p.map (A.traps h n y), y + (n : K) * h)
  | 0, p, y, _ => by
    have : A.traps h 0 y = id := by funext q; rfl
    simp [revSteps, this]
  | n + 1, p, y, hp => by
    rw [revSteps, hs p y hp]
    simp only [Except.bind]
    rw [revSteps_affine A hs n _ _ (by simpa using hp), List.map_map]
    congr 2
    push_cast
    ring

/-- From `a` to `b` in `N` steps. -/
def Affine.go (A : Affine K) (N : ℕ) (a b : K) (q : K × K) : K × K := A.traps ((b - a) / (N : K)) N a q

/-- Steps from `a` to `b` and back can be made. -/
def Affine.Fit (A : Affine K) (N : ℕ) (a b : K) : Prop := A.Regular ((b - a) / (N : K)) ∧ A.Regular ((a - b) / (N : K))

theorem Affine.go_back (A : Affine K) {N : ℕ} (hN : N ≠ 0) {a b : K} (h : A.Fit N a b) (q : K × K) :
    A.go N b a (A.go N a b q) = q := by
  have hN' : (N : K) ≠ 0 := Nat.cast_ne_zero.2 hN
  unfold Affine.go
  have e1 : (a - b) / (N : K) = -((b - a) / (N : K)) := by field_simp; ring
  have e2 : b = a + (N : K) * ((b - a) / (N : K)) := by field_simp; ring
  have := A.traps_reverse (h := (b - a) / (N : K)) h.1 (by rw [← e1]; exact h.2) N a q
  rw [← e2] at this
  rw [e1]
  exact this

/-- The rows of a trace. -/
def Affine.rows (A : Affine K) (N : ℕ) : List K → List (K × K) → List (List (K × K))
  | a :: b :: l, p => p :: A.rows N (b :: l) (p.map (A.go N a b))
  | _, p => [p]

theorem revRows_affine (A : Affine K) {step : K → List (K × K) → K → Except Err (List (K × K))} {N : ℕ} (hN : N ≠ 0)
    (hs : ∀ h, A.Regular h → ∀ p y, p ≠ [] → step h p y = .ok (p.map (A.trap y h))) : ∀ (l : List K) (a : K) (p : List (K × K)),
    p ≠ [] → (a :: l).IsChain (A.Fit N) → ∃ rs, revRows step N l p a = .ok rs ∧ p :: rs = A.rows N (a :: l) p
  | [], a, p, _, _ => ⟨[], rfl, rfl⟩
  | b :: l, a, p, hp, hc => by
    have hN' : (N : K) ≠ 0 := Nat.cast_ne_zero.2 hN
    obtain ⟨h1, h2⟩ := List.isChain_cons_cons.1 hc
    obtain ⟨rs, hrs, hrow⟩ := revRows_affine A hN hs l b (p.map (A.go N a b)) (by simpa using hp) h2
    have e : a + (N : K) * ((b - a) / (N : K)) = b := by field_simp; ring
    refine ⟨p.map (A.go N a b) :: rs, ?_, ?_⟩
    · rw [revRows]
      rw [revSteps_affine A (hs _ h1.1) N p a hp]
      simp only [Except.bind]
      have e' : p.map (A.traps ((b - a) / (N : K)) N a) = p.map (A.go N a b) := rfl
      rw [e, e', hrs]
      rfl
    · rw [hrow]; rfl

theorem Affine.rows_ne (A : Affine K) (N : ℕ) : ∀ (l : List K) (p : List (K × K)), A.rows N l p ≠ []
  | [], p => by simp [Affine.rows]
  | [a], p => by simp [Affine.rows]
  | a :: b :: l, p => by simp [Affine.rows]

theorem Affine.rows_snoc (A : Affine K) (N : ℕ) : ∀ (l : List K) (p : List (K × K)) (h : l ≠ []) (c : K),
    A.rows N (l ++ [c]) p = A.rows N l p ++ [((A.rows N l p).getLast (A.rows_ne N l p)).map (A.go N (l.getLast h) c)]
  | [], p, h, c => absurd rfl h
  | [a], p, h, c => by simp [Affine.rows]
  | a :: b :: l, p, h, c => by
    have ih := Affine.rows_snoc A N (b :: l) (p.map (A.go N a b)) (by simp) c
    have e : A.rows N (a :: b :: l ++ [c]) p = p :: A.rows N (b :: l ++ [c]) (p.map (A.go N a b)) := rfl
    rw [e, ih]
    simp only [Affine.rows, List.cons_append, List.getLast_cons (A.rows_ne N (b :: l) _), List.getLast_cons_cons]

theorem Affine.rows_head (A : Affine K) (N : ℕ) : ∀ (l : List K) (p : List (K × K)), (A.rows N l p).head (A.rows_ne N l p) = p
  | [], p => rfl
  | [a], p => rfl
  | a :: b :: l, p => rfl

/-- Back from the end of a trace. -/
theorem Affine.rows_reverse (A : Affine K) {N : ℕ} (hN : N ≠ 0) : ∀ (l : List K) (p : List (K × K)), l.IsChain (A.Fit N) →
    A.rows N l.reverse ((A.rows N l p).getLast (A.rows_ne N l p)) = (A.rows N l p).reverse
  | [], p, _ => rfl
  | [a], p, _ => rfl
  | a :: b :: l, p, hc => by
    obtain ⟨h1, h2⟩ := List.isChain_cons_cons.1 hc
    have ih := Affine.rows_reverse A hN (b :: l) (p.map (A.go N a b)) h2
    have e : A.rows N (a :: b :: l) p = p :: A.rows N (b :: l) (p.map (A.go N a b)) := rfl
    simp only [e, List.getLast_cons (A.rows_ne N (b :: l) _)]
    have e2 : (a :: b :: l).reverse = (b :: l).reverse ++ [a] := by simp
    rw [e2, Affine.rows_snoc A N _ _ (by simp), List.reverse_cons (a := p)]
    simp only [ih]
    congr 2
    simp only [List.getLast_reverse, Affine.rows_head, List.map_map, List.head_cons]
    have : (A.go N b a) ∘ (A.go N a b) = id := by funext q; exact A.go_back hN h1 q
    rw [this, List.map_id]

/-- Given as lists of floating point numbers, or as arrays of them. -/
def Floats (g : Given) : Prop := g.isInt = false

theorem flatMap_interleave_length (R : List (List (K × K))) (m : ℕ) (h : ∀ r ∈ R, r.length = m) :
    (R.flatMap interleave).length = R.length * (2 * m) := by
  induction R with
  | nil => simp
  | cons a R ih =>
    rw [List.flatMap_cons, List.length_append, ih fun r hr => h r (by simp [hr]), interleave_length, h a (by simp), List.length_cons]
    ring

/-- The result for an affine field. -/
theorem followReversible_affine (A : Affine K) {dir : List (K × K) → K → Except Err (List (K × K))} (hdir : Pointwise dir A.f)
    {rtol eps : K} (hr : 0 < rtol) (he : eps ≠ 0) {N : ℕ} (hN : N ≠ 0) (fuel : ℕ) {x z : FArr K} {L : List K} (hx : x.Ok) (hz : z.Ok)
    (hs : shape1 x = shape1 z) (hne : x.data ≠ []) (hL : 2 ≤ L.length) (hc : L.IsChain (A.Fit N)) (gx gz : Given) (hgx : Floats gx) (hgz : Floats gz) :
    ∃ r, followReversible dir rtol eps N (fuel + 2) x z ⟨[L.length], L⟩ gx gz false = .ok r ∧
      r.result = ⟨[L.length] ++ shape1 x ++ [2], (A.rows N L (x.data.zip z.data)).flatMap interleave⟩ := by
  obtain ⟨a, l, rfl⟩ : ∃ a l, L = a :: l := by
    cases L with
    | nil => simp at hL
    | cons a l => exact ⟨a, l, rfl⟩
  have hxz : x.data.length = z.data.length := by rw [← shape1_prod hx, ← shape1_prod hz, hs]
  have hp : x.data.zip z.data ≠ [] := by
    intro h0
    have := congrArg List.length h0
    rw [List.length_zip, ← hxz, min_self] at this
    exact hne (List.length_eq_zero_iff.1 this)
  have hck : checkInputs x z ⟨[(a :: l).length], a :: l⟩ = .ok (x.atleast1d, z.atleast1d, ⟨[(a :: l).length], a :: l⟩) := by
    unfold checkInputs
    have ey : (⟨[(a :: l).length], a :: l⟩ : FArr K).atleast1d = ⟨[(a :: l).length], a :: l⟩ := by
      unfold FArr.atleast1d; simp
    rw [ey]
    dsimp only
    rw [if_neg (by unfold FArr.len; simp at hL ⊢; omega), if_neg (by simp), if_neg (by rw [atleast1d_shape, atleast1d_shape, hs]; simp)]
  unfold followReversible
  rw [hck]
  simp only [Except.bind]
  have hxs : xSpread x z = false := by
    unfold xSpread; rw [atleast1d_shape, atleast1d_shape, hs]; simp
  have hzs : zSpread x z = false := by
    unfold zSpread; rw [atleast1d_shape, atleast1d_shape, hs]; simp
  have hbad : (⟨gx.isInt && !xSpread x z, gz.isInt && !zSpread x z,
      decide (x.atleast1d.shape.length ≤ 1) && decide (z.atleast1d.shape.length > 1)⟩ : RevBad) = revGood := by
    unfold Floats at hgx hgz
    unfold revGood
    rw [hgx, hgz, atleast1d_shape, atleast1d_shape, hs]
    simp
  rw [hbad]
  simp only [atleast1d_data]
  obtain ⟨rs, hrs, hrow⟩ := revRows_affine A hN (step := fun dy => revStep false revGood dir rtol eps (fuel + 2) dy)
    (fun h hreg p y hp => revStep_affine A hdir hr he (hreg _) p hp fuel) l a (x.data.zip z.data) hp hc
  simp only [List.tail_cons, List.getD_cons_zero]
  rw [hrs]
  refine ⟨_, rfl, ?_⟩
  simp only [hrow, atleast1d_shape]

/-- **C70 (partial).** For a field that is affine in the position a sub-step satisfies the trapezoidal relation exactly,
and no other point does.  Missing: fields and steps with a singular equation (`C70_fails`). -/
theorem C70_affine_partial (A : Affine K) (dir : List (K × K) → K → Except Err (List (K × K))) (hdir : Pointwise dir A.f)
    (rtol eps : K) (hr : 0 < rtol) (he : eps ≠ 0) (h y : K) (hd : A.det (y + h) h ≠ 0) (p : List (K × K)) (hne : p ≠ []) (fuel : ℕ) :
    ∃ p', revStep false revGood dir rtol eps (fuel + 2) h p y = .ok p' ∧ p'.length = p.length ∧
      ∀ i < p.length, ∀ q, Trap A.f y h (p.getD i (0, 0)) q ↔ q = p'.getD i (0, 0) := by
  refine ⟨_, revStep_affine A hdir hr he hd p hne fuel, by simp, ?_⟩
  intro i hi q
  rw [A.trap_iff hd]
  simp [List.getD_eq_getElem?_getD, hi]

/-- **C70 (partial).** Tracing back from the end gives the same positions in reverse order, exactly.  Missing: fields and
steps with a singular equation (`C70_fails`). -/
theorem C70_reversible_partial (A : Affine K) (dir : List (K × K) → K → Except Err (List (K × K))) (hdir : Pointwise dir A.f)
    (rtol eps : K) (hr : 0 < rtol) (he : eps ≠ 0) (N : ℕ) (hN : N ≠ 0) (fuel : ℕ) (x z : FArr K) (L : List K) (hx : x.Ok) (hz : z.Ok)
    (hs : shape1 x = shape1 z) (hne : x.data ≠ []) (hL : 2 ≤ L.length) (hc : L.IsChain (A.Fit N)) (gx gz : Given) (hgx : Floats gx) (hgz : Floats gz) :
    ∃ (R : List (List (K × K))) (hR : R ≠ []), R.length = L.length ∧ R.head hR = x.data.zip z.data ∧
      (∃ r, followReversible dir rtol eps N (fuel + 2) x z ⟨[L.length], L⟩ gx gz false = .ok r ∧
        r.result = ⟨[L.length] ++ shape1 x ++ [2], R.flatMap interleave⟩) ∧
      ∃ r, followReversible dir rtol eps N (fuel + 2) ⟨shape1 x, (R.getLast hR).map Prod.fst⟩ ⟨shape1 x, (R.getLast hR).map Prod.snd⟩
          ⟨[L.length], L.reverse⟩ gx gz false = .ok r ∧
        r.result = ⟨[L.length] ++ shape1 x ++ [2], R.reverse.flatMap interleave⟩ := by
  have hxz : x.data.length = z.data.length := by rw [← shape1_prod hx, ← shape1_prod hz, hs]
  have hlen : ∀ (l : List K) (p : List (K × K)), l ≠ [] → (A.rows N l p).length = l.length := by
    intro l
    induction l with
    | nil => intro p h; exact absurd rfl h
    | cons a l ih =>
      intro p _
      cases l with
      | nil => rfl
      | cons b l => rw [Affine.rows, List.length_cons, ih _ (by simp)]; simp
  have hrow : ∀ (l : List K) (p : List (K × K)), ∀ r ∈ A.rows N l p, r.length = p.length := by
    intro l
    induction l with
    | nil => intro p r hr; simp [Affine.rows] at hr; rw [hr]
    | cons a l ih =>
      intro p r hr
      cases l with
      | nil => simp [Affine.rows] at hr; rw [hr]
      | cons b l =>
        rw [Affine.rows, List.mem_cons] at hr
        rcases hr with rfl | hr
        · rfl
        · rw [ih _ r hr]; simp
  refine ⟨A.rows N L (x.data.zip z.data), A.rows_ne N _ _, hlen _ _ (by rintro rfl; simp at hL), A.rows_head N _ _,
    followReversible_affine A hdir hr he hN fuel hx hz hs hne hL hc gx gz hgx hgz, ?_⟩
  set Q := (A.rows N L (x.data.zip z.data)).getLast (A.rows_ne N _ _) with hQ
  have hQl : Q.length = x.data.length := by
    rw [hQ, hrow _ _ _ (List.getLast_mem _), List.length_zip, ← hxz, min_self]
  have hsx := shape1_prod hx
  have hsh : shape1 (⟨shape1 x, Q.map Prod.fst⟩ : FArr K) = shape1 x := by
    have := shape1_length x
    have h0 : shape1 x ≠ [] := by
      intro h0
      rw [h0] at this
      simp at this
    generalize shape1 x = sh at h0
    unfold shape1
    exact if_neg h0
  have hc' : L.reverse.IsChain (A.Fit N) := by
    rw [List.isChain_iff_getElem] at hc ⊢
    intro i hi
    rw [List.length_reverse] at hi
    have := hc (L.length - 1 - (i + 1)) (by omega)
    simp only [List.getElem_reverse]
    have e : L.length - 1 - (i + 1) + 1 = L.length - 1 - i := by omega
    simp only [e] at this
    exact ⟨this.2, this.1⟩
  obtain ⟨r, h1, h2⟩ := followReversible_affine A hdir hr he hN fuel (x := ⟨shape1 x, Q.map Prod.fst⟩) (z := ⟨shape1 x, Q.map Prod.snd⟩)
    (L := L.reverse) (by unfold FArr.Ok; simp [hQl, hsx]) (by unfold FArr.Ok; simp [hQl, hsx]) rfl
    (by
      intro h0
      have := congrArg List.length h0
      simp [hQl] at this
      exact hne this) (by simpa using hL) hc' gx gz hgx hgz
  rw [List.length_reverse] at h1 h2
  refine ⟨r, h1, ?_⟩
  rw [h2, hsh]
  congr 2
  have hzip : (Q.map Prod.fst).zip (Q.map Prod.snd) = Q := by
    clear_value Q
    clear hQ hQl hsh h1 h2
    induction Q with
    | nil => rfl
    | cons a Q ih => simp [ih]
  dsimp only
  rw [hzip, hQ, A.rows_reverse hN L _ hc]

/-! ### Any field -/

/-- The finite differences of `f` in the equations. -/
def jac (f : K × K → K → K × K) (eps h y : K) (q : K × K) : (K × K) × (K × K) :=
  ((1 / 2 * (((f (q.1 + eps, q.2) y).1 - (f q y).1) / eps) * h - 1, 1 / 2 * (((f (q.1, q.2 + eps) y).1 - (f q y).1) / eps) * h),
   (1 / 2 * (((f (q.1 + eps, q.2) y).2 - (f q y).2) / eps) * h, 1 / 2 * (((f (q.1, q.2 + eps) y).2 - (f q y).2) / eps) * h - 1))

theorem deltaAt_solves {f : K × K → K → K × K} {eps h y : K} {half q d : K × K} (hd : deltaAt f eps h y half q = some d) :
    (residual f h y half q).1 = (jac f eps h y q).1.1 * d.1 + (jac f eps h y q).1.2 * d.2 ∧
      (residual f h y half q).2 = (jac f eps h y q).2.1 * d.1 + (jac f eps h y q).2.2 * d.2 := by
  unfold deltaAt newtonDelta at hd
  dsimp only at hd
  split_ifs at hd with h0
  push Not at h0
  injection hd with hd
  subst hd
  unfold residual jac
  dsimp only
  generalize ((f (q.1 + eps, q.2) y).1 - (f q y).1) / eps = s1 at *
  generalize ((f (q.1 + eps, q.2) y).2 - (f q y).2) / eps = s2 at *
  generalize ((f (q.1, q.2 + eps) y).1 - (f q y).1) / eps = s3 at *
  generalize ((f (q.1, q.2 + eps) y).2 - (f q y).2) / eps = s4 at *
  have hne := h0.2
  generalize hD : (1 / 2 * s1 * h - 1) * (1 / 2 * s4 * h - 1) - 1 / 2 * s3 * h * (1 / 2 * s2 * h) = D at *
  constructor
  · field_simp
    rw [← hD]
    ring
  · field_simp
    rw [← hD]
    ring

/-- Without points the iteration raises. -/
theorem newtonLoop_nil (same : Bool) (dir : List (K × K) → K → Except Err (List (K × K))) (rtol eps dy y : K) (half : List (K × K)) (r : List (K × K)) :
    ∀ fuel, newtonLoop same dir rtol eps dy y half fuel [] ≠ .ok r
  | 0 => by simp [newtonLoop]
  | fuel + 1 => by
    rw [newtonLoop]
    simp only [List.map_nil]
    cases dir [] y with
    | error e => simp [Except.bind]
    | ok d => simp [Except.bind]

theorem newtonLoop_ok {dir : List (K × K) → K → Except Err (List (K × K))} {f : K × K → K → K × K} (hd : Pointwise dir f)
    {rtol eps dy y : K} : ∀ (fuel : ℕ) (ps : List ((K × K) × (K × K))) (r : List (K × K)),
    newtonLoop false dir rtol eps dy y (ps.map Prod.snd) fuel (ps.map Prod.fst) = .ok r →
    ∃ (qs : List ((K × K) × (K × K))) (δ : (K × K) × (K × K) → K × K), qs.map Prod.snd = ps.map Prod.snd ∧
      r = qs.map (fun s => (s.1.1 - (δ s).1, s.1.2 - (δ s).2)) ∧
      ∀ s ∈ qs, deltaAt f eps dy y s.2 s.1 = some (δ s) ∧ (δ s).1 ^ 2 + (δ s).2 ^ 2 < rtol
  | 0, ps, r, h => by cases h
  | fuel + 1, ps, r, h => by
    by_cases hne : ps = []
    · subst hne
      exact absurd h (newtonLoop_nil _ _ _ _ _ _ _ _ _)
    by_cases hall : ∀ s ∈ ps, (deltaAt f eps dy y s.2 s.1).isSome
    · have hδ : ∀ s ∈ ps, deltaAt f eps dy y s.2 s.1 = some ((deltaAt f eps dy y s.2 s.1).getD (0, 0)) := by
        intro s hs
        obtain ⟨d, hd⟩ := Option.isSome_iff_exists.1 (hall s hs)
        rw [hd]; rfl
      rw [newtonLoop_succ hd rtol eps dy y ps fuel hne (fun s => (deltaAt f eps dy y s.2 s.1).getD (0, 0)) hδ] at h
      split_ifs at h with hc
      · injection h with h
        exact ⟨ps, _, rfl, h.symm, fun s hs => ⟨hδ s hs, hc s hs⟩⟩
      · set qs := ps.map fun s => (((s.1.1 - ((deltaAt f eps dy y s.2 s.1).getD (0, 0)).1,
          s.1.2 - ((deltaAt f eps dy y s.2 s.1).getD (0, 0)).2) : K × K), s.2) with hqs
        have e2 : ps.map Prod.snd = qs.map Prod.snd := by rw [hqs, List.map_map]; rfl
        have e1 : (ps.map fun s => ((s.1.1 - ((deltaAt f eps dy y s.2 s.1).getD (0, 0)).1,
          s.1.2 - ((deltaAt f eps dy y s.2 s.1).getD (0, 0)).2) : K × K)) = qs.map Prod.fst := by rw [hqs, List.map_map]; rfl
        rw [e2, e1] at h
        obtain ⟨qs', δ, h1, h2, h3⟩ := newtonLoop_ok hd fuel qs r h
        exact ⟨qs', δ, by rw [h1, e2], h2, h3⟩
    · exfalso
      push Not at hall
      obtain ⟨s, hs, hn⟩ := hall
      rw [newtonLoop, hd _ _ (by simpa using hne), hd _ _ (by simpa using hne), hd _ _ (by simpa using hne)] at h
      simp only [Except.bind] at h
      rw [if_neg (by simpa using hne)] at h
      obtain ⟨i, hi, rfl⟩ := List.getElem_of_mem hs
      rw [if_pos] at h
      · cases h
      · rw [List.any_eq_true]
        refine ⟨none, ?_, rfl⟩
        rw [List.mem_map]
        refine ⟨i, by simpa using hi, ?_⟩
        unfold deltaAt at hn
        simp only [Option.isSome_iff_ne_none, ne_eq, not_not] at hn
        simp [List.getD_eq_getElem?_getD, hi, hn]

/-- **C70.** For any field, what a sub-step returns differs from a point by `d` with `|d|^2 < rtol`, and the residual of
the trapezoidal relation at that point is `J d` with the finite differences `J`.  In particular the relation
holds exactly if the last change was zero. -/
theorem C70_residual (f : K × K → K → K × K) (dir : List (K × K) → K → Except Err (List (K × K))) (hdir : Pointwise dir f)
    (rtol eps h y : K) (p p' : List (K × K)) (fuel : ℕ) (hs : revStep false revGood dir rtol eps fuel h p y = .ok p') :
    p'.length = p.length ∧ ∀ i < p.length, ∃ q d : K × K, p'.getD i (0, 0) = (q.1 - d.1, q.2 - d.2) ∧ d.1 ^ 2 + d.2 ^ 2 < rtol ∧
      (p.getD i (0, 0)).1 + h / 2 * ((f (p.getD i (0, 0)) y).1 + (f q (y + h)).1) - q.1 =
        (jac f eps h (y + h) q).1.1 * d.1 + (jac f eps h (y + h) q).1.2 * d.2 ∧
      (p.getD i (0, 0)).2 + h / 2 * ((f (p.getD i (0, 0)) y).2 + (f q (y + h)).2) - q.2 =
        (jac f eps h (y + h) q).2.1 * d.1 + (jac f eps h (y + h) q).2.2 * d.2 ∧
      (d = (0, 0) → Trap f y h (p.getD i (0, 0)) (p'.getD i (0, 0))) := by
  by_cases hp : p = []
  · subst hp
    exfalso
    unfold revStep at hs
    cases hd : dir [] y with
    | error e => rw [hd] at hs; cases hs
    | ok d =>
      rw [hd] at hs
      simp only [Except.bind, RevBad.check, revGood, Bool.false_eq_true, if_false, addX, addZ, List.zipWith_nil_left] at hs
      exact newtonLoop_nil _ _ _ _ _ _ _ _ _ hs
  unfold revStep at hs
  rw [hdir _ _ hp] at hs
  simp only [Except.bind, RevBad.check, revGood, Bool.false_eq_true, if_false, List.map_map] at hs
  have e0 := addXZ_map p ((fun e : K × K => e.1 * h) ∘ fun q => f q y) ((fun e : K × K => e.2 * h) ∘ fun q => f q y)
  rw [e0] at hs
  set ps := p.map fun q => (((q.1 + (f q y).1 * h, q.2 + (f q y).2 * h) : K × K),
    ((q.1 + 1 / 2 * (f q y).1 * h, q.2 + 1 / 2 * (f q y).2 * h) : K × K)) with hps
  have e1 : (p.map fun q => (q.1 + ((fun e : K × K => e.1 * h) ∘ fun q => f q y) q, q.2 + ((fun e : K × K => e.2 * h) ∘ fun q => f q y) q)) =
      ps.map Prod.fst := by rw [hps, List.map_map]; rfl
  have e2 : List.zipWith (fun q e : K × K => (q.1 + 1 / 2 * e.1 * h, q.2 + 1 / 2 * e.2 * h)) p (p.map fun q => f q y) = ps.map Prod.snd := by
    rw [hps, List.map_map, List.zipWith_map_right]
    clear hs e0 hps e1 ps hp
    induction p with
    | nil => rfl
    | cons a p ih => simp only [List.zipWith_cons_cons, List.map_cons] at ih ⊢; rw [ih]; rfl
  rw [e1, e2] at hs
  obtain ⟨qs, δ, h1, h2, h3⟩ := newtonLoop_ok hdir fuel ps p' hs
  have hlen : qs.length = p.length := by
    have := congrArg List.length h1
    simpa [hps] using this
  refine ⟨by rw [h2, List.length_map, hlen], ?_⟩
  intro i hi
  have hiq : i < qs.length := by omega
  obtain ⟨h4, h5⟩ := h3 _ (List.getElem_mem hiq)
  have hhalf : qs[i].2 = ((p.getD i (0, 0)).1 + 1 / 2 * (f (p.getD i (0, 0)) y).1 * h, (p.getD i (0, 0)).2 + 1 / 2 * (f (p.getD i (0, 0)) y).2 * h) := by
    have := congrArg (fun l => l.getD i (0, 0)) h1
    simpa [List.getD_eq_getElem?_getD, hi, hiq, hps] using this
  obtain ⟨r1, r2⟩ := deltaAt_solves h4
  have hp' : p'.getD i (0, 0) = (qs[i].1.1 - (δ qs[i]).1, qs[i].1.2 - (δ qs[i]).2) := by
    rw [h2]; simp [List.getD_eq_getElem?_getD, hiq]
  rw [hhalf] at r1 r2
  unfold residual at r1 r2
  dsimp only at r1 r2
  refine ⟨qs[i].1, δ qs[i], hp', h5, ?_, ?_, ?_⟩
  · linear_combination r1
  · linear_combination r2
  · intro h0
    rw [hp', h0]
    rw [h0] at r1 r2
    dsimp only at r1 r2 ⊢
    unfold Trap
    simp only [sub_zero]
    constructor
    · linear_combination -r1
    · linear_combination -r2

/-- What the statement says: a field affine in the position can be followed. -/
def AffineEnds (K : Type) [Field K] [LinearOrder K] : Prop :=
  ∀ (A : Affine K) (rtol eps : K), 0 < rtol → 0 < eps → ∃ fuel : ℕ,
    (followReversible (fun p y => .ok (p.map fun q => A.f q y)) rtol eps 1 fuel ⟨[1], [1]⟩ ⟨[1], [0]⟩ ⟨[2], [0, 1]⟩ ⟨false, false⟩ ⟨false, false⟩ false).toBool = true

/-- The field `dx/dy = 2 x`. -/
def growing : Affine ℚ := ⟨fun _ => 2, fun _ => 0, fun _ => 0, fun _ => 0, fun _ => 0, fun _ => 0⟩

theorem growing_delta (half q : ℚ × ℚ) (eps : ℚ) (he : 0 < eps) : deltaAt growing.f eps 1 1 half q = none := by
  have := he.ne'
  unfold deltaAt newtonDelta growing Affine.f
  dsimp only
  rw [if_pos]
  right
  field_simp
  ring

/-- **C70 (refutation).** With `dx/dy = 2 x` and a step of one the equation is singular, and the iteration never ends. -/
theorem C70_fails : ¬ AffineEnds ℚ := by
  intro h
  obtain ⟨fuel, h⟩ := h growing (1 / 10 ^ 8) (1 / 10 ^ 5) (by norm_num) (by norm_num)
  revert h
  have hx : checkInputs (K := ℚ) ⟨[1], [1]⟩ ⟨[1], [0]⟩ ⟨[2], [0, 1]⟩ = .ok (⟨[1], [1]⟩, ⟨[1], [0]⟩, ⟨[2], [0, 1]⟩) := by
    simp [checkInputs, FArr.atleast1d, FArr.len]
  have hn : ∀ half q, newtonLoop false (fun p y => Except.ok (p.map fun q => growing.f q y)) (1 / 10 ^ 8) (1 / 10 ^ 5) 1 1 half fuel [q] =
      .error (.runtime "does not end") := by
    intro half q
    cases fuel with
    | zero => rfl
    | succ n =>
      rw [newtonLoop]
      simp only [Except.bind, List.map_cons, List.map_nil]
      rw [if_neg (by simp)]
      simp only [List.length_singleton, List.range_one, List.map_cons, List.map_nil, List.getD_cons_zero]
      have := growing_delta (half.getD 0 (0, 0)) q (1 / 10 ^ 5) (by norm_num)
      unfold deltaAt at this
      rw [this]
      simp
  unfold followReversible
  rw [hx]
  simp only [Except.bind, List.tail_cons, List.getD_cons_zero, revRows, revSteps, revStep, List.zip_cons_cons, List.zip_nil_left, List.map_cons, List.map_nil,
    Nat.cast_one, sub_zero, div_one, zero_add, addX, addZ, List.zipWith_cons_cons, List.zipWith_nil_left, Bool.false_eq_true, if_false]
  rw [show (RevBad.check _ : Except Err Unit) = .ok () by
    simp [RevBad.check]]
  simp only [hn]
  simp [Except.map, Except.toBool]

/-- A rotation: it can be followed with every step. -/
def turning : Affine ℚ := ⟨fun _ => 0, fun _ => 1, fun _ => -1, fun _ => 0, fun _ => 0, fun _ => 0⟩

theorem turning_regular (h : ℚ) : turning.Regular h := by
  intro y
  unfold Affine.det turning
  have := sq_nonneg (h / 2)
  intro h0
  linarith

/-- A rotation to and fro. -/
example : [(0 : ℚ), 1, 3].IsChain (turning.Fit 10) ∧ Pointwise (fun p y => .ok (p.map fun q => turning.f q y)) turning.f :=
  ⟨by simp [Affine.Fit, turning_regular], fun _ _ _ => rfl⟩

/-- A field that is not affine: `dx/dy = x^2 / 4` from `x = 1`; the sub-step ends. -/
example : (revStep (K := ℚ) false revGood (fun p _ => .ok (p.map fun q => (q.1 ^ 2 / 4, 0))) (1 / 10) (1 / 10) 5 1 [(1, 0)] 0).toBool = true := by
  decide +kernel

/-! ### The arrays of the caller -/

/-- **C71 (partial).** A list, a scalar, or an array that is made the size of the other, is unchanged.  Missing: arrays
of the same shape (`C71_fails`). -/
theorem C71_unchanged_partial (dir : List (K × K) → K → Except Err (List (K × K))) (rtol eps : K) (nsteps fuel : ℕ)
    (x z y : FArr K) (gx gz : Given) (same : Bool) (r : RevResult K) (h : followReversible dir rtol eps nsteps fuel x z y gx gz same = .ok r) :
    ((gx.isArray = false ∨ shape1 x ≠ shape1 z ∧ x.data.length = 1 ∧ x.Ok) → r.xAfter = x.data) ∧
      ((gz.isArray = false ∨ shape1 x ≠ shape1 z ∧ x.data.length ≠ 1 ∧ z.data.length = 1 ∧ x.Ok ∧ z.Ok) → r.zAfter = z.data) := by
  unfold followReversible at h
  cases hc : checkInputs x z y with
  | error e => rw [hc] at h; cases h
  | ok a =>
    rw [hc] at h
    simp only [Except.bind] at h
    generalize revRows (K := K) _ _ _ _ _ = rr at h
    cases rr with
    | error e => cases h
    | ok rows =>
      simp only [Except.map] at h
      injection h with h
      subst h
      constructor
      · rintro (h1 | ⟨h1, h2, h3⟩)
        · simp [h1]
        · have : xSpread x z = true := by
            unfold xSpread FArr.size
            rw [atleast1d_shape, atleast1d_shape, shape1_prod h3]
            simp [h1, h2]
          simp [this]
      · rintro (h1 | ⟨h1, h2, h3, h4, h5⟩)
        · simp [h1]
        · have : zSpread x z = true := by
            unfold zSpread FArr.size
            rw [atleast1d_shape, atleast1d_shape, shape1_prod h4, shape1_prod h5]
            simp [h1, h2, h3]
          simp [this]

/-- What the statement says. -/
def KeepsInput (K : Type) [Field K] [LinearOrder K] : Prop :=
  ∀ (dir : List (K × K) → K → Except Err (List (K × K))) (rtol eps : K) (nsteps fuel : ℕ) (x z y : FArr K) (gx gz : Given) (r : RevResult K),
    followReversible dir rtol eps nsteps fuel x z y gx gz false = .ok r → r.xAfter = x.data ∧ r.zAfter = z.data

/-- **C71 (refutation).** Arrays of floating point numbers of the same shape hold the end points afterwards. -/
theorem C71_fails : ¬ KeepsInput ℚ := by
  intro h
  have h1 : ((followReversible (K := ℚ) (fun p _ => .ok (p.map fun _ => (1, 0))) 1 1 1 5 ⟨[1], [0]⟩ ⟨[1], [0]⟩ ⟨[2], [0, 1]⟩ ⟨true, false⟩ ⟨true, false⟩ false).toOption.map
      RevResult.xAfter) = some [1] := by decide +kernel
  cases hr : followReversible (K := ℚ) (fun p _ => .ok (p.map fun _ => (1, 0))) 1 1 1 5 ⟨[1], [0]⟩ ⟨[1], [0]⟩ ⟨[2], [0, 1]⟩ ⟨true, false⟩ ⟨true, false⟩ false with
  | error e => rw [hr] at h1; simp [Except.toOption] at h1
  | ok r =>
    rw [hr] at h1
    have := (h _ _ _ _ _ _ _ _ _ _ r hr).1
    simp only [Except.toOption, Option.map_some, Option.some.injEq] at h1
    rw [h1] at this
    simp at this

/-- **C130 (partial).** The result depends on the values only: not on lists or arrays, and not on `same` if only one of the arrays
is used as it is.  Missing: the same array for both (`C130_fails`). -/
theorem C130_values_partial (dir : List (K × K) → K → Except Err (List (K × K))) (rtol eps : K) (nsteps fuel : ℕ)
    (x z y : FArr K) (gx gz gx' gz' : Given) (hx : gx.isInt = gx'.isInt) (hz : gz.isInt = gz'.isInt) :
    (followReversible dir rtol eps nsteps fuel x z y gx gz false).map RevResult.result =
      (followReversible dir rtol eps nsteps fuel x z y gx' gz' false).map RevResult.result := by
  unfold followReversible
  cases checkInputs x z y with
  | error e => rfl
  | ok a =>
    simp only [Except.bind]
    rw [hx, hz]
    generalize revRows (K := K) _ _ _ _ _ = rr
    cases rr <;> rfl

/-- What the statement says. -/
def SameArray (K : Type) [Field K] [LinearOrder K] : Prop :=
  ∀ (dir : List (K × K) → K → Except Err (List (K × K))) (rtol eps : K) (nsteps fuel : ℕ) (x y : FArr K) (g : Given) (r r' : RevResult K),
    followReversible dir rtol eps nsteps fuel x x y g g true = .ok r → followReversible dir rtol eps nsteps fuel x x y g g false = .ok r' →
    r.result = r'.result

/-- **C130 (refutation).** With one array for both coordinates the changes of `x` and `z` are both added to it. -/
theorem C130_fails : ¬ SameArray ℚ := by
  intro h
  have h1 : ((followReversible (K := ℚ) (fun p _ => .ok (p.map fun _ => (1, 0))) 10 1 1 5 ⟨[1], [0]⟩ ⟨[1], [0]⟩ ⟨[2], [0, 1]⟩ ⟨true, false⟩ ⟨true, false⟩ false).toOption.map
      fun r => r.result.data) = some [0, 0, 1, 0] := by decide +kernel
  have h2 : ((followReversible (K := ℚ) (fun p _ => .ok (p.map fun _ => (1, 0))) 10 1 1 5 ⟨[1], [0]⟩ ⟨[1], [0]⟩ ⟨[2], [0, 1]⟩ ⟨true, false⟩ ⟨true, false⟩ true).toOption.map
      fun r => r.result.data) ≠ some [0, 0, 1, 0] := by decide +kernel
  have h3 : (followReversible (K := ℚ) (fun p _ => .ok (p.map fun _ => (1, 0))) 10 1 1 5 ⟨[1], [0]⟩ ⟨[1], [0]⟩ ⟨[2], [0, 1]⟩ ⟨true, false⟩ ⟨true, false⟩ true).toBool = true := by
    decide +kernel
  cases hr : followReversible (K := ℚ) (fun p _ => .ok (p.map fun _ => (1, 0))) 10 1 1 5 ⟨[1], [0]⟩ ⟨[1], [0]⟩ ⟨[2], [0, 1]⟩ ⟨true, false⟩ ⟨true, false⟩ false with
  | error e => rw [hr] at h1; simp [Except.toOption] at h1
  | ok r' =>
    cases hr2 : followReversible (K := ℚ) (fun p _ => .ok (p.map fun _ => (1, 0))) 10 1 1 5 ⟨[1], [0]⟩ ⟨[1], [0]⟩ ⟨[2], [0, 1]⟩ ⟨true, false⟩ ⟨true, false⟩ true with
    | error e => rw [hr2] at h3; simp [Except.toBool] at h3
    | ok r =>
      have := h _ _ _ _ _ _ _ _ r r' hr2 hr
      rw [hr] at h1
      rw [hr2] at h2
      simp only [Except.toOption, Option.map_some] at h1 h2
      rw [this] at h2
      exact h2 h1

/-- **C131 (partial).** Whether the starting points are floating point numbers matters only by an exception: the result with integers is
that with floating point numbers, or a `TypeError`.  Missing: that there is no exception (`C131_fails`). -/
theorem C131_integers_partial (dir : List (K × K) → K → Except Err (List (K × K))) (rtol eps : K) (nsteps fuel : ℕ)
    (x z y : FArr K) (ix iz : Bool) (r : FArr K)
    (h : (followReversible dir rtol eps nsteps fuel x z y ⟨false, ix⟩ ⟨false, iz⟩ false).map RevResult.result = .ok r) :
    (followReversible dir rtol eps nsteps fuel x z y ⟨false, false⟩ ⟨false, false⟩ false).map RevResult.result = .ok r := by
  have hstep : ∀ (b b' : RevBad), b'.xInt = false → b'.zInt = false → b'.odd = b.odd → ∀ dy p y s,
      revStep false b dir rtol eps fuel dy p y = .ok s → revStep false b' dir rtol eps fuel dy p y = .ok s := by
    intro b b' h1 h2 h3 dy p y s hs
    unfold revStep at hs ⊢
    cases hd : dir p y with
    | error e => rw [hd] at hs; cases hs
    | ok d =>
      rw [hd] at hs
      simp only [Except.bind] at hs ⊢
      unfold RevBad.check at hs ⊢
      rw [h1, h2, h3]
      cases hb1 : b.xInt <;> cases hb2 : b.zInt <;> cases hb3 : b.odd <;> simp_all
  have hsteps : ∀ (b b' : RevBad), b'.xInt = false → b'.zInt = false → b'.odd = b.odd → ∀ dy n p y s,
      revSteps (revStep false b dir rtol eps fuel dy) dy n p y = .ok s → revSteps (revStep false b' dir rtol eps fuel dy) dy n p y = .ok s := by
    intro b b' h1 h2 h3 dy n
    induction n with
    | zero => intro p y s hs; exact hs
    | succ n ih =>
      intro p y s hs
      rw [revSteps] at hs ⊢
      cases hd : revStep false b dir rtol eps fuel dy p y with
      | error e => rw [hd] at hs; cases hs
      | ok d =>
        rw [hd] at hs
        rw [hstep b b' h1 h2 h3 _ _ _ _ hd]
        exact ih _ _ _ hs
  have hrows : ∀ (b b' : RevBad), b'.xInt = false → b'.zInt = false → b'.odd = b.odd → ∀ ys p y s,
      revRows (fun dy => revStep false b dir rtol eps fuel dy) nsteps ys p y = .ok s →
      revRows (fun dy => revStep false b' dir rtol eps fuel dy) nsteps ys p y = .ok s := by
    intro b b' h1 h2 h3 ys
    induction ys with
    | nil => intro p y s hs; exact hs
    | cons yn ys ih =>
      intro p y s hs
      rw [revRows] at hs ⊢
      cases hd : revSteps (revStep false b dir rtol eps fuel ((yn - y) / (nsteps : K))) ((yn - y) / (nsteps : K)) nsteps p y with
      | error e => rw [hd] at hs; cases hs
      | ok d =>
        rw [hd] at hs
        rw [hsteps b b' h1 h2 h3 _ _ _ _ _ hd]
        simp only [Except.bind] at hs ⊢
        cases hr : revRows (fun dy => revStep false b dir rtol eps fuel dy) nsteps ys d.1 d.2 with
        | error e => rw [hr] at hs; cases hs
        | ok rs => rw [hr] at hs; rw [ih _ _ _ hr]; exact hs
  unfold followReversible at h ⊢
  cases hc : checkInputs x z y with
  | error e => rw [hc] at h; cases h
  | ok a =>
    rw [hc] at h
    simp only [Except.bind] at h ⊢
    set b : RevBad := ⟨ix && !xSpread x z, iz && !zSpread x z, decide (a.1.shape.length ≤ 1) && decide (a.2.1.shape.length > 1)⟩ with hb
    cases hr : revRows (fun dy => revStep false b dir rtol eps fuel dy) nsteps a.2.2.data.tail (a.1.data.zip a.2.1.data) (a.2.2.data.getD 0 0) with
    | error e => rw [hr] at h; cases h
    | ok rows =>
      rw [hr] at h
      rw [hrows b _ (by simp) (by simp) (by rw [hb]) _ _ _ _ hr]
      exact h

/-- What the statement says: integers can be given. -/
def IntegersWork (K : Type) [Field K] [LinearOrder K] : Prop :=
  ∀ (ix iz : Bool), (followReversible (K := K) (fun p _ => .ok (p.map fun _ => (1, 0))) 1 1 1 5 ⟨[1], [0]⟩ ⟨[1], [0]⟩ ⟨[2], [0, 1]⟩ ⟨false, ix⟩ ⟨false, iz⟩ false).toBool = true

/-- **C131 (refutation).** Integer starting points raise a `TypeError`. -/
theorem C131_fails : ¬ IntegersWork ℚ := by
  intro h
  have := h true false
  revert this
  decide +kernel

end Zoidberg
