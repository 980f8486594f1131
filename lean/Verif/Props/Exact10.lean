import Verif.Props.Curvature
import Verif.Props.Examples
import Mathlib.Tactic.Ring

/-! # Exact conditions, part 10: curvature near the seam (C196), the lines of `get_lines` (C199) -/

set_option linter.unusedSectionVars false

namespace Zoidberg

section
variable {K : Type} [Field K] [LinearOrder K] [IsStrictOrderedRing K] [FloorRing K]

/-! ### C196: away from the seam -/

/-- A rule that uses, at places that are at least `w` from both ends, only the values up to `w` places away, and in the same way everywhere. -/
def LocalRule (w : ℕ) (deriv : ℕ → (ℕ → K) → ℕ → K) : Prop :=
  ∀ n (f g : ℕ → K) i j, w ≤ i → i + w < n → w ≤ j → j + w < n → (∀ d ≤ 2 * w, f (i - w + d) = g (j - w + d)) → deriv n f i = deriv n g j

/-- Places that are at least `w` from both ends, and still so after the turn. -/
def AwayFromSeam (w n k z : ℕ) : Prop := w ≤ z ∧ z + w < n ∧ w ≤ (z + k) % n ∧ (z + k) % n + w < n

theorem AwayFromSeam.mod_eq {w n k z d : ℕ} (h : AwayFromSeam w n k z) (hd : d ≤ 2 * w) : (z - w + d + k) % n = (z + k) % n - w + d := by
  obtain ⟨h1, h2, h3, h4⟩ := h
  have hn : 0 < n := by omega
  have hq := Nat.div_add_mod (z + k) n
  have e : z - w + d + k = ((z + k) % n - w + d) + n * ((z + k) / n) := by omega
  rw [e, Nat.add_mul_mod_self_left, Nat.mod_eq_of_lt (by omega)]

/-- The places used by the rule are away from the seam too, by what is left. -/
theorem AwayFromSeam.sub {w v n k z d : ℕ} (h : AwayFromSeam (w + v) n k z) (hd : d ≤ 2 * w) : AwayFromSeam v n k (z - w + d) := by
  have hw : AwayFromSeam w n k z := ⟨by have := h.1; omega, by have := h.2.1; omega, by have := h.2.2.1; omega, by have := h.2.2.2; omega⟩
  have e := hw.mod_eq hd
  obtain ⟨h1, h2, h3, h4⟩ := h
  exact ⟨by omega, by omega, by omega, by omega⟩

theorem AwayFromSeam.mono {w v n k z : ℕ} (h : AwayFromSeam w n k z) (hv : v ≤ w) : AwayFromSeam v n k z :=
  ⟨by have := h.1; omega, by have := h.2.1; omega, by have := h.2.2.1; omega, by have := h.2.2.2; omega⟩

/-- The cell after the turn. -/
def turned (n k : ℕ) (c : Cell) : Cell := (c.1, c.2.1, (c.2.2 + k) % n)

/-- A derivative along `z` turns if the array does where the rule looks. -/
theorem derZ_turned {w : ℕ} {deriv : ℕ → (ℕ → K) → ℕ → K} (hw : LocalRule w deriv) (n k v : ℕ) (a a' d d' : Cell → K) (c : Cell)
    (hd : d' c = d (turned n k c)) (ha : ∀ z, AwayFromSeam v n k z → a' (c.1, c.2.1, z) = a (c.1, c.2.1, (z + k) % n))
    (hc : AwayFromSeam (w + v) n k c.2.2) : derZ deriv n a' d' c = derZ deriv n a d (turned n k c) := by
  have h0 : AwayFromSeam w n k c.2.2 := hc.mono (by omega)
  have e : deriv n (fun i => a' (c.1, c.2.1, i)) c.2.2 = deriv n (fun i => a (c.1, c.2.1, i)) ((c.2.2 + k) % n) := by
    refine hw n _ _ _ _ h0.1 h0.2.1 h0.2.2.1 h0.2.2.2 fun q hq => ?_
    rw [ha _ (hc.sub hq), h0.mod_eq hq]
  unfold derZ
  rw [e, hd]
  rfl

/-- **C196 (partial).** For a local rule everything that is written turns at the places that are far enough from the seam before and after the turn: the
Jacobian at the distance of the rule, the curvature at twice that distance.  Missing: the places near the seam (`C196_fails`). -/
theorem C196_local_partial {w : ℕ} {deriv : ℕ → (ℕ → K) → ℕ → K} (hw : LocalRule w deriv) (i : CurvIn K) (k : ℕ) (c : Cell) :
    (AwayFromSeam w i.nz k c.2.2 → (i.turn k).J deriv c = i.J deriv (turned i.nz k c)) ∧
    (AwayFromSeam (2 * w) i.nz k c.2.2 → (i.turn k).bxcvx deriv c = i.bxcvx deriv (turned i.nz k c) ∧
      (i.turn k).bxcvy deriv c = i.bxcvy deriv (turned i.nz k c) ∧ (i.turn k).bxcvz deriv c = i.bxcvz deriv (turned i.nz k c)) := by
  have hRz : ∀ c : Cell, AwayFromSeam w i.nz k c.2.2 → (i.turn k).dRdz deriv c = i.dRdz deriv (turned i.nz k c) := fun c hc =>
    derZ_turned hw i.nz k 0 i.polR (i.turn k).polR i.dz (i.turn k).dz c rfl (fun _ _ => rfl) hc
  have hZz : ∀ c : Cell, AwayFromSeam w i.nz k c.2.2 → (i.turn k).dZdz deriv c = i.dZdz deriv (turned i.nz k c) := fun c hc =>
    derZ_turned hw i.nz k 0 i.polZ (i.turn k).polZ i.dz (i.turn k).dz c rfl (fun _ _ => rfl) hc
  have hRx : ∀ c : Cell, (i.turn k).dRdx deriv c = i.dRdx deriv (turned i.nz k c) := fun _ => rfl
  have hZx : ∀ c : Cell, (i.turn k).dZdx deriv c = i.dZdx deriv (turned i.nz k c) := fun _ => rfl
  have hR : ∀ c : Cell, (i.turn k).R c = i.R (turned i.nz k c) := fun _ => rfl
  have hJ : ∀ c : Cell, AwayFromSeam w i.nz k c.2.2 → (i.turn k).J deriv c = i.J deriv (turned i.nz k c) := by
    intro c hc
    unfold CurvIn.J
    rw [hRz c hc, hZz c hc, hRx, hZx, hR]
  have hGx : ∀ c : Cell, AwayFromSeam w i.nz k c.2.2 → (i.turn k).Gx deriv c = i.Gx deriv (turned i.nz k c) := by
    intro c hc
    unfold CurvIn.Gx
    rw [hRz c hc, hZz c hc, hJ c hc, hR]
    rfl
  have hGz : ∀ c : Cell, AwayFromSeam w i.nz k c.2.2 → (i.turn k).Gz deriv c = i.Gz deriv (turned i.nz k c) := by
    intro c hc
    unfold CurvIn.Gz
    rw [hRx, hZx, hJ c hc, hR]
    rfl
  have h_x : ∀ c : Cell, AwayFromSeam w i.nz k c.2.2 → (i.turn k).G_x deriv c = i.G_x deriv (turned i.nz k c) := by
    intro c hc
    unfold CurvIn.G_x
    rw [hGx c hc, hGz c hc]
    rfl
  have h_y : ∀ c : Cell, AwayFromSeam w i.nz k c.2.2 → (i.turn k).G_y deriv c = i.G_y deriv (turned i.nz k c) := by
    intro c hc
    unfold CurvIn.G_y
    rw [hGx c hc, hGz c hc]
    rfl
  have h_z : ∀ c : Cell, AwayFromSeam w i.nz k c.2.2 → (i.turn k).G_z deriv c = i.G_z deriv (turned i.nz k c) := by
    intro c hc
    unfold CurvIn.G_z
    rw [hGx c hc, hGz c hc]
    rfl
  refine ⟨hJ c, fun hc => ?_⟩
  have hc1 : AwayFromSeam w i.nz k c.2.2 := hc.mono (by omega)
  have hc2 : AwayFromSeam (w + w) i.nz k c.2.2 := hc.mono (by omega)
  have dZ : ∀ a : CurvIn K → Cell → K, (∀ c : Cell, AwayFromSeam w i.nz k c.2.2 → a (i.turn k) c = a i (turned i.nz k c)) →
      derZ deriv (i.turn k).nz (a (i.turn k)) (i.turn k).dz c = derZ deriv i.nz (a i) i.dz (turned i.nz k c) := fun a ha =>
    derZ_turned hw i.nz k w (a i) (a (i.turn k)) i.dz (i.turn k).dz c rfl (fun z hz => ha (c.1, c.2.1, z) hz) hc2
  have dX : ∀ a : CurvIn K → Cell → K, (∀ c : Cell, AwayFromSeam w i.nz k c.2.2 → a (i.turn k) c = a i (turned i.nz k c)) →
      derX deriv (i.turn k).nx (a (i.turn k)) (i.turn k).dx c = derX deriv i.nx (a i) i.dx (turned i.nz k c) := by
    intro a ha
    have e : (fun q => a (i.turn k) (q, c.2.1, c.2.2)) = fun q => a i (turned i.nz k (q, c.2.1, c.2.2)) := funext fun q => ha _ hc1
    unfold derX
    rw [e]
    rfl
  have dY : ∀ a : CurvIn K → Cell → K, (∀ c : Cell, AwayFromSeam w i.nz k c.2.2 → a (i.turn k) c = a i (turned i.nz k c)) →
      derY deriv (i.turn k).ny (a (i.turn k)) (i.turn k).dy c = derY deriv i.ny (a i) i.dy (turned i.nz k c) := by
    intro a ha
    have e : (fun q => a (i.turn k) (c.1, q, c.2.2)) = fun q => a i (turned i.nz k (c.1, q, c.2.2)) := funext fun q => ha _ hc1
    unfold derY
    rw [e]
    rfl
  refine ⟨?_, ?_, ?_⟩
  · unfold CurvIn.bxcvx
    rw [dY (fun i => i.G_z deriv) h_z, dZ (fun i => i.G_y deriv) h_y, hJ c hc1]
  · unfold CurvIn.bxcvy
    rw [dZ (fun i => i.G_x deriv) h_x, dX (fun i => i.G_z deriv) h_z, hJ c hc1]
  · unfold CurvIn.bxcvz
    rw [dX (fun i => i.G_y deriv) h_y, dY (fun i => i.G_x deriv) h_x, hJ c hc1]

/-- Differences of neighbours are such a rule. -/
example : LocalRule (K := ℚ) 1 sideDeriv := by
  intro n f g i j h1 h2 h3 h4 h
  have e0 := h 0 (by norm_num)
  have e2 := h 2 (by norm_num)
  simp only [add_zero] at e0
  rw [show i - 1 + 2 = i + 1 by omega, show j - 1 + 2 = j + 1 by omega] at e2
  unfold sideDeriv
  rw [if_neg (by omega), if_neg (by omega), if_neg (by omega), if_neg (by omega), if_neg (by omega), if_neg (by omega), e0, e2]

/-- There are such places: in a row of ten points, turned by three, point 2 is at least two from both ends, and so is point 5. -/
example : AwayFromSeam 2 10 3 2 := by unfold AwayFromSeam; norm_num

/-! ### C199: the order of the slices -/

/-- **C199 (exact condition).** If the slices have lines, and different ones, then line `i` is that of slice `i` exactly if the slices are in increasing
order. -/
theorem C199_iff (e : RzEnv K) (follow : List K → Except Err (List (List K))) (pos : K → K → K × K)
    (hf : ∀ ys, 2 ≤ ys.length → follow ys = .ok (ys.map fun y => [(pos (ys.getD 0 0) y).1, (pos (ys.getD 0 0) y).2]))
    (T : K) (npoints : ℕ) (hn : 2 ≤ npoints) (s : List K) (hs : s ≠ []) (hr : ∀ y ∈ s, 0 ≤ y ∧ y ≤ T) (line : K → RZLine K)
    (hl : ∀ y ∈ s, lineAt e (pos ((s.insertionSort (· ≤ ·)).getD 0 0)) T npoints y = .ok (line y))
    (hd : ∀ y ∈ s, ∀ y' ∈ s, line y = line y' → y = y') :
    getLines e follow s T npoints = s.mapM (lineAt e (pos ((s.insertionSort (· ≤ ·)).getD 0 0)) T npoints) ↔ s.Pairwise (· ≤ ·) := by
  rw [C199_lines e follow pos hf T npoints hn s hs hr]
  set t := s.insertionSort (· ≤ ·) with ht
  have hm : ∀ y, y ∈ t ↔ y ∈ s := fun y => List.mem_insertionSort (· ≤ ·)
  have map_ok : ∀ l : List K, (∀ y ∈ l, y ∈ s) → l.mapM (lineAt e (pos (t.getD 0 0)) T npoints) = .ok (l.map line) := by
    intro l
    induction l with
    | nil => intro _; rfl
    | cons y l ih =>
      intro h
      rw [List.mapM_cons, hl y (h y (by simp)), ih fun z hz => h z (by simp [hz])]
      rfl
  rw [map_ok t fun y hy => (hm y).1 hy, map_ok s fun y hy => hy]
  constructor
  · intro h
    have h1 : t.map line = s.map line := by injection h
    have h2 : t = s := by
      apply List.ext_getElem
      · rw [ht, List.length_insertionSort]
      · intro q q1 q2
        refine hd _ ((hm _).1 (List.getElem_mem q1)) _ (List.getElem_mem q2) ?_
        have := List.getElem_of_eq h1 (i := q) (by simpa using q1)
        simpa using this
    rw [← h2, ht]
    exact List.pairwise_insertionSort (· ≤ ·) s
  · intro h
    rw [ht, List.Pairwise.insertionSort_eq h]

end

/-- The two slices of `C199_fails` have different lines. -/
example : (lineAt exLinEnv exTurnPos 1 4 (1 / 2)).toOption.map (fun q => q.pts) ≠ none ∧
    (lineAt exLinEnv exTurnPos 1 4 0).toOption.map (fun q => q.pts) ≠ none ∧
    (lineAt exLinEnv exTurnPos 1 4 (1 / 2)).toOption.map (fun q => q.pts) ≠ (lineAt exLinEnv exTurnPos 1 4 0).toOption.map (fun q => q.pts) := by
  decide +kernel

end Zoidberg
