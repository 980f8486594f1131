import Verif.Model.Dagp
import Mathlib.Algebra.BigOperators.Intervals
import Mathlib.Algebra.BigOperators.Ring.Finset
import Mathlib.Algebra.Order.Floor.Ring
import Mathlib.Data.List.GetD
import Mathlib.Data.Rat.Floor
import Mathlib.Tactic.FieldSimp
import Mathlib.Tactic.Linarith
import Mathlib.Tactic.LinearCombination
import Mathlib.Tactic.NormNum

/-!
# C83-C87, C154, C155: the DAGP coefficients
-/

set_option linter.unusedSectionVars false

namespace Zoidberg

open Finset

variable {K : Type} [Field K] [LinearOrder K] [IsStrictOrderedRing K]

/-! ### Sums over the pieces of a line -/

section
variable {M : Type} [AddCommGroup M]

@[simp] theorem pieceSum_nil (f : K × K → K × K → M) : pieceSum f [] = 0 := rfl
@[simp] theorem pieceSum_one (f : K × K → K × K → M) (a : K × K) : pieceSum f [a] = 0 := rfl
theorem pieceSum_cons (f : K × K → K × K → M) (a b : K × K) (l : List (K × K)) : pieceSum f (a :: b :: l) = f a b + pieceSum f (b :: l) := by
  unfold pieceSum
  simp

theorem pieceSum_append (f : K × K → K × K → M) : ∀ l1 l2 : List (K × K), (∀ p q, l1.getLast? = some p → l2.head? = some q → f p q = 0) →
    pieceSum f (l1 ++ l2) = pieceSum f l1 + pieceSum f l2
  | [], l2, _ => by simp
  | [a], [], _ => by simp
  | [a], b :: l, h => by
    rw [List.cons_append, List.nil_append, pieceSum_cons, h a b rfl rfl, pieceSum_one]
  | a :: b :: l1, l2, h => by
    have ih := pieceSum_append f (b :: l1) l2 fun p q hp hq => h p q (by rw [List.getLast?_cons_cons]; exact hp) hq
    rw [List.cons_append, List.cons_append, pieceSum_cons, ← List.cons_append, ih, pieceSum_cons, add_assoc]

theorem pieceSum_reverse (f : K × K → K × K → M) (hf : ∀ p q, f q p = -f p q) : ∀ l : List (K × K), pieceSum f l.reverse = -pieceSum f l
  | [] => by simp
  | [a] => by simp
  | a :: b :: l => by
    have ih := pieceSum_reverse f hf (b :: l)
    have h1 : ∀ (l : List (K × K)) (b a : K × K), pieceSum f (l ++ [b] ++ [a]) = pieceSum f (l ++ [b]) + f b a := by
      intro l
      induction l with
      | nil => intro b a; simp [pieceSum_cons]
      | cons c l ih2 =>
        intro b a
        cases l with
        | nil => simp [pieceSum_cons]
        | cons d l =>
          simp only [List.cons_append] at ih2 ⊢
          rw [pieceSum_cons, ih2, pieceSum_cons, add_assoc]
    rw [List.reverse_cons, List.reverse_cons, h1, ← List.reverse_cons, ih, pieceSum_cons, hf, neg_add, add_comm]

/-- Telescoping. -/
theorem pieceSum_tele (f : K × K → K × K → M) (h : K × K → M) : ∀ (l : List (K × K)) (a b : K × K), (∀ p ∈ l, ∀ q ∈ l, f p q = h q - h p) →
    l.head? = some a → l.getLast? = some b → pieceSum f l = h b - h a
  | [], _, _, _, h1, _ => by cases h1
  | [p], a, b, _, h1, h2 => by
    simp at h1 h2
    subst h1; subst h2
    simp
  | p :: q :: l, a, b, hf, h1, h2 => by
    simp at h1
    subst h1
    rw [List.getLast?_cons_cons] at h2
    have ih := pieceSum_tele f h (q :: l) q b (fun r hr s hs => hf r (by simp_all) s (by simp_all)) rfl h2
    rw [pieceSum_cons, ih, hf p (by simp) q (by simp)]
    abel

theorem pieceSum_congr (f g : K × K → K × K → M) : ∀ l : List (K × K), (∀ s ∈ l.zip l.tail, f s.1 s.2 = g s.1 s.2) → pieceSum f l = pieceSum g l := by
  intro l h
  unfold pieceSum
  exact congrArg List.sum (List.map_congr_left h)

theorem pieceSum_map (f : K × K → K × K → M) (t : K × K → K × K) : ∀ l : List (K × K), pieceSum f (l.map t) = pieceSum (fun p q => f (t p) (t q)) l
  | [] => rfl
  | [a] => rfl
  | a :: b :: l => by
    have ih := pieceSum_map f t (b :: l)
    rw [List.map_cons] at ih
    rw [List.map_cons, List.map_cons, pieceSum_cons, pieceSum_cons, ih]

end

/-! ### The points -/

/-- A line of constant `x` index. -/
def xLine (n : ℕ) (g : DagpPol K) (x z : K) : List (K × K) := (linspaceClosed (0 : K) 1 n).map fun s => g.coord x (z - 1 / 2 + s)

/-- A line of constant `z` index. -/
def zLine (n : ℕ) (g : DagpPol K) (x z : K) : List (K × K) := (linspaceClosed (0 : K) 1 n).map fun s => g.coord (x - 1 / 2 + s) z

theorem linspaceClosed_length (a b : K) (n : ℕ) : (linspaceClosed a b n).length = n := by unfold linspaceClosed; simp

theorem linspaceClosed_getElem (a b : K) (n i : ℕ) (hn : 2 ≤ n) (h : i < (linspaceClosed a b n).length) :
    (linspaceClosed a b n)[i] = a + (i : K) * ((b - a) / ((n : K) - 1)) := by
  have e : linspaceClosed a b n = (List.range n).map fun i : ℕ => if n = 1 then a else a + (i : K) * ((b - a) / ((n : K) - 1)) := rfl
  rw [List.getElem_of_eq e h, List.getElem_map, List.getElem_range, if_neg (by omega)]

theorem nm1_ne {n : ℕ} (hn : 2 ≤ n) : (n : K) - 1 ≠ 0 := by
  have : (2 : K) ≤ n := by exact_mod_cast hn
  intro h
  linarith

theorem edge_top (n : ℕ) (hn : 2 ≤ n) (g : DagpPol K) (x y : K) :
    ((linspaceClosed (x - 1 / 2) (x + 1 / 2) n).map (fun t => (t, y + 1 / 2))).map (fun p => g.coord p.1 p.2) = zLine n g x (y + 1 / 2) := by
  unfold zLine
  rw [List.map_map]
  refine List.ext_getElem (by simp [linspaceClosed_length]) fun i h1 h2 => ?_
  simp only [List.getElem_map, Function.comp]
  rw [linspaceClosed_getElem _ _ _ _ hn, linspaceClosed_getElem _ _ _ _ hn]
  congr 1
  ring

theorem edge_right (n : ℕ) (hn : 2 ≤ n) (g : DagpPol K) (x y : K) :
    ((linspaceClosed (y + 1 / 2) (y - 1 / 2) n).map (fun t => (x + 1 / 2, t))).map (fun p => g.coord p.1 p.2) = (xLine n g (x + 1 / 2) y).reverse := by
  unfold xLine
  rw [List.map_map]
  refine List.ext_getElem (by simp [linspaceClosed_length]) fun i h1 h2 => ?_
  simp only [List.getElem_map, Function.comp, List.getElem_reverse, List.length_map, linspaceClosed_length]
  rw [linspaceClosed_getElem _ _ _ _ hn, linspaceClosed_getElem _ _ _ _ hn]
  have hi : i < n := by simpa [linspaceClosed_length] using h1
  have hc : ((n - 1 - i : ℕ) : K) = (n : K) - 1 - i := by
    rw [Nat.sub_sub, Nat.cast_sub (by omega)]
    push_cast
    ring
  have := nm1_ne (K := K) hn
  congr 1
  rw [hc]
  field_simp
  ring

theorem edge_bottom (n : ℕ) (hn : 2 ≤ n) (g : DagpPol K) (x y : K) :
    ((linspaceClosed (x + 1 / 2) (x - 1 / 2) n).map (fun t => (t, y - 1 / 2))).map (fun p => g.coord p.1 p.2) = (zLine n g x (y - 1 / 2)).reverse := by
  unfold zLine
  rw [List.map_map]
  refine List.ext_getElem (by simp [linspaceClosed_length]) fun i h1 h2 => ?_
  simp only [List.getElem_map, Function.comp, List.getElem_reverse, List.length_map, linspaceClosed_length]
  rw [linspaceClosed_getElem _ _ _ _ hn, linspaceClosed_getElem _ _ _ _ hn]
  have hi : i < n := by simpa [linspaceClosed_length] using h1
  have hc : ((n - 1 - i : ℕ) : K) = (n : K) - 1 - i := by
    rw [Nat.sub_sub, Nat.cast_sub (by omega)]
    push_cast
    ring
  have := nm1_ne (K := K) hn
  congr 1
  rw [hc]
  field_simp
  ring

theorem edge_left (n : ℕ) (hn : 2 ≤ n) (g : DagpPol K) (x y : K) :
    ((linspaceClosed (y - 1 / 2) (y + 1 / 2) n).map (fun t => (x - 1 / 2, t))).map (fun p => g.coord p.1 p.2) = xLine n g (x - 1 / 2) y := by
  unfold xLine
  rw [List.map_map]
  refine List.ext_getElem (by simp [linspaceClosed_length]) fun i h1 h2 => ?_
  simp only [List.getElem_map, Function.comp]
  rw [linspaceClosed_getElem _ _ _ _ hn, linspaceClosed_getElem _ _ _ _ hn]
  congr 1
  ring

theorem line_ends (n : ℕ) (hn : 2 ≤ n) (f : K → K × K) :
    ((linspaceClosed (0 : K) 1 n).map f).head? = some (f 0) ∧ ((linspaceClosed (0 : K) 1 n).map f).getLast? = some (f 1) := by
  have hl : ((linspaceClosed (0 : K) 1 n).map f).length = n := by simp [linspaceClosed_length]
  constructor
  · rw [List.head?_eq_getElem?, List.getElem?_eq_getElem (by omega), List.getElem_map, linspaceClosed_getElem _ _ _ _ hn]
    simp
  · rw [List.getLast?_eq_getElem?, hl, List.getElem?_eq_getElem (by omega), List.getElem_map, linspaceClosed_getElem _ _ _ _ hn]
    have := nm1_ne (K := K) hn
    rw [Nat.cast_sub (by omega), Nat.cast_one]
    congr 2
    field_simp
    ring

theorem xLine_ends (n : ℕ) (hn : 2 ≤ n) (g : DagpPol K) (x z : K) :
    (xLine n g x z).head? = some (g.coord x (z - 1 / 2)) ∧ (xLine n g x z).getLast? = some (g.coord x (z + 1 / 2)) := by
  have := line_ends n hn fun s => g.coord x (z - 1 / 2 + s)
  unfold xLine
  rw [this.1, this.2, add_zero]
  refine ⟨rfl, ?_⟩
  congr 2
  ring

theorem zLine_ends (n : ℕ) (hn : 2 ≤ n) (g : DagpPol K) (x z : K) :
    (zLine n g x z).head? = some (g.coord (x - 1 / 2) z) ∧ (zLine n g x z).getLast? = some (g.coord (x + 1 / 2) z) := by
  have := line_ends n hn fun s => g.coord (x - 1 / 2 + s) z
  unfold zLine
  rw [this.1, this.2, add_zero]
  refine ⟨rfl, ?_⟩
  congr 2
  ring

theorem xFace_line (n : ℕ) (g : DagpPol K) (i k : ℕ) : xFace n g i k = xLine n g ((i : K) + 1 / 2) (k : K) := rfl

theorem zFace_line (n : ℕ) (g : DagpPol K) (i k : ℕ) : zFace n g i k = zLine n g ((i : K) + 1) ((k : K) + 1 / 2) := by
  unfold zFace zLine
  refine List.map_congr_left fun s _ => ?_
  congr 1
  ring

theorem dagpArea_self (slab : Bool) (p : K × K) : dagpArea slab p p = 0 := by
  unfold dagpArea
  cases slab <;> simp

theorem dagpArea_flip (slab : Bool) (p q : K × K) : dagpArea slab q p = -dagpArea slab p q := by
  unfold dagpArea
  cases slab
  · simp only [Bool.false_eq_true, if_false]; ring
  · simp only [if_true]; ring

/-- The volume from the four edges. -/
theorem volume_edges (n : ℕ) (hn : 2 ≤ n) (slab : Bool) (g : DagpPol K) (mem : ℕ → ℕ → K) (x k : ℕ) (h1 : 1 ≤ x) (h2 : x + 1 < g.nx) :
    dagpVolume n slab g mem x k = pieceSum (dagpArea slab) (xLine n g ((x : K) + 1 / 2) k) - pieceSum (dagpArea slab) (xLine n g ((x : K) - 1 / 2) k)
      - pieceSum (dagpArea slab) (zLine n g x ((k : K) + 1 / 2)) + pieceSum (dagpArea slab) (zLine n g x ((k : K) - 1 / 2)) := by
  unfold dagpVolume
  rw [if_pos ⟨h1, h2⟩]
  unfold dagpOutline
  rw [List.map_append, List.map_append, List.map_append, edge_top n hn, edge_right n hn, edge_bottom n hn, edge_left n hn]
  have hx1 := xLine_ends n hn g ((x : K) + 1 / 2) k
  have hx2 := xLine_ends n hn g ((x : K) - 1 / 2) k
  have hz1 := zLine_ends n hn g (x : K) ((k : K) + 1 / 2)
  have hz2 := zLine_ends n hn g (x : K) ((k : K) - 1 / 2)
  have hne : ∀ (l : List (K × K)) p, l.getLast? = some p → l ≠ [] := by rintro l p h rfl; cases h
  have e1 : (zLine n g (x : K) ((k : K) + 1 / 2) ++ (xLine n g ((x : K) + 1 / 2) k).reverse).getLast? = some (g.coord ((x : K) + 1 / 2) ((k : K) - 1 / 2)) := by
    rw [List.getLast?_append, List.getLast?_reverse, hx1.1]; rfl
  have e2 : (zLine n g (x : K) ((k : K) + 1 / 2) ++ (xLine n g ((x : K) + 1 / 2) k).reverse ++ (zLine n g (x : K) ((k : K) - 1 / 2)).reverse).getLast? =
      some (g.coord ((x : K) - 1 / 2) ((k : K) - 1 / 2)) := by
    rw [List.getLast?_append, List.getLast?_reverse, hz2.1]; rfl
  rw [pieceSum_append, pieceSum_append, pieceSum_append, pieceSum_reverse _ (dagpArea_flip slab), pieceSum_reverse _ (dagpArea_flip slab)]
  · ring
  · intro p q hp hq
    rw [hz1.2] at hp
    rw [List.head?_reverse, hx1.2] at hq
    cases hp; cases hq
    exact dagpArea_self slab _
  · intro p q hp hq
    rw [e1] at hp
    rw [List.head?_reverse, hz2.2] at hq
    cases hp; cases hq
    exact dagpArea_self slab _
  · intro p q hp hq
    rw [e2] at hp
    rw [hx2.1] at hq
    cases hp; cases hq
    exact dagpArea_self slab _

/-! ### C83: rectangular grids -/

theorem rect_xLine (n : ℕ) (hn : 2 ≤ n) (slab : Bool) (g : RectPol K) (x z : K) :
    pieceSum (dagpArea slab) (xLine n g.dagpPol x z) = (if slab then g.Rmin + x * g.dR else 1 / 2 * (g.Rmin + x * g.dR) ^ 2) * g.dZ := by
  have he := xLine_ends n hn g.dagpPol x z
  have h := pieceSum_tele (dagpArea slab) (fun p => (if slab then g.Rmin + x * g.dR else 1 / 2 * (g.Rmin + x * g.dR) ^ 2) * p.2)
    (xLine n g.dagpPol x z) _ _ ?_ he.1 he.2
  · rw [h]
    unfold RectPol.dagpPol
    dsimp only
    ring
  · have hR : ∀ p ∈ xLine n g.dagpPol x z, p.1 = g.Rmin + x * g.dR := by
      intro p hp
      unfold xLine at hp
      rw [List.mem_map] at hp
      obtain ⟨s, -, rfl⟩ := hp
      rfl
    intro p hp q hq
    unfold dagpArea
    dsimp only
    rw [hR p hp, hR q hq]
    cases slab
    · simp only [Bool.false_eq_true, if_false]; ring
    · simp only [if_true]; ring

theorem rect_zLine (n : ℕ) (hn : 2 ≤ n) (slab : Bool) (g : RectPol K) (x z : K) : pieceSum (dagpArea slab) (zLine n g.dagpPol x z) = 0 := by
  have he := zLine_ends n hn g.dagpPol x z
  have h := pieceSum_tele (dagpArea slab) (fun _ => 0) (zLine n g.dagpPol x z) _ _ ?_ he.1 he.2
  · rw [h, sub_self]
  · have hZ : ∀ p ∈ zLine n g.dagpPol x z, p.2 = g.Zmin + z * g.dZ := by
      intro p hp
      unfold zLine at hp
      rw [List.mem_map] at hp
      obtain ⟨s, -, rfl⟩ := hp
      rfl
    intro p hp q hq
    unfold dagpArea
    dsimp only
    rw [hZ p hp, hZ q hq]
    cases slab <;> simp

/-- **C83.** The volumes of a rectangular grid, for any number of points on an edge. -/
theorem C83_volume (n : ℕ) (hn : 2 ≤ n) (slab : Bool) (g : RectPol K) (mem : ℕ → ℕ → K) (x k : ℕ) (h1 : 1 ≤ x) (h2 : x + 1 < g.nx) :
    dagpVolume n slab g.dagpPol mem x k = if slab then g.dR * g.dZ else g.pol.R x k * g.dR * g.dZ := by
  rw [volume_edges n hn slab g.dagpPol mem x k h1 h2, rect_xLine n hn, rect_xLine n hn, rect_zLine n hn, rect_zLine n hn]
  unfold RectPol.pol
  cases slab
  · simp only [Bool.false_eq_true, if_false]; ring
  · simp only [if_true]; ring

/-- **C83.** In particular for the number of points that `doit` uses, so these are the volumes it returns. -/
theorem C83_doit (sqrt : K → K) (slab : Bool) (g : RectPol K) (mem : ℕ → ℕ → K) (x k : ℕ) (h1 : 1 ≤ x) (h2 : x + 1 < g.nx) :
    (dagpOut sqrt slab mem g.dagpPol).volume x k = if slab then g.dR * g.dZ else g.pol.R x k * g.dR * g.dZ :=
  C83_volume 12 (by norm_num) slab g mem x k h1 h2

/-- **C87 (partial).** Inside, the volume does not depend on what the memory contained.  Missing: the first and the last row (`C87_fails`). -/
theorem C87_inside_partial (n : ℕ) (slab : Bool) (g : DagpPol K) (mem mem' : ℕ → ℕ → K) (x k : ℕ) (h1 : 1 ≤ x) (h2 : x + 1 < g.nx) :
    dagpVolume n slab g mem x k = dagpVolume n slab g mem' x k := by
  unfold dagpVolume
  rw [if_pos ⟨h1, h2⟩, if_pos ⟨h1, h2⟩]

/-- What the statement says: for all points of the grid. -/
def VolumeDetermined (K : Type) [Field K] : Prop :=
  ∀ (n : ℕ) (slab : Bool) (g : DagpPol K) (mem mem' : ℕ → ℕ → K) (x k : ℕ), x < g.nx → k < g.nz → dagpVolume n slab g mem x k = dagpVolume n slab g mem' x k

/-- **C87 (refutation).** -/
theorem C87_fails : ¬ VolumeDetermined ℚ := by
  intro h
  have := h 12 true (RectPol.dagpPol ⟨4, 4, 1, 1, 0, 0⟩) (fun _ _ => 0) (fun _ _ => 1) 0 0 (by decide) (by decide)
  simp [dagpVolume] at this

/-- **C87.** These rows are exactly the memory. -/
theorem C87_rows (n : ℕ) (slab : Bool) (g : DagpPol K) (mem : ℕ → ℕ → K) (k : ℕ) :
    dagpVolume n slab g mem 0 k = mem 0 k ∧ dagpVolume n slab g mem (g.nx - 1) k = mem (g.nx - 1) k := by
  unfold dagpVolume
  refine ⟨if_neg (by omega), if_neg (by omega)⟩

/-! ### C84: fluxes of linear functions -/

/-- **C84.** The coefficients times the differences are the product of the gradient `(b, c)` and the area vector. -/
theorem C84_solve (dx dz r v : K × K) (b c fx fz : K) (h : solve2 dx dz (some r) = .ok (some v)) (hx : fx = b * dx.1 + c * dx.2) (hz : fz = b * dz.1 + c * dz.2) :
    v.1 * fx + v.2 * fz = b * r.1 + c * r.2 := by
  unfold solve2 at h
  dsimp only at h
  by_cases hd : dx.1 * dz.2 - dz.1 * dx.2 = 0
  · rw [if_pos hd] at h; cases h
  · rw [if_neg hd] at h
    cases h
    rw [hx, hz]
    dsimp only
    rw [div_mul_eq_mul_div, div_mul_eq_mul_div, ← add_div, div_eq_iff hd]
    ring

/-- A linear function at the points of a grid. -/
def linearOn (g : DagpPol K) (a b c : K) (x k : ℕ) : K := a + b * g.R x k + c * g.Z x k

theorem coefX_vector (sq : K → K) (n : ℕ) (slab : Bool) (g : DagpPol K) (i k : ℕ) (v : K × K) (h : coefX sq n slab g i k = .ok (some v)) :
    ∃ r, faceVector sq slab rotX (xFace n g i k) = some r ∧ solve2 (xFaceDx g i k) (xFaceDz g i k) (some r) = .ok (some v) := by
  unfold coefX at h
  cases hf : faceVector sq slab rotX (xFace n g i k) with
  | none =>
    rw [hf] at h
    unfold solve2 at h
    dsimp only at h
    split_ifs at h
    cases h
  | some r => exact ⟨r, rfl, by rw [hf] at h; exact h⟩

theorem coefZ_vector (sq : K → K) (n : ℕ) (slab : Bool) (g : DagpPol K) (i k : ℕ) (v : K × K) (h : coefZ sq n slab g i k = .ok (some v)) :
    ∃ r, faceVector sq slab rotZ (zFace n g i k) = some r ∧ solve2 (zFaceDx g i k) (zFaceDz g i k) (some r) = .ok (some v) := by
  unfold coefZ at h
  cases hf : faceVector sq slab rotZ (zFace n g i k) with
  | none =>
    rw [hf] at h
    unfold solve2 at h
    dsimp only at h
    split_ifs at h
    cases h
  | some r => exact ⟨r, rfl, by rw [hf] at h; exact h⟩

/-- The difference between two points of a row is not changed by the wrap. -/
def NoWrap (g : DagpPol K) (x p m : ℕ) : Prop :=
  wrapLz g.Lz (g.R x p - g.R x m) = g.R x p - g.R x m ∧ wrapLz g.Lz (g.Z x p - g.Z x m) = g.Z x p - g.Z x m

theorem noWrap_none (g : DagpPol K) (hL : g.Lz = none) (x p m : ℕ) : NoWrap g x p m := by
  unfold NoWrap wrapLz
  rw [hL]
  exact ⟨rfl, rfl⟩

/-- **C84.** The flux of a linear function through an X face. -/
theorem C84_fluxX (sq : K → K) (n : ℕ) (slab : Bool) (g : DagpPol K) (i k : ℕ) (hw : ∀ x, x = i ∨ x = i + 1 → NoWrap g x ((k + 1) % g.nz) ((k + g.nz - 1) % g.nz)) (v r : K × K)
    (h : coefX sq n slab g i k = .ok (some v)) (hr : faceVector sq slab rotX (xFace n g i k) = some r) (cs : ℕ → ℕ → K × K) (hc : cs i k = v) (a b c : K) :
    fluxX g.nz cs (linearOn g a b c) i k = b * r.1 + c * r.2 := by
  obtain ⟨r', hr', hs⟩ := coefX_vector sq n slab g i k v h
  rw [hr] at hr'
  cases hr'
  unfold fluxX
  rw [hc]
  refine C84_solve _ _ r v b c _ _ hs ?_ ?_
  · unfold linearOn xFaceDx; dsimp only; ring
  · unfold linearOn xFaceDz rollDz
    dsimp only
    rw [(hw i (Or.inl rfl)).1, (hw i (Or.inl rfl)).2, (hw (i + 1) (Or.inr rfl)).1, (hw (i + 1) (Or.inr rfl)).2]
    ring

/-- **C84.** The flux of a linear function through a Z face. -/
theorem C84_fluxZ (sq : K → K) (n : ℕ) (slab : Bool) (g : DagpPol K) (i k : ℕ) (hw : NoWrap g (i + 1) ((k + 1) % g.nz) k) (v r : K × K) (h : coefZ sq n slab g i k = .ok (some v))
    (hr : faceVector sq slab rotZ (zFace n g i k) = some r) (cs : ℕ → ℕ → K × K) (hc : cs i k = v) (a b c : K) :
    fluxZ g.nz cs (linearOn g a b c) i k = b * r.1 + c * r.2 := by
  obtain ⟨r', hr', hs⟩ := coefZ_vector sq n slab g i k v h
  rw [hr] at hr'
  cases hr'
  unfold fluxZ
  rw [hc]
  refine C84_solve _ _ r v b c _ _ hs ?_ ?_
  · unfold linearOn zFaceDx; dsimp only; ring
  · unfold linearOn zFaceDz
    dsimp only
    rw [hw.1, hw.2]
    ring

/-- The vector of a piece of nonzero length. -/
theorem pieceVector_X (sq : K → K) (slab : Bool) (p q : K × K) (h : pieceLength sq rotX p q ≠ 0) :
    pieceVector sq slab rotX p q = if slab then (q.2 - p.2, p.1 - q.1) else (dagpArea true p q, (p.1 ^ 2 - q.1 ^ 2) / 2) := by
  have hl : pieceLength sq rotX p q = sq ((p.1 - q.1) ^ 2 + (p.2 - q.2) ^ 2) := by
    unfold pieceLength rotX; dsimp only; congr 1; ring
  unfold pieceVector
  dsimp only
  rw [hl] at h ⊢
  unfold rotX dagpArea
  cases slab
  · simp only [Bool.false_eq_true, if_false]
    refine Prod.ext ?_ ?_
    · dsimp only; field_simp; simp only [if_true]; ring
    · dsimp only; field_simp; ring
  · simp only [if_true]
    refine Prod.ext ?_ ?_
    · dsimp only; field_simp; ring
    · dsimp only; field_simp

theorem pieceVector_Z (sq : K → K) (slab : Bool) (p q : K × K) (h : pieceLength sq rotZ p q ≠ 0) :
    pieceVector sq slab rotZ p q = if slab then (p.2 - q.2, q.1 - p.1) else (-dagpArea true p q, (q.1 ^ 2 - p.1 ^ 2) / 2) := by
  have hl : pieceLength sq rotZ p q = sq ((p.1 - q.1) ^ 2 + (p.2 - q.2) ^ 2) := by
    unfold pieceLength rotZ; dsimp only; congr 1; ring
  unfold pieceVector
  dsimp only
  rw [hl] at h ⊢
  unfold rotZ dagpArea
  cases slab
  · simp only [Bool.false_eq_true, if_false]
    refine Prod.ext ?_ ?_
    · dsimp only; field_simp; simp only [if_true]; ring
    · dsimp only; field_simp; ring
  · simp only [if_true]
    refine Prod.ext ?_ ?_
    · dsimp only; field_simp
    · dsimp only; field_simp; ring

theorem pieceSum_fst (f : K × K → K × K → K × K) : ∀ l, (pieceSum f l).1 = pieceSum (fun p q => (f p q).1) l
  | [] => rfl
  | [a] => rfl
  | a :: b :: l => by rw [pieceSum_cons, pieceSum_cons, Prod.fst_add, pieceSum_fst f (b :: l)]

theorem pieceSum_snd (f : K × K → K × K → K × K) : ∀ l, (pieceSum f l).2 = pieceSum (fun p q => (f p q).2) l
  | [] => rfl
  | [a] => rfl
  | a :: b :: l => by rw [pieceSum_cons, pieceSum_cons, Prod.snd_add, pieceSum_snd f (b :: l)]

theorem pieceSum_neg (f : K × K → K × K → K) : ∀ l, pieceSum (fun p q => -f p q) l = -pieceSum f l
  | [] => by simp
  | [a] => by simp
  | a :: b :: l => by rw [pieceSum_cons, pieceSum_cons, pieceSum_neg f (b :: l)]; ring

theorem faceVector_some (sq : K → K) (slab : Bool) (rot : K × K → K × K) (l : List (K × K)) (r : K × K) (h : faceVector sq slab rot l = some r) :
    r = pieceSum (pieceVector sq slab rot) l ∧ ∀ s ∈ l.zip l.tail, pieceLength sq rot s.1 s.2 ≠ 0 := by
  unfold faceVector at h
  split_ifs at h with ha
  cases h
  refine ⟨rfl, fun s hs hz => ha ?_⟩
  rw [List.any_eq_true]
  exact ⟨s, hs, by simpa using hz⟩

/-- The vector of an X line. -/
theorem xVector (sq : K → K) (slab : Bool) (l : List (K × K)) (a b r : K × K) (ha : l.head? = some a) (hb : l.getLast? = some b)
    (h : faceVector sq slab rotX l = some r) :
    r = if slab then (b.2 - a.2, a.1 - b.1) else (pieceSum (dagpArea true) l, (a.1 ^ 2 - b.1 ^ 2) / 2) := by
  obtain ⟨rfl, hl⟩ := faceVector_some sq slab rotX l r h
  cases slab
  · have e := pieceSum_congr (pieceVector sq false rotX) (fun p q => (dagpArea true p q, (p.1 ^ 2 - q.1 ^ 2) / 2)) l fun s hs => by
      rw [pieceVector_X sq false _ _ (hl s hs)]; rfl
    rw [e]
    refine Prod.ext ?_ ?_
    · rw [pieceSum_fst]; rfl
    · rw [pieceSum_snd, pieceSum_tele _ (fun p => -(p.1 ^ 2) / 2) l a b (fun p _ q _ => by ring) ha hb]
      simp only [Bool.false_eq_true, if_false]; ring
  · have e := pieceSum_congr (pieceVector sq true rotX) (fun p q => (q.2 - p.2, p.1 - q.1)) l fun s hs => by
      rw [pieceVector_X sq true _ _ (hl s hs)]; rfl
    rw [e]
    refine Prod.ext ?_ ?_
    · rw [pieceSum_fst, pieceSum_tele _ (fun p => p.2) l a b (fun p _ q _ => rfl) ha hb]; rfl
    · rw [pieceSum_snd, pieceSum_tele _ (fun p => -p.1) l a b (fun p _ q _ => by ring) ha hb]
      simp only [if_true]; ring

theorem zVector (sq : K → K) (slab : Bool) (l : List (K × K)) (a b r : K × K) (ha : l.head? = some a) (hb : l.getLast? = some b)
    (h : faceVector sq slab rotZ l = some r) :
    r = if slab then (a.2 - b.2, b.1 - a.1) else (-pieceSum (dagpArea true) l, (b.1 ^ 2 - a.1 ^ 2) / 2) := by
  obtain ⟨rfl, hl⟩ := faceVector_some sq slab rotZ l r h
  cases slab
  · have e := pieceSum_congr (pieceVector sq false rotZ) (fun p q => (-dagpArea true p q, (q.1 ^ 2 - p.1 ^ 2) / 2)) l fun s hs => by
      rw [pieceVector_Z sq false _ _ (hl s hs)]; rfl
    rw [e]
    refine Prod.ext ?_ ?_
    · rw [pieceSum_fst]; exact pieceSum_neg _ l
    · rw [pieceSum_snd, pieceSum_tele _ (fun p => p.1 ^ 2 / 2) l a b (fun p _ q _ => by ring) ha hb]
      simp only [Bool.false_eq_true, if_false]; ring
  · have e := pieceSum_congr (pieceVector sq true rotZ) (fun p q => (p.2 - q.2, q.1 - p.1)) l fun s hs => by
      rw [pieceVector_Z sq true _ _ (hl s hs)]; rfl
    rw [e]
    refine Prod.ext ?_ ?_
    · rw [pieceSum_fst, pieceSum_tele _ (fun p => -p.2) l a b (fun p _ q _ => by ring) ha hb]
      simp only [if_true]; ring
    · rw [pieceSum_snd, pieceSum_tele _ (fun p => p.1) l a b (fun p _ q _ => rfl) ha hb]; rfl

/-- `getCoordinate` after a full turn in `z`: the same point, or the point moved along Z. -/
def ZTurn (g : DagpPol K) : Prop := ∃ s, ∀ x z, g.coord x (z + g.nz) = ((g.coord x z).1, (g.coord x z).2 + s)

/-- The face before. -/
theorem zFace_prev (n : ℕ) (g : DagpPol K) (hg : ZTurn g) (x k : ℕ) (hx : 1 ≤ x) (hk : k < g.nz) :
    ∃ s, zFace n g (x - 1) ((k + g.nz - 1) % g.nz) = (zLine n g (x : K) ((k : K) - 1 / 2)).map fun p => (p.1, p.2 + s) := by
  rw [zFace_line]
  have hx2 : ((x - 1 : ℕ) : K) + 1 = x := by rw [Nat.cast_sub hx]; push_cast; ring
  rw [hx2]
  rcases Nat.eq_zero_or_pos k with h0 | h0
  · subst h0
    obtain ⟨s, hs⟩ := hg
    refine ⟨s, ?_⟩
    rw [Nat.mod_eq_of_lt (by omega), show 0 + g.nz - 1 = g.nz - 1 by omega, Nat.cast_sub (by omega)]
    unfold zLine
    rw [List.map_map]
    refine List.map_congr_left fun t _ => ?_
    dsimp only [Function.comp]
    rw [← hs]
    congr 1
    push_cast
    ring
  · refine ⟨0, ?_⟩
    rw [show k + g.nz - 1 = (k - 1) + g.nz by omega, Nat.add_mod_right, Nat.mod_eq_of_lt (by omega), Nat.cast_sub h0]
    simp only [add_zero, Prod.mk.eta, List.map_id']
    congr 1
    push_cast
    ring

theorem pieceSum_area_moved (slab : Bool) (l : List (K × K)) (s : K) : pieceSum (dagpArea slab) (l.map fun p => (p.1, p.2 + s)) = pieceSum (dagpArea slab) l := by
  rw [pieceSum_map]
  refine pieceSum_congr _ _ l fun q _ => ?_
  unfold dagpArea
  dsimp only
  rw [add_sub_add_right_eq_sub]

/-- **C84.** The area vectors of the four faces of a cell add up to zero in a slab; in a cylinder the sum is the area of the cell, in the direction of R. -/
theorem C84_closed (sq : K → K) (n : ℕ) (hn : 2 ≤ n) (slab : Bool) (g : DagpPol K) (hg : ZTurn g) (mem : ℕ → ℕ → K) (x k : ℕ) (h1 : 1 ≤ x) (h2 : x + 1 < g.nx) (hk : k < g.nz)
    (rp rm sp sm : K × K) (e1 : faceVector sq slab rotX (xFace n g x k) = some rp) (e2 : faceVector sq slab rotX (xFace n g (x - 1) k) = some rm)
    (e3 : faceVector sq slab rotZ (zFace n g (x - 1) k) = some sp) (e4 : faceVector sq slab rotZ (zFace n g (x - 1) ((k + g.nz - 1) % g.nz)) = some sm) :
    rp - rm + sp - sm = if slab then 0 else (dagpVolume n true g mem x k, 0) := by
  have hx2 : ((x - 1 : ℕ) : K) + 1 / 2 = (x : K) - 1 / 2 := by rw [Nat.cast_sub h1]; push_cast; ring
  have hx3 : ((x - 1 : ℕ) : K) + 1 = (x : K) := by rw [Nat.cast_sub h1]; push_cast; ring
  obtain ⟨s, hs⟩ := zFace_prev n g hg x k h1 hk
  rw [xFace_line] at e1 e2
  rw [zFace_line, hx3] at e3
  rw [hx2] at e2
  rw [hs] at e4
  have hx1 := xLine_ends n hn g ((x : K) + 1 / 2) k
  have hx2 := xLine_ends n hn g ((x : K) - 1 / 2) k
  have hz1 := zLine_ends n hn g (x : K) ((k : K) + 1 / 2)
  have hz2 := zLine_ends n hn g (x : K) ((k : K) - 1 / 2)
  have hz2a : ((zLine n g (x : K) ((k : K) - 1 / 2)).map fun p => (p.1, p.2 + s)).head? = some ((g.coord ((x : K) - 1 / 2) ((k : K) - 1 / 2)).1, (g.coord ((x : K) - 1 / 2) ((k : K) - 1 / 2)).2 + s) := by rw [List.head?_map, hz2.1]; rfl
  have hz2b : ((zLine n g (x : K) ((k : K) - 1 / 2)).map fun p => (p.1, p.2 + s)).getLast? = some ((g.coord ((x : K) + 1 / 2) ((k : K) - 1 / 2)).1, (g.coord ((x : K) + 1 / 2) ((k : K) - 1 / 2)).2 + s) := by rw [List.getLast?_map, hz2.2]; rfl
  rw [xVector sq slab _ _ _ rp hx1.1 hx1.2 e1, xVector sq slab _ _ _ rm hx2.1 hx2.2 e2, zVector sq slab _ _ _ sp hz1.1 hz1.2 e3,
    zVector sq slab _ _ _ sm hz2a hz2b e4]
  cases slab
  · simp only [Bool.false_eq_true, if_false]
    rw [volume_edges n hn true g mem x k h1 h2, pieceSum_area_moved]
    refine Prod.ext ?_ ?_
    · simp only [Prod.fst_sub, Prod.fst_add]; ring
    · simp only [Prod.snd_sub, Prod.snd_add]; ring
  · simp only [if_true]
    refine Prod.ext ?_ ?_
    · simp only [Prod.fst_sub, Prod.fst_add, Prod.fst_zero]; ring
    · simp only [Prod.snd_sub, Prod.snd_add, Prod.snd_zero]; ring

/-- **C84.** So the discrete Laplacian of a linear function is zero in a slab; in a cylinder it is the derivative in R times the area of the cell.  In grids with `Lz` this is for
cells away from the end. -/
theorem C84_laplacian (sq : K → K) (n : ℕ) (hn : 2 ≤ n) (slab : Bool) (g : DagpPol K) (hg : ZTurn g) (mem : ℕ → ℕ → K) (x k : ℕ) (h1 : 1 ≤ x)
    (h2 : x + 1 < g.nx) (hk : k < g.nz) (hw : ∀ x' p m, (p = (k + 1) % g.nz ∧ m = (k + g.nz - 1) % g.nz) ∨ (p = (k + 1) % g.nz ∧ m = k) ∨ (p = k ∧ m = (k + g.nz - 1) % g.nz) → NoWrap g x' p m)
    (cX cZ : ℕ → ℕ → K × K) (hX : ∀ i, i + 1 < g.nx → coefX sq n slab g i k = .ok (some (cX i k)))
    (hZ : ∀ k', k' < g.nz → coefZ sq n slab g (x - 1) k' = .ok (some (cZ (x - 1) k'))) (a b c : K) :
    dagpResult g.nx g.nz cX cZ (linearOn g a b c) x k = if slab then 0 else b * dagpVolume n true g mem x k := by
  have hback : ((k + g.nz - 1) % g.nz + 1) % g.nz = k := by
    rcases Nat.eq_zero_or_pos k with h0 | h0
    · subst h0
      rw [show 0 + g.nz - 1 = g.nz - 1 by omega, Nat.mod_eq_of_lt (show g.nz - 1 < g.nz by omega), show g.nz - 1 + 1 = g.nz by omega, Nat.mod_self]
    · rw [show k + g.nz - 1 = (k - 1) + g.nz by omega, Nat.add_mod_right, Nat.mod_eq_of_lt (show k - 1 < g.nz by omega), show k - 1 + 1 = k by omega, Nat.mod_eq_of_lt hk]
  have w1 : ∀ x', NoWrap g x' ((k + 1) % g.nz) ((k + g.nz - 1) % g.nz) := fun x' => hw x' _ _ (Or.inl ⟨rfl, rfl⟩)
  have w2 : NoWrap g (x - 1 + 1) ((k + 1) % g.nz) k := hw _ _ _ (Or.inr (Or.inl ⟨rfl, rfl⟩))
  have w3 : NoWrap g (x - 1 + 1) (((k + g.nz - 1) % g.nz + 1) % g.nz) ((k + g.nz - 1) % g.nz) := hw _ _ _ (Or.inr (Or.inr ⟨hback, rfl⟩))
  obtain ⟨rp, e1, -⟩ := coefX_vector sq n slab g x k _ (hX x h2)
  obtain ⟨rm, e2, -⟩ := coefX_vector sq n slab g (x - 1) k _ (hX (x - 1) (by omega))
  have hk2 : (k + g.nz - 1) % g.nz < g.nz := Nat.mod_lt _ (by omega)
  obtain ⟨sp, e3, -⟩ := coefZ_vector sq n slab g (x - 1) k _ (hZ k hk)
  obtain ⟨sm, e4, -⟩ := coefZ_vector sq n slab g (x - 1) _ _ (hZ _ hk2)
  have hc := C84_closed sq n hn slab g hg mem x k h1 h2 hk rp rm sp sm e1 e2 e3 e4
  unfold dagpResult
  rw [if_pos h2, if_pos h1, if_pos ⟨h1, h2⟩, C84_fluxX sq n slab g x k (fun x' _ => w1 x') _ rp (hX x h2) e1 cX rfl,
    C84_fluxX sq n slab g (x - 1) k (fun x' _ => w1 x') _ rm (hX (x - 1) (by omega)) e2 cX rfl, C84_fluxZ sq n slab g (x - 1) k w2 _ sp (hZ k hk) e3 cZ rfl,
    C84_fluxZ sq n slab g (x - 1) _ w3 _ sm (hZ _ hk2) e4 cZ rfl]
  have hc1 := congrArg Prod.fst hc
  have hc2 := congrArg Prod.snd hc
  simp only [Prod.fst_sub, Prod.fst_add, Prod.snd_sub, Prod.snd_add] at hc1 hc2
  cases slab
  · simp only [Bool.false_eq_true, if_false] at hc1 hc2 ⊢
    linear_combination b * hc1 + c * hc2
  · simp only [if_true, Prod.fst_zero, Prod.snd_zero] at hc1 hc2 ⊢
    linear_combination b * hc1 + c * hc2

/-- **C84.** The coefficients exist unless the stencil is singular. -/
theorem C84_exists (sq : K → K) (n : ℕ) (slab : Bool) (g : DagpPol K) (i k : ℕ)
    (h : (xFaceDx g i k).1 * (xFaceDz g i k).2 - (xFaceDz g i k).1 * (xFaceDx g i k).2 ≠ 0) (hp : ∀ s ∈ (xFace n g i k).zip (xFace n g i k).tail, pieceLength sq rotX s.1 s.2 ≠ 0) :
    ∃ v, coefX sq n slab g i k = .ok (some v) := by
  unfold coefX solve2 faceVector
  dsimp only
  rw [if_neg h, if_neg]
  · exact ⟨_, rfl⟩
  · rw [List.any_eq_true]
    rintro ⟨s, hs, hz⟩
    exact hp s hs (by simpa using hz)

/-! ### C85: conservation -/

theorem sum_roll (nz : ℕ) (f : ℕ → K) : ∑ k ∈ range nz, f ((k + nz - 1) % nz) = ∑ k ∈ range nz, f k := by
  cases nz with
  | zero => rfl
  | succ m =>
    rw [sum_range_succ', sum_range_succ]
    congr 1
    · refine sum_congr rfl fun k hk => ?_
      rw [mem_range] at hk
      rw [show k + 1 + (m + 1) - 1 = k + (m + 1) by omega, Nat.add_mod_right, Nat.mod_eq_of_lt (by omega)]
    · rw [show 0 + (m + 1) - 1 = m by omega, Nat.mod_eq_of_lt (by omega)]

/-- **C85.** The sum over all cells is zero. -/
theorem C85_conservative (nx nz : ℕ) (cX cZ : ℕ → ℕ → K × K) (f : ℕ → ℕ → K) : ∑ x ∈ range nx, ∑ k ∈ range nz, dagpResult nx nz cX cZ f x k = 0 := by
  unfold dagpResult
  simp only [sum_add_distrib, sum_sub_distrib]
  have hz : ∑ x ∈ range nx, ∑ k ∈ range nz, (if 1 ≤ x ∧ x + 1 < nx then fluxZ nz cZ f (x - 1) k - fluxZ nz cZ f (x - 1) ((k + nz - 1) % nz) else 0) = 0 := by
    refine sum_eq_zero fun x _ => ?_
    by_cases h : 1 ≤ x ∧ x + 1 < nx
    · simp only [if_pos h, sum_sub_distrib]
      rw [sum_roll nz fun k => fluxZ nz cZ f (x - 1) k, sub_self]
    · simp only [if_neg h, sum_const_zero]
  rw [hz, add_zero, sub_eq_zero]
  cases nx with
  | zero => rfl
  | succ m =>
    rw [sum_range_succ, sum_range_succ']
    simp only [show ¬ m + 1 < m + 1 by omega, if_false, sum_const_zero, add_zero, show ¬ 1 ≤ 0 by omega]
    refine sum_congr rfl fun x hx => sum_congr rfl fun k _ => ?_
    rw [mem_range] at hx
    rw [if_pos (by omega), if_pos (by omega)]
    rfl

/-- **C85.** After the boundary rows have been cleared the sum is what flows through the first and the last faces. -/
theorem C85_cleared (m nz : ℕ) (cX cZ : ℕ → ℕ → K × K) (f : ℕ → ℕ → K) :
    ∑ x ∈ range (m + 2), ∑ k ∈ range nz, dagpCleared (m + 2) nz cX cZ f x k = ∑ k ∈ range nz, (fluxX nz cX f m k - fluxX nz cX f 0 k) := by
  have h := C85_conservative (m + 2) nz cX cZ f
  rw [sum_range_succ, sum_range_succ'] at h ⊢
  have h1 : ∑ k ∈ range nz, dagpResult (m + 2) nz cX cZ f 0 k = ∑ k ∈ range nz, fluxX nz cX f 0 k := by
    refine sum_congr rfl fun k _ => ?_
    unfold dagpResult
    rw [if_pos (by omega), if_neg (by omega), if_neg (by omega), sub_zero, add_zero]
  have h2 : ∑ k ∈ range nz, dagpResult (m + 2) nz cX cZ f (m + 1) k = -∑ k ∈ range nz, fluxX nz cX f m k := by
    rw [← sum_neg_distrib]
    refine sum_congr rfl fun k _ => ?_
    unfold dagpResult
    rw [if_neg (by omega), if_pos (by omega), if_neg (by omega), add_zero, zero_sub]
    rfl
  have h3 : ∀ x k, dagpCleared (m + 2) nz cX cZ f 0 k = 0 ∧ dagpCleared (m + 2) nz cX cZ f (m + 1) k = 0 ∧ (x < m → dagpCleared (m + 2) nz cX cZ f (x + 1) k = dagpResult (m + 2) nz cX cZ f (x + 1) k) := by
    intro x k
    unfold dagpCleared
    exact ⟨if_pos (by omega), if_pos (by omega), fun hx => if_neg (by omega)⟩
  have h4 : ∑ x ∈ range m, ∑ k ∈ range nz, dagpCleared (m + 2) nz cX cZ f (x + 1) k = ∑ x ∈ range m, ∑ k ∈ range nz, dagpResult (m + 2) nz cX cZ f (x + 1) k :=
    sum_congr rfl fun x hx => sum_congr rfl fun k _ => (h3 x k).2.2 (mem_range.mp hx)
  have h5 : ∑ k ∈ range nz, dagpCleared (m + 2) nz cX cZ f 0 k = 0 := sum_eq_zero fun k _ => (h3 0 k).1
  have h6 : ∑ k ∈ range nz, dagpCleared (m + 2) nz cX cZ f (m + 1) k = 0 := sum_eq_zero fun k _ => (h3 0 k).2.1
  rw [h4, h5, h6, sum_sub_distrib]
  rw [h1, h2] at h
  linear_combination h

/-! ### C86: writing and loading -/

/-- **C86.** What is written for coefficients of X faces is loaded again, with zeros in the last row. -/
theorem C86_X {α : Type} (zero : α) (d : List α) : fixup zero (d.length + 1) d = .ok (d ++ [zero]) ∧ fixup2 d.length (d ++ [zero]) = .ok d := by
  constructor
  · unfold fixup assignRows
    rw [if_pos rfl, if_pos (by omega)]
    rfl
  · unfold fixup2 assignRows
    rw [if_pos (by simp), List.dropLast_concat, if_pos rfl]

/-- **C86.** For Z faces there are zeros in the first and the last row. -/
theorem C86_Z {α : Type} (zero : α) (d : List α) : fixup zero (d.length + 2) d = .ok (zero :: (d ++ [zero])) ∧ fixup2 d.length (zero :: (d ++ [zero])) = .ok d := by
  constructor
  · unfold fixup assignRows
    rw [if_neg (by omega), if_pos (by omega)]
    simp only [Except.map]
    rw [if_neg (by omega), if_neg (by omega)]
  · unfold fixup2 assignRows
    rw [if_neg (by simp), List.tail_cons, List.dropLast_concat, if_pos rfl]

/-- **C86.** `fixup` fills an array with the rows of the grid, and works exactly if the coefficients belong to X faces or Z faces, or have a single
row, which is then repeated. -/
theorem C86_iff {α : Type} (zero : α) (nx : ℕ) (d : List α) :
    ((∃ a, fixup zero nx d = .ok a) ↔ nx = d.length + 1 ∨ nx - 2 = d.length ∨ d.length = 1) ∧ ∀ a, fixup zero nx d = .ok a → a.length = nx := by
  have hrow : ∀ want, ((∃ a, assignRows want d = .ok a) ↔ d.length = want ∨ d.length = 1) ∧ ∀ a, assignRows want d = .ok a → a.length = want := by
    intro want
    unfold assignRows
    by_cases h : d.length = want
    · rw [if_pos h]
      refine ⟨⟨fun _ => Or.inl h, fun _ => ⟨_, rfl⟩⟩, ?_⟩
      intro a ha
      cases ha
      exact h
    · rw [if_neg h]
      match d, h with
      | [], h => exact ⟨⟨(fun ⟨a, ha⟩ => by cases ha), fun h' => by simp at h'; exact absurd h' (by simpa using h)⟩, fun a ha => by cases ha⟩
      | [r], h =>
        refine ⟨⟨fun _ => Or.inr rfl, fun _ => ⟨_, rfl⟩⟩, ?_⟩
        intro a ha
        cases ha
        simp
      | r :: r' :: l, h => exact ⟨⟨(fun ⟨a, ha⟩ => by cases ha), fun h' => by rcases h' with h' | h'; exacts [absurd h' h, by simp at h']⟩, fun a ha => by cases ha⟩
  unfold fixup
  by_cases h : nx = d.length + 1
  · rw [if_pos h]
    obtain ⟨h1, h2⟩ := hrow (nx - 1)
    obtain ⟨a, ha⟩ := h1.2 (Or.inl (by omega))
    rw [ha]
    refine ⟨⟨fun _ => Or.inl h, fun _ => ⟨_, rfl⟩⟩, ?_⟩
    intro b hb
    cases hb
    have := h2 a ha
    rw [List.length_append, this]
    simp
    omega
  · rw [if_neg h]
    obtain ⟨h1, h2⟩ := hrow (nx - 2)
    constructor
    · constructor
      · rintro ⟨b, hb⟩
        cases ha : assignRows (nx - 2) d with
        | error err => rw [ha] at hb; cases hb
        | ok a =>
          rcases h1.1 ⟨a, ha⟩ with h3 | h3
          · exact Or.inr (Or.inl h3.symm)
          · exact Or.inr (Or.inr h3)
      · intro h3
        obtain ⟨a, ha⟩ := h1.2 (by rcases h3 with h3 | h3 | h3; exacts [absurd h3 h, Or.inl h3.symm, Or.inr h3])
        rw [ha]
        exact ⟨_, rfl⟩
    · intro b hb
      cases ha : assignRows (nx - 2) d with
      | error err => rw [ha] at hb; cases hb
      | ok a =>
        rw [ha] at hb
        have := h2 a ha
        cases hb
        split_ifs with c1 c2
        · simp [c1]
        · simp [c2]
        · simp [this]
          omega

/-- A single row is repeated in the three inner rows. -/
example : fixup 0 5 [7] = .ok [0, 7, 7, 7, 0] := rfl

/-! ### C154: the total volume -/

/-- **C154.** The volumes of all cells inside add up to a sum over the outermost and innermost faces: neighbouring cells share their edges. -/
theorem C154_total (n : ℕ) (hn : 2 ≤ n) (slab : Bool) (g : DagpPol K) (hg : ZTurn g) (mem : ℕ → ℕ → K) (m : ℕ) (hm : g.nx = m + 2) :
    ∑ x ∈ range m, ∑ k ∈ range g.nz, dagpVolume n slab g mem (x + 1) k =
      ∑ k ∈ range g.nz, (pieceSum (dagpArea slab) (xFace n g m k) - pieceSum (dagpArea slab) (xFace n g 0 k)) := by
  have key : ∀ x ∈ range m, ∑ k ∈ range g.nz, dagpVolume n slab g mem (x + 1) k =
      (∑ k ∈ range g.nz, pieceSum (dagpArea slab) (xFace n g (x + 1) k)) - ∑ k ∈ range g.nz, pieceSum (dagpArea slab) (xFace n g x k) := by
    intro x hx
    rw [mem_range] at hx
    have hz : ∑ k ∈ range g.nz, pieceSum (dagpArea slab) (zFace n g x ((k + g.nz - 1) % g.nz)) = ∑ k ∈ range g.nz, pieceSum (dagpArea slab) (zFace n g x k) :=
      sum_roll g.nz fun k => pieceSum (dagpArea slab) (zFace n g x k)
    have h3 : ∀ k ∈ range g.nz, dagpVolume n slab g mem (x + 1) k = pieceSum (dagpArea slab) (xFace n g (x + 1) k) - pieceSum (dagpArea slab) (xFace n g x k)
        - (pieceSum (dagpArea slab) (zFace n g x k) - pieceSum (dagpArea slab) (zFace n g x ((k + g.nz - 1) % g.nz))) := by
      intro k hk
      rw [mem_range] at hk
      rw [volume_edges n hn slab g mem (x + 1) k (by omega) (by omega)]
      obtain ⟨s, hs⟩ := zFace_prev n g hg (x + 1) k (by omega) hk
      rw [show x + 1 - 1 = x by omega] at hs
      rw [hs, pieceSum_area_moved, xFace_line, xFace_line, zFace_line]
      have e : ((x + 1 : ℕ) : K) - 1 / 2 = (x : K) + 1 / 2 := by push_cast; ring
      have e2 : ((x + 1 : ℕ) : K) = (x : K) + 1 := by push_cast; ring
      rw [e, e2]
      ring
    rw [sum_congr rfl h3, sum_sub_distrib, sum_sub_distrib, sum_sub_distrib, hz, sub_self, sub_zero]
  rw [sum_congr rfl key, sum_sub_distrib (s := range g.nz)]
  exact sum_range_sub (fun x => ∑ k ∈ range g.nz, pieceSum (dagpArea slab) (xFace n g x k)) m

theorem rect_turn (g : RectPol K) : ZTurn g.dagpPol := by
  refine ⟨(g.nz : K) * g.dZ, fun x z => ?_⟩
  unfold RectPol.dagpPol
  dsimp only
  refine Prod.ext rfl ?_
  dsimp only
  ring

/-! ### C155: rectangular grids -/

theorem wrapLz_mid (L a b : K) (hab : a = b) (h1 : -(L / 2) ≤ b) (h2 : b ≤ L / 2) : wrapLz (some L) a = b := by
  subst hab
  have e1 : ¬ a < -L / 2 := by rw [neg_div]; exact not_lt.mpr h1
  unfold wrapLz
  dsimp only
  rw [if_neg e1, if_neg (not_lt.mpr h2)]

theorem wrapLz_low (L a b : K) (hab : a + L = b) (h1 : b < L / 2) : wrapLz (some L) a = b := by
  have e1 : a < -L / 2 := by rw [neg_div]; linarith
  unfold wrapLz
  dsimp only
  rw [if_pos e1, hab, if_neg (not_lt.mpr h1.le)]

/-- The differences along `z`, with the wrap. -/
theorem rect_dz (g : RectPol K) (hZ : 0 < g.dZ) (hz : 3 ≤ g.nz) (i k : ℕ) (hk : k < g.nz) : zFaceDz g.dagpPol i k = (0, g.dZ) := by
  have hn : (3 : K) ≤ g.nz := by exact_mod_cast hz
  have hp : 0 < (g.nz : K) * g.dZ := by positivity
  have hq : 3 * g.dZ ≤ (g.nz : K) * g.dZ := by nlinarith
  refine Prod.ext ?_ ?_
  · exact wrapLz_mid _ _ _ (sub_self _) (by linarith) (by linarith)
  · rcases Nat.lt_or_ge (k + 1) g.nz with h | h
    · refine wrapLz_mid _ _ _ ?_ (by linarith) (by linarith)
      change g.Zmin + (((k + 1) % g.nz : ℕ) : K) * g.dZ - (g.Zmin + (k : K) * g.dZ) = g.dZ
      rw [Nat.mod_eq_of_lt h]
      push_cast; ring
    · have hk2 : k + 1 = g.nz := by omega
      have hk3 : (k : K) = (g.nz : K) - 1 := by rw [← hk2]; push_cast; ring
      refine wrapLz_low _ _ _ ?_ (by linarith)
      change g.Zmin + (((k + 1) % g.nz : ℕ) : K) * g.dZ - (g.Zmin + (k : K) * g.dZ) + (g.nz : K) * g.dZ = g.dZ
      rw [hk3, hk2, Nat.mod_self]
      push_cast; ring

theorem wrapLz_cases (L a : K) : wrapLz (some L) a = a ∨ wrapLz (some L) a = a + L ∨ wrapLz (some L) a = a - L := by
  unfold wrapLz
  dsimp only
  split_ifs
  · exact Or.inl (by ring)
  · exact Or.inr (Or.inl rfl)
  · exact Or.inr (Or.inr rfl)
  · exact Or.inl rfl

/-- The differences over two cells, with the wrap: with three or four points in z they can be wrong, but they are not zero. -/
theorem rect_rollDz (g : RectPol K) (hZ : 0 < g.dZ) (hz : 3 ≤ g.nz) (k : ℕ) (hk : k < g.nz) : ∃ d : K, d ≠ 0 ∧ ∀ x, rollDz g.dagpPol x k = (0, d) := by
  have hn : (3 : K) ≤ g.nz := by exact_mod_cast hz
  have hp : 0 < (g.nz : K) * g.dZ := by positivity
  have hq : 3 * g.dZ ≤ (g.nz : K) * g.dZ := by nlinarith
  have ha : ∀ x, g.dagpPol.Z x ((k + 1) % g.nz) - g.dagpPol.Z x ((k + g.nz - 1) % g.nz) = 2 * g.dZ ∨
      g.dagpPol.Z x ((k + 1) % g.nz) - g.dagpPol.Z x ((k + g.nz - 1) % g.nz) = 2 * g.dZ - (g.nz : K) * g.dZ := by
    intro x
    change g.Zmin + (((k + 1) % g.nz : ℕ) : K) * g.dZ - (g.Zmin + (((k + g.nz - 1) % g.nz : ℕ) : K) * g.dZ) = 2 * g.dZ ∨
      g.Zmin + (((k + 1) % g.nz : ℕ) : K) * g.dZ - (g.Zmin + (((k + g.nz - 1) % g.nz : ℕ) : K) * g.dZ) = 2 * g.dZ - (g.nz : K) * g.dZ
    rcases Nat.lt_or_ge (k + 1) g.nz with h | h
    · rcases Nat.eq_zero_or_pos k with h0 | h0
      · subst h0
        right
        rw [Nat.mod_eq_of_lt h, show 0 + g.nz - 1 = g.nz - 1 by omega, Nat.mod_eq_of_lt (show g.nz - 1 < g.nz by omega), Nat.cast_sub (by omega)]
        push_cast; ring
      · left
        rw [Nat.mod_eq_of_lt h, show k + g.nz - 1 = (k - 1) + g.nz by omega, Nat.add_mod_right, Nat.mod_eq_of_lt (show k - 1 < g.nz by omega), Nat.cast_sub h0]
        push_cast; ring
    · have hk2 : k + 1 = g.nz := by omega
      have hk3 : (k : K) = (g.nz : K) - 1 := by rw [← hk2]; push_cast; ring
      right
      rw [show k + g.nz - 1 = (k - 1) + g.nz by omega, Nat.add_mod_right, Nat.mod_eq_of_lt (show k - 1 < g.nz by omega), Nat.cast_sub (by omega), hk3, hk2, Nat.mod_self]
      push_cast; ring
  refine ⟨wrapLz (some ((g.nz : K) * g.dZ)) (g.dagpPol.Z 0 ((k + 1) % g.nz) - g.dagpPol.Z 0 ((k + g.nz - 1) % g.nz)), ?_, fun x => Prod.ext ?_ rfl⟩
  · intro h0
    rcases ha 0 with h | h <;> rcases wrapLz_cases ((g.nz : K) * g.dZ) (g.dagpPol.Z 0 ((k + 1) % g.nz) - g.dagpPol.Z 0 ((k + g.nz - 1) % g.nz)) with e | e | e <;>
      rw [h0, h] at e <;> linarith
  · exact wrapLz_mid _ _ _ (sub_self _) (by linarith) (by linarith)

/-- With one or two points in z they are zero. -/
theorem rect_rollDz_zero (g : RectPol K) (hZ : 0 < g.dZ) (hz : g.nz ≤ 2) (k : ℕ) (hk : k < g.nz) (x : ℕ) : rollDz g.dagpPol x k = (0, 0) := by
  have h0 : 0 < g.nz := by omega
  have hp : 0 < (g.nz : K) * g.dZ := by
    have : (0 : K) < g.nz := by exact_mod_cast h0
    positivity
  have e : (k + g.nz - 1) % g.nz = (k + 1) % g.nz := by
    have : g.nz = 1 ∨ g.nz = 2 := by omega
    rcases this with h | h
    · rw [h, Nat.mod_one, Nat.mod_one]
    · rw [h]
      rfl
  refine Prod.ext ?_ ?_
  · exact wrapLz_mid _ _ _ (sub_self _) (by linarith) (by linarith)
  · change wrapLz (some ((g.nz : K) * g.dZ)) (g.dagpPol.Z x ((k + 1) % g.nz) - g.dagpPol.Z x ((k + g.nz - 1) % g.nz)) = 0
    rw [e]
    exact wrapLz_mid _ _ _ (sub_self _) (by linarith) (by linarith)

/-- The weight of an area in a cylinder. -/
def cylW (slab : Bool) (R : K) : K := if slab then 1 else R

/-- What the statement says: the coefficients of a rectangular grid are those of the five point stencil. -/
def RectCoefs (g : RectPol K) (sq : K → K) (n : ℕ) (slab : Bool) : Prop :=
  (∀ i k, i + 1 < g.nx → k < g.nz → coefX sq n slab g.dagpPol i k = .ok (some (cylW slab (g.Rmin + ((i : K) + 1 / 2) * g.dR) * g.dZ / g.dR, 0))) ∧
    ∀ i k, i + 2 < g.nx → k < g.nz → coefZ sq n slab g.dagpPol i k = .ok (some (0, cylW slab (g.Rmin + ((i : K) + 1) * g.dR) * g.dR / g.dZ))

/-- The square root is not zero for positive numbers. -/
def SqrtPos (sq : K → K) : Prop := ∀ a, 0 < a → sq a ≠ 0

theorem rect_faceX (g : RectPol K) (sq : K → K) (hsq : SqrtPos sq) (n : ℕ) (hn : 2 ≤ n) (slab : Bool) (hZ : 0 < g.dZ) (i k : ℕ) :
    faceVector sq slab rotX (xFace n g.dagpPol i k) = some (cylW slab (g.Rmin + ((i : K) + 1 / 2) * g.dR) * g.dZ, 0) := by
  have hsome : ∃ r, faceVector sq slab rotX (xFace n g.dagpPol i k) = some r := by
    unfold faceVector
    rw [if_neg]
    · exact ⟨_, rfl⟩
    · rw [List.any_eq_true]
      rintro ⟨s, hs, hz⟩
      have hz : pieceLength sq rotX s.1 s.2 = 0 := by simpa using hz
      obtain ⟨j, hj, rfl⟩ := List.getElem_of_mem hs
      rw [List.getElem_zip, List.getElem_tail] at hz
      unfold xFace at hz
      simp only [List.getElem_map] at hz
      rw [linspaceClosed_getElem _ _ _ _ hn, linspaceClosed_getElem _ _ _ _ hn] at hz
      refine hsq _ ?_ hz
      unfold rotX RectPol.dagpPol
      dsimp only
      have hn1 : (0 : K) < (n : K) - 1 := by
        have : (2 : K) ≤ n := by exact_mod_cast hn
        linarith
      have e : g.Zmin + ((k : K) - 1 / 2 + (0 + (j : K) * ((1 - 0) / ((n : K) - 1)))) * g.dZ - (g.Zmin + ((k : K) - 1 / 2 + (0 + ((j + 1 : ℕ) : K) * ((1 - 0) / ((n : K) - 1)))) * g.dZ)
          = -(g.dZ / ((n : K) - 1)) := by push_cast; ring
      rw [e]
      have : 0 < g.dZ / ((n : K) - 1) := by positivity
      have h2 : (0 : K) < (- -(g.dZ / ((n : K) - 1))) ^ 2 := by rw [neg_neg]; positivity
      have h3 : (0 : K) ≤ (g.Rmin + ((i : K) + 1 / 2) * g.dR - (g.Rmin + ((i : K) + 1 / 2) * g.dR)) ^ 2 := sq_nonneg _
      linarith
  obtain ⟨r, hr⟩ := hsome
  rw [hr]
  rw [xFace_line] at hr
  have he := xLine_ends n hn g.dagpPol ((i : K) + 1 / 2) k
  rw [xVector sq slab _ _ _ r he.1 he.2 hr, rect_xLine n hn]
  unfold cylW RectPol.dagpPol
  cases slab
  · simp
  · simp only [if_true]
    congr 2
    · ring
    · ring

theorem rect_faceZ (g : RectPol K) (sq : K → K) (hsq : SqrtPos sq) (n : ℕ) (hn : 2 ≤ n) (slab : Bool) (hR : g.dR ≠ 0) (i k : ℕ) :
    faceVector sq slab rotZ (zFace n g.dagpPol i k) = some (0, cylW slab (g.Rmin + ((i : K) + 1) * g.dR) * g.dR) := by
  have hsome : ∃ r, faceVector sq slab rotZ (zFace n g.dagpPol i k) = some r := by
    unfold faceVector
    rw [if_neg]
    · exact ⟨_, rfl⟩
    · rw [List.any_eq_true]
      rintro ⟨s, hs, hz⟩
      have hz : pieceLength sq rotZ s.1 s.2 = 0 := by simpa using hz
      obtain ⟨j, hj, rfl⟩ := List.getElem_of_mem hs
      rw [List.getElem_zip, List.getElem_tail] at hz
      unfold zFace at hz
      simp only [List.getElem_map] at hz
      rw [linspaceClosed_getElem _ _ _ _ hn, linspaceClosed_getElem _ _ _ _ hn] at hz
      refine hsq _ ?_ hz
      unfold rotZ RectPol.dagpPol
      dsimp only
      have hn1 : (0 : K) < (n : K) - 1 := by
        have : (2 : K) ≤ n := by exact_mod_cast hn
        linarith
      have e : g.Rmin + ((i : K) + 1 / 2 + (0 + (j : K) * ((1 - 0) / ((n : K) - 1)))) * g.dR - (g.Rmin + ((i : K) + 1 / 2 + (0 + ((j + 1 : ℕ) : K) * ((1 - 0) / ((n : K) - 1)))) * g.dR)
          = -(g.dR / ((n : K) - 1)) := by push_cast; ring
      rw [e]
      have : g.dR / ((n : K) - 1) ≠ 0 := div_ne_zero hR hn1.ne'
      have h2 : (0 : K) < (- -(g.dR / ((n : K) - 1))) ^ 2 := by rw [neg_neg]; positivity
      have h3 : (0 : K) ≤ (g.Zmin + ((k : K) + 1 / 2) * g.dZ - (g.Zmin + ((k : K) + 1 / 2) * g.dZ)) ^ 2 := sq_nonneg _
      linarith
  obtain ⟨r, hr⟩ := hsome
  rw [hr]
  rw [zFace_line] at hr
  have he := zLine_ends n hn g.dagpPol ((i : K) + 1) ((k : K) + 1 / 2)
  rw [zVector sq slab _ _ _ r he.1 he.2 hr, rect_zLine n hn]
  unfold cylW RectPol.dagpPol
  cases slab
  · simp only [Bool.false_eq_true, if_false]
    congr 2
    · ring
    · ring
  · simp only [if_true]
    congr 2
    · ring
    · ring

/-- **C155 (partial).** It is so with at least three points in z.  Missing: fewer points, for which the equations are singular (`C155_singular`, `C155_fails`). -/
theorem C155_coefs_partial (g : RectPol K) (sq : K → K) (hsq : SqrtPos sq) (n : ℕ) (hn : 2 ≤ n) (slab : Bool) (hR : g.dR ≠ 0) (hZ : 0 < g.dZ) (hz : 3 ≤ g.nz) :
    RectCoefs g sq n slab := by
  constructor
  · intro i k _ hk
    obtain ⟨d, hd, hr⟩ := rect_rollDz g hZ hz k hk
    unfold coefX
    rw [rect_faceX g sq hsq n hn slab hZ]
    unfold xFaceDx xFaceDz
    rw [hr, hr]
    unfold solve2 RectPol.dagpPol RectPol.pol
    dsimp only
    have e : g.Rmin + ((i + 1 : ℕ) : K) * g.dR - (g.Rmin + (i : K) * g.dR) = g.dR := by push_cast; ring
    rw [e, if_neg]
    · simp only [Option.map_some]
      congr 3
      · field_simp; ring
      · field_simp; ring
    · have : g.dR * (1 / 2 * (d + d)) - 1 / 2 * (0 + 0) * (g.Zmin + (k : K) * g.dZ - (g.Zmin + (k : K) * g.dZ)) = g.dR * d := by ring
      rw [this]
      exact mul_ne_zero hR hd
  · intro i k _ hk
    unfold coefZ
    rw [rect_faceZ g sq hsq n hn slab hR, rect_dz g hZ hz i k hk]
    unfold solve2 zFaceDx RectPol.dagpPol RectPol.pol
    dsimp only
    have e : g.Rmin + ((i + 2 : ℕ) : K) * g.dR - (g.Rmin + (i : K) * g.dR) = 2 * g.dR := by push_cast; ring
    rw [e, if_neg]
    · simp only [Option.map_some]
      congr 3
      · field_simp; ring
      · field_simp; ring
    · have : 1 / 2 * (2 * g.dR + 2 * g.dR) * g.dZ - 0 * (1 / 2 * (g.Zmin + (((k + 1) % g.nz : ℕ) : K) * g.dZ - (g.Zmin + (((k + 1) % g.nz : ℕ) : K) * g.dZ) + (g.Zmin + (k : K) * g.dZ - (g.Zmin + (k : K) * g.dZ)))) = 2 * (g.dR * g.dZ) := by ring
      rw [this]
      exact mul_ne_zero two_ne_zero (mul_ne_zero hR hZ.ne')

/-- **C155.** Then the discrete Laplacian of any function is that of the five point stencil. -/
theorem C155_stencil (g : RectPol K) (sq : K → K) (hsq : SqrtPos sq) (n : ℕ) (hn : 2 ≤ n) (hR : g.dR ≠ 0) (hZ : 0 < g.dZ) (hz : 3 ≤ g.nz) (f : ℕ → ℕ → K) (mem : ℕ → ℕ → K)
    (x k : ℕ) (h1 : 1 ≤ x) (h2 : x + 1 < g.nx) (hk : k < g.nz) :
    dagpResult g.nx g.nz (fun i k => coefOf (coefX sq n true g.dagpPol i k)) (fun i k => coefOf (coefZ sq n true g.dagpPol i k)) f x k / dagpVolume n true g.dagpPol mem x k =
      (f (x + 1) k - 2 * f x k + f (x - 1) k) / g.dR ^ 2 + (f x ((k + 1) % g.nz) - 2 * f x k + f x ((k + g.nz - 1) % g.nz)) / g.dZ ^ 2 := by
  have hc := C155_coefs_partial g sq hsq n hn true hR hZ hz
  have hk2 : (k + g.nz - 1) % g.nz < g.nz := Nat.mod_lt _ (by omega)
  have hback : ((k + g.nz - 1) % g.nz + 1) % g.nz = k := by
    rcases Nat.eq_zero_or_pos k with h0 | h0
    · subst h0
      rw [show 0 + g.nz - 1 = g.nz - 1 by omega, Nat.mod_eq_of_lt (show g.nz - 1 < g.nz by omega), show g.nz - 1 + 1 = g.nz by omega, Nat.mod_self]
    · rw [show k + g.nz - 1 = (k - 1) + g.nz by omega, Nat.add_mod_right, Nat.mod_eq_of_lt (show k - 1 < g.nz by omega), show k - 1 + 1 = k by omega, Nat.mod_eq_of_lt hk]
  rw [C83_volume n hn true g mem x k h1 h2]
  unfold dagpResult
  rw [if_pos h2, if_pos h1, if_pos ⟨h1, h2⟩]
  unfold fluxX fluxZ
  dsimp only
  rw [hc.1 x k h2 hk, hc.1 (x - 1) k (by omega) hk, hc.2 (x - 1) k (by omega) hk, hc.2 (x - 1) _ (by omega) hk2, hback]
  unfold coefOf cylW
  rw [show x - 1 + 1 = x by omega]
  simp only [if_true]
  have := hZ.ne'
  field_simp
  ring

/-- **C155.** With one or two points in z the stencils are singular. -/
theorem C155_singular (g : RectPol K) (sq : K → K) (n : ℕ) (slab : Bool) (hZ : 0 < g.dZ) (hz : g.nz ≤ 2) (i k : ℕ) (hk : k < g.nz) :
    coefX sq n slab g.dagpPol i k = .error (.runtime "LinAlgError: Singular matrix") := by
  unfold coefX xFaceDz solve2
  rw [rect_rollDz_zero g hZ hz k hk, rect_rollDz_zero g hZ hz k hk]
  dsimp only
  rw [if_pos (by ring)]

/-- **C155.** So the coefficients are those of the five point stencil exactly for grids with three or more points in z. -/
theorem C155_iff (g : RectPol K) (sq : K → K) (hsq : SqrtPos sq) (n : ℕ) (hn : 2 ≤ n) (slab : Bool) (hR : g.dR ≠ 0) (hZ : 0 < g.dZ) (hx : 2 ≤ g.nx) (h0 : 0 < g.nz) :
    RectCoefs g sq n slab ↔ 3 ≤ g.nz := by
  refine ⟨fun h => ?_, C155_coefs_partial g sq hsq n hn slab hR hZ⟩
  by_contra hc
  have := h.1 0 0 (by omega) h0
  rw [C155_singular g sq n slab hZ (by omega) 0 0 h0] at this
  cases this

/-- **C155 (refutation).** -/
theorem C155_fails : ¬ ∀ (g : RectPol ℚ) (sq : ℚ → ℚ) (_ : SqrtPos sq) (n : ℕ) (_ : 2 ≤ n) (slab : Bool), g.dR ≠ 0 → 0 < g.dZ → 0 < g.nz → RectCoefs g sq n slab := by
  intro h
  have := (C155_iff (⟨4, 2, 1, 1, 0, 0⟩ : RectPol ℚ) (fun a => a) (fun a ha => ha.ne') 2 le_rfl true one_ne_zero one_pos (by norm_num) (by norm_num)).1
    (h _ _ (fun a ha => ha.ne') 2 le_rfl true one_ne_zero one_pos (by norm_num))
  norm_num at this

/-! ### C84: grids with `Lz` -/

/-- The difference in R between two points of a row is not changed by the wrap. -/
def NoWrapR (g : DagpPol K) (x p m : ℕ) : Prop := wrapLz g.Lz (g.R x p - g.R x m) = g.R x p - g.R x m

theorem rect_noWrapR (g : RectPol K) (hZ : 0 < g.dZ) (x p m : ℕ) : NoWrapR g.dagpPol x p m := by
  have hp : 0 ≤ (g.nz : K) * g.dZ := by positivity
  have e : g.dagpPol.R x p - g.dagpPol.R x m = 0 := sub_self _
  unfold NoWrapR
  rw [e]
  exact wrapLz_mid _ _ _ rfl (by linarith) (by linarith)

/-- **C84 (partial).** Functions of R alone, the only linear functions that are periodic in Z: all fluxes are exact, also across the end of a grid with `Lz`.  The other linear
functions have a jump there (`C84_fails`). -/
theorem C84_radial_partial (sq : K → K) (n : ℕ) (slab : Bool) (g : DagpPol K) (hw : ∀ x p m, NoWrapR g x p m) (a b : K) (v r : K × K) (cs : ℕ → ℕ → K × K) (i k : ℕ) (hc : cs i k = v) :
    (coefX sq n slab g i k = .ok (some v) → faceVector sq slab rotX (xFace n g i k) = some r → fluxX g.nz cs (linearOn g a b 0) i k = b * r.1) ∧
      (coefZ sq n slab g i k = .ok (some v) → faceVector sq slab rotZ (zFace n g i k) = some r → fluxZ g.nz cs (linearOn g a b 0) i k = b * r.1) := by
  constructor
  · intro h hr
    obtain ⟨r', hr', hs⟩ := coefX_vector sq n slab g i k v h
    rw [hr] at hr'
    cases hr'
    unfold fluxX
    rw [hc, ← add_zero (b * r.1), ← zero_mul r.2]
    refine C84_solve _ _ r v b 0 _ _ hs ?_ ?_
    · unfold linearOn xFaceDx; dsimp only; ring
    · unfold linearOn xFaceDz rollDz
      dsimp only
      rw [hw, hw]
      ring
  · intro h hr
    obtain ⟨r', hr', hs⟩ := coefZ_vector sq n slab g i k v h
    rw [hr] at hr'
    cases hr'
    unfold fluxZ
    rw [hc, ← add_zero (b * r.1), ← zero_mul r.2]
    refine C84_solve _ _ r v b 0 _ _ hs ?_ ?_
    · unfold linearOn zFaceDx; dsimp only; ring
    · unfold linearOn zFaceDz
      dsimp only
      rw [hw]
      ring

/-- **C84.** Across the end of a rectangular grid the flux of a linear function is that of its values on the grid, which jump by `c Lz`. -/
theorem C84_end (g : RectPol K) (sq : K → K) (hsq : SqrtPos sq) (n : ℕ) (hn : 2 ≤ n) (slab : Bool) (hR : g.dR ≠ 0) (hZ : 0 < g.dZ) (hz : 3 ≤ g.nz) (i : ℕ) (hi : i + 2 < g.nx)
    (a b c : K) (r : K × K) (hr : faceVector sq slab rotZ (zFace n g.dagpPol i (g.nz - 1)) = some r) :
    fluxZ g.nz (fun i k => coefOf (coefZ sq n slab g.dagpPol i k)) (linearOn g.dagpPol a b c) i (g.nz - 1) = (b * r.1 + c * r.2) * (1 - (g.nz : K)) := by
  rw [rect_faceZ g sq hsq n hn slab hR] at hr
  cases hr
  unfold fluxZ
  dsimp only
  rw [(C155_coefs_partial g sq hsq n hn slab hR hZ hz).2 i (g.nz - 1) hi (by omega), show g.nz - 1 + 1 = g.nz by omega, Nat.mod_self]
  unfold coefOf linearOn RectPol.dagpPol RectPol.pol
  dsimp only
  rw [Nat.cast_sub (by omega)]
  have := hZ.ne'
  field_simp
  push_cast
  ring

/-- What the statement says about the Z faces. -/
def FluxExact (g : DagpPol K) (sq : K → K) (n : ℕ) (slab : Bool) : Prop :=
  ∀ i k, i + 2 < g.nx → k < g.nz → ∀ r, faceVector sq slab rotZ (zFace n g i k) = some r → ∀ a b c : K,
    fluxZ g.nz (fun i k => coefOf (coefZ sq n slab g i k)) (linearOn g a b c) i k = b * r.1 + c * r.2

/-- **C84 (refutation).** As stated it is false for every rectangular grid, since the grid is periodic in Z and linear functions are not. -/
theorem C84_fails (g : RectPol K) (sq : K → K) (hsq : SqrtPos sq) (n : ℕ) (hn : 2 ≤ n) (slab : Bool) (hR : 0 < g.dR) (hm : 0 ≤ g.Rmin) (hZ : 0 < g.dZ) (hz : 3 ≤ g.nz) (hx : 3 ≤ g.nx) :
    ¬ FluxExact g.dagpPol sq n slab := by
  intro h
  have hr := rect_faceZ g sq hsq n hn slab hR.ne' 0 (g.nz - 1)
  have h1 := h 0 (g.nz - 1) hx (show g.nz - 1 < g.nz by omega) _ hr 0 0 1
  have h2 : fluxZ g.nz _ (linearOn g.dagpPol 0 0 1) 0 (g.nz - 1) = _ := C84_end g sq hsq n hn slab hR.ne' hZ hz 0 hx 0 0 1 _ hr
  have h3 := h2.symm.trans h1
  have hn : (3 : K) ≤ g.nz := by exact_mod_cast hz
  have h4 : 0 < cylW slab (g.Rmin + (((0 : ℕ) : K) + 1) * g.dR) * g.dR := by
    refine mul_pos ?_ hR
    unfold cylW
    split_ifs
    · exact one_pos
    · push_cast
      linarith
  have h5 : (g.nz : K) * (cylW slab (g.Rmin + (((0 : ℕ) : K) + 1) * g.dR) * g.dR) = 0 := by
    simp only [zero_mul, zero_add, one_mul] at h3 ⊢
    linear_combination -h3
  exact (mul_pos (by linarith : (0 : K) < g.nz) h4).ne' h5

/-! ### C156: several grids -/

theorem foldl_bind_ok {α : Type} (t : α → Except Err Unit) : ∀ (l : List α) (r : Except Err Unit) (u : Unit), l.foldl (fun (r : Except Err Unit) a => r.bind fun _ => t a) r = .ok u →
    r = .ok () ∧ ∀ a ∈ l, t a = .ok ()
  | [], r, u, h => ⟨h, fun a ha => by cases ha⟩
  | a :: l, r, u, h => by
    obtain ⟨h1, h2⟩ := foldl_bind_ok t l _ u h
    cases r with
    | error e => cases h1
    | ok v =>
      refine ⟨rfl, fun b hb => ?_⟩
      rcases List.mem_cons.mp hb with rfl | hb
      · exact h1
      · exact h2 b hb

theorem allOk_ok {α : Type} (nx nz : ℕ) (a : ℕ → ℕ → Except Err α) (u : Unit) (h : allOk nx nz a = .ok u) (i k : ℕ) (hi : i < nx) (hk : k < nz) : ∃ v, a i k = .ok v := by
  have hin : ∀ (l : List ℕ) (r : Except Err Unit) (u : Unit), l.foldl (fun (r : Except Err Unit) i => (List.range nz).foldl (fun (r : Except Err Unit) k => r.bind fun _ => (a i k).map fun _ => ()) r) r = .ok u →
      r = .ok () ∧ ∀ i ∈ l, ∀ k < nz, ∃ v, a i k = .ok v := by
    intro l
    induction l with
    | nil => intro r u h; exact ⟨h, fun i hi => by cases hi⟩
    | cons j l ih =>
      intro r u h
      obtain ⟨h1, h2⟩ := ih _ u h
      obtain ⟨h3, h4⟩ := foldl_bind_ok (fun k => (a j k).map fun _ => ()) (List.range nz) r () h1
      refine ⟨h3, fun i hi k hk => ?_⟩
      rcases List.mem_cons.mp hi with rfl | hi
      · have := h4 k (List.mem_range.mpr hk)
        cases hv : a i k with
        | error e => rw [hv] at this; cases this
        | ok v => exact ⟨v, rfl⟩
      · exact h2 i hi k hk
  exact (hin (List.range nx) _ u h).2 i (List.mem_range.mpr hi) k hk

theorem getSame_ok {α : Type} [DecidableEq α] (l : List α) (v : α) (h : getSame l = .ok v) : l ≠ [] ∧ ∀ a ∈ l, a = v := by
  cases l with
  | nil => cases h
  | cons a l =>
    unfold getSame at h
    dsimp only at h
    split_ifs at h with ha
    cases h
    refine ⟨by simp, fun b hb => ?_⟩
    rcases List.mem_cons.mp hb with rfl | hb
    · rfl
    · rw [List.all_eq_true] at ha
      simpa using ha b hb

/-- **C156.** If `doit` returns, the grids all have the same size with at least four points in x, they agree on `Lz`, no stencil is singular, and the result has the coefficients of each grid. -/
theorem C156_doit (sq : K → K) (slab : Bool) (mem : ℕ → ℕ → ℕ → K) (pols : List (DagpPol K)) (out : List (DagpOut K)) (h : dagpDoit sq slab mem pols = .ok out) :
    (∃ nx nz Lz, 4 ≤ nx ∧ ∀ g ∈ pols, g.nx = nx ∧ g.nz = nz ∧ g.Lz = Lz) ∧ out.length = pols.length ∧ pols ≠ [] ∧
      (∀ g ∈ pols, ∀ k < g.nz, (∀ i, i + 1 < g.nx → ∃ v, coefX sq 12 slab g i k = .ok v) ∧ ∀ i, i + 2 < g.nx → ∃ v, coefZ sq 12 slab g i k = .ok v) ∧
      ∀ j (hj : j < pols.length), out[j]? = some (dagpOut sq slab (mem j) pols[j]) := by
  unfold dagpDoit at h
  cases hL : dagpLz pols with
  | error e => rw [hL] at h; cases h
  | ok Lz =>
    rw [hL] at h
    change (getSame (pols.map fun p => (p.nx, p.nz))).bind _ = _ at h
    cases hs : getSame (pols.map fun p => (p.nx, p.nz)) with
    | error e => rw [hs] at h; cases h
    | ok s =>
      rw [hs] at h
      simp only [Except.bind] at h
      by_cases h3 : s.1 - 1 > 2
      · rw [if_neg (not_not.mpr h3)] at h
        cases hx : pols.foldl (fun (r : Except Err Unit) g => r.bind fun _ => allOk (g.nx - 1) g.nz (coefX sq 12 slab g)) (Except.ok ()) with
        | error e => simp only [Except.bind] at hx; rw [hx] at h; cases h
        | ok u =>
          have hx2 := foldl_bind_ok (fun g => allOk (g.nx - 1) g.nz (coefX sq 12 slab g)) pols _ u hx
          simp only [Except.bind] at hx
          rw [hx] at h
          dsimp only at h
          cases hz : pols.foldl (fun (r : Except Err Unit) g => r.bind fun _ => allOk (g.nx - 2) g.nz (coefZ sq 12 slab g)) (Except.ok ()) with
          | error e => simp only [Except.bind] at hz; rw [hz] at h; cases h
          | ok u2 =>
            have hz2 := foldl_bind_ok (fun g => allOk (g.nx - 2) g.nz (coefZ sq 12 slab g)) pols _ u2 hz
            simp only [Except.bind] at hz
            rw [hz] at h
            cases h
            obtain ⟨hne, hall⟩ := getSame_ok _ _ hs
            refine ⟨⟨s.1, s.2, Lz, by omega, fun g hg => ?_⟩, by simp, by simpa using hne, fun g hg k hk => ⟨fun i hi => ?_, fun i hi => ?_⟩, fun j hj => ?_⟩
            · have h1 := hall (g.nx, g.nz) (List.mem_map.mpr ⟨g, hg, rfl⟩)
              refine ⟨by rw [← h1], by rw [← h1], ?_⟩
              unfold dagpLz at hL
              cases hb : getSame (pols.map fun p => p.Lz.isSome) with
              | error e => rw [hb] at hL; cases hL
              | ok b =>
                rw [hb] at hL
                have hb2 := (getSame_ok _ _ hb).2 g.Lz.isSome (List.mem_map.mpr ⟨g, hg, rfl⟩)
                cases b with
                | false =>
                  cases hL
                  cases hg2 : g.Lz with
                  | none => rfl
                  | some v => rw [hg2] at hb2; cases hb2
                | true =>
                  change (getSame (pols.map fun p => p.Lz.getD 0)).map some = _ at hL
                  cases hc : getSame (pols.map fun p => p.Lz.getD 0) with
                  | error e => rw [hc] at hL; cases hL
                  | ok c =>
                    rw [hc] at hL
                    cases hL
                    have hc2 := (getSame_ok _ _ hc).2 (g.Lz.getD 0) (List.mem_map.mpr ⟨g, hg, rfl⟩)
                    cases hg2 : g.Lz with
                    | none => rw [hg2] at hb2; cases hb2
                    | some v => rw [hg2] at hc2; exact congrArg some hc2
            · exact allOk_ok _ _ _ () (hx2.2 g hg) i k (by omega) hk
            · exact allOk_ok _ _ _ () (hz2.2 g hg) i k (by omega) hk
            · simp [hj]
      · rw [if_pos h3] at h; cases h

/-! ### Examples -/

/-- A wave with period 8. -/
def exWave (z : ℚ) : ℚ := |8 * Int.fract (z / 8) - 4| - 2

/-- Nested squares; one turn has eight points. -/
def exSquares : DagpPol ℚ :=
  ⟨4, 8, fun x z => (10 + (x + 1) * exWave z, (x + 1) * exWave (z + 2)), fun x z => 10 + ((x : ℚ) + 1) * exWave z, fun x z => ((x : ℚ) + 1) * exWave ((z : ℚ) + 2), none⟩

theorem exWave_turn (z : ℚ) : exWave (z + 8) = exWave z := by
  unfold exWave
  rw [show (z + 8) / 8 = z / 8 + 1 by ring, Int.fract_add_one]

theorem exSquares_turn : ZTurn exSquares := by
  refine ⟨0, fun x z => ?_⟩
  unfold exSquares
  dsimp only
  rw [show z + ((8 : ℕ) : ℚ) = z + 8 by norm_num, exWave_turn, show z + 8 + 2 = z + 2 + 8 by ring, exWave_turn, add_zero]

theorem coefOf_some (c : Except Err (Option (ℚ × ℚ))) (h : (match c with | .ok (some _) => true | _ => false) = true) : c = .ok (some (coefOf c)) := by
  match c, h with
  | .ok (some r), _ => rfl

-- C84: a grid with bent faces meets the hypotheses, in a slab and in a cylinder.
example (slab : Bool) (a b c : ℚ) (mem : ℕ → ℕ → ℚ) : dagpResult 4 8 (fun i k => coefOf (coefX id 4 slab exSquares i k)) (fun i k => coefOf (coefZ id 4 slab exSquares i k))
    (linearOn exSquares a b c) 1 3 = if slab then 0 else b * dagpVolume 4 true exSquares mem 1 3 := by
  refine C84_laplacian id 4 (by norm_num) slab exSquares exSquares_turn mem 1 3 (by decide) (by decide) (by decide) (fun _ _ _ _ => noWrap_none _ rfl _ _ _) _ _ (fun i hi => ?_) (fun k hk => ?_) a b c
  · have hi : i < 3 := by have : i + 1 < 4 := hi; omega
    refine coefOf_some _ ?_
    have : ∀ slab : Bool, ∀ i < 3, (match coefX id 4 slab exSquares i 3 with | .ok (some _) => true | _ => false) = true := by decide +kernel
    exact this slab i hi
  · have hk : k < 8 := hk
    refine coefOf_some _ ?_
    have : ∀ slab : Bool, ∀ k < 8, (match coefZ id 4 slab exSquares 0 k with | .ok (some _) => true | _ => false) = true := by decide +kernel
    exact this slab k hk

example : dagpVolume 4 true exSquares (fun _ _ => 0) 1 3 ≠ 0 := by decide +kernel

example : (coefX id 4 true exSquares 1 3).toOption ≠ some (some (0, 0)) := by decide +kernel

-- C84, across the end: the hypotheses are met by a rectangular grid with three points in z.
example (a b : ℚ) : fluxX 3 (fun i k => coefOf (coefX id 4 false (RectPol.dagpPol ⟨5, 3, 1 / 2, 1 / 4, 3, 0⟩) i k)) (linearOn (RectPol.dagpPol ⟨5, 3, 1 / 2, 1 / 4, 3, 0⟩) a b 0) 1 2 = b * (15 / 16) := by
  have hr := rect_faceX (⟨5, 3, 1 / 2, 1 / 4, 3, 0⟩ : RectPol ℚ) id (fun _ ha => ha.ne') 4 (by norm_num) false (by norm_num) 1 2
  have hc := (C155_coefs_partial (⟨5, 3, 1 / 2, 1 / 4, 3, 0⟩ : RectPol ℚ) id (fun _ ha => ha.ne') 4 (by norm_num) false (by norm_num) (by norm_num) (by norm_num)).1 1 2 (by norm_num) (by norm_num)
  have h := (C84_radial_partial id 4 false _ (rect_noWrapR (⟨5, 3, 1 / 2, 1 / 4, 3, 0⟩ : RectPol ℚ) (by norm_num)) a b _ _
    (fun i k => coefOf (coefX id 4 false (RectPol.dagpPol ⟨5, 3, 1 / 2, 1 / 4, 3, 0⟩) i k)) 1 2 rfl).1 (by rw [hc]; rfl) hr
  refine h.trans ?_
  norm_num [cylW]

example (sq : ℚ → ℚ) (hsq : SqrtPos sq) : ¬ FluxExact (RectPol.dagpPol ⟨5, 3, 1 / 2, 1 / 4, 3, 0⟩) sq 12 false :=
  C84_fails _ sq hsq 12 (by norm_num) false (by norm_num) (by norm_num) (by norm_num) (by norm_num) (by norm_num)

-- C83, C154, C155
example : dagpVolume 12 false (RectPol.dagpPol ⟨5, 6, 1 / 2, 1 / 4, 3, 0⟩) (fun _ _ => 0) 2 1 = (4 * (1 / 2) * (1 / 4) : ℚ) := by
  rw [C83_volume 12 (by norm_num) false ⟨5, 6, 1 / 2, 1 / 4, 3, 0⟩ _ 2 1 (by norm_num) (by norm_num)]
  norm_num [RectPol.pol]

example : RectCoefs (⟨5, 6, 1 / 2, 1 / 4, 3, 0⟩ : RectPol ℚ) id 4 false :=
  C155_coefs_partial _ id (fun _ ha => ha.ne') 4 (by norm_num) false (by norm_num) (by norm_num) (by norm_num)

example (mem : ℕ → ℕ → ℚ) : ∑ x ∈ range 2, ∑ k ∈ range 8, dagpVolume 4 false exSquares mem (x + 1) k =
    ∑ k ∈ range 8, (pieceSum (dagpArea false) (xFace 4 exSquares 2 k) - pieceSum (dagpArea false) (xFace 4 exSquares 0 k)) :=
  C154_total 4 (by norm_num) false exSquares exSquares_turn mem 2 rfl

-- C156
example : (dagpDoit id true (fun _ _ _ => 0) [exSquares, exSquares]).toBool = true := by decide +kernel

-- C86
example : (fixup 0 4 [1, 2, 3]).toOption = some [1, 2, 3, 0] ∧ (fixup 0 5 [1, 2, 3]).toOption = some [0, 1, 2, 3, 0] := by decide

end Zoidberg
