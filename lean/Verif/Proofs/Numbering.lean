import Verif.Prelude.Basic
import Mathlib.Data.Set.Function
import Mathlib.Data.List.Basic
import Mathlib.Data.List.Nodup
import Mathlib.Data.List.FinRange
import Mathlib.Tactic.Positivity

/-! Generic lemmas on consecutive numbering loops and nested index loops. -/

namespace Zoidberg

section number
variable {α : Type*} [DecidableEq α]

/-- Generic numbering loop. -/
def numberKeys (L : List α) (s : (α → ℤ) × ℕ) : (α → ℤ) × ℕ :=
  L.foldl (fun s k => (Function.update s.1 k (s.2 : ℤ), s.2 + 1)) s

@[simp] theorem numberKeys_nil (s : (α → ℤ) × ℕ) : numberKeys [] s = s := rfl

theorem numberKeys_cons (k : α) (L : List α) (s : (α → ℤ) × ℕ) :
    numberKeys (k :: L) s = numberKeys L (Function.update s.1 k (s.2 : ℤ), s.2 + 1) := rfl

theorem numberKeys_append (L M : List α) (s : (α → ℤ) × ℕ) :
    numberKeys (L ++ M) s = numberKeys M (numberKeys L s) := by
  simp [numberKeys]

theorem numberKeys_snd (L : List α) (s : (α → ℤ) × ℕ) :
    (numberKeys L s).2 = s.2 + L.length := by
  induction L generalizing s with
  | nil => simp
  | cons k L ih => rw [numberKeys_cons, ih]; simp; omega

theorem numberKeys_not_mem (L : List α) (s : (α → ℤ) × ℕ) (k : α) (h : k ∉ L) :
    (numberKeys L s).1 k = s.1 k := by
  induction L generalizing s with
  | nil => rfl
  | cons a L ih =>
    simp only [List.mem_cons, not_or] at h
    rw [numberKeys_cons, ih _ h.2]
    simp [Function.update_of_ne h.1]

theorem numberKeys_getElem (L : List α) (hL : L.Nodup) (s : (α → ℤ) × ℕ) (i : ℕ)
    (h : i < L.length) : (numberKeys L s).1 L[i] = (s.2 : ℤ) + i := by
  induction L generalizing s i with
  | nil => simp at h
  | cons a L ih =>
    rw [List.nodup_cons] at hL
    rw [numberKeys_cons]
    cases i with
    | zero => simp [numberKeys_not_mem _ _ _ hL.1]
    | succ i =>
      simp only [List.getElem_cons_succ]
      rw [ih hL.2]
      push_cast; ring

/-- A numbering of the elements of a duplicate free list by their position is a
bijection onto an initial segment. -/
theorem bijOn_of_list {β : Type*} (L : List β) (f : β → ℤ) (n : ℕ)
    (hn : n = L.length)
    (hf : ∀ i (h : i < L.length), f L[i] = i)
    (S : Set β) (hS : ∀ b, b ∈ S ↔ b ∈ L) :
    Set.BijOn f S {k | 0 ≤ k ∧ k < (n : ℤ)} := by
  refine ⟨?_, ?_, ?_⟩
  · intro b hb
    obtain ⟨i, hi, rfl⟩ := List.getElem_of_mem ((hS b).1 hb)
    simp only [Set.mem_ofPred_eq, hf i hi]; omega
  · intro a ha b hb hab
    obtain ⟨i, hi, rfl⟩ := List.getElem_of_mem ((hS a).1 ha)
    obtain ⟨j, hj, rfl⟩ := List.getElem_of_mem ((hS b).1 hb)
    rw [hf i hi, hf j hj] at hab
    have : i = j := by omega
    subst this; rfl
  · rintro k ⟨h0, h1⟩
    have hi : k.toNat < L.length := by omega
    refine ⟨L[k.toNat], (hS _).2 (List.getElem_mem hi), ?_⟩
    rw [hf _ hi]; omega

end number

section loops

theorem mem_pyRange {a b x : ℕ} : x ∈ pyRange a b ↔ a ≤ x ∧ x < b := by
  simp only [pyRange, List.mem_range'_1]; omega

theorem nodup_pyRange (a b : ℕ) : (pyRange a b).Nodup := by
  simp [pyRange, List.nodup_range']

theorem length_pyRange (a b : ℕ) : (pyRange a b).length = b - a := by
  simp [pyRange]

theorem getElem?_pyRange (a b i : ℕ) (h : i < b - a) : (pyRange a b)[i]? = some (a + i) := by
  simp [pyRange, h]

theorem mem_loop3 {x0 x1 ny nz : ℕ} {c : Cell} :
    c ∈ loop3 x0 x1 ny nz ↔ (x0 ≤ c.1 ∧ c.1 < x1) ∧ c.2.1 < ny ∧ c.2.2 < nz := by
  obtain ⟨x, y, z⟩ := c
  simp only [loop3, List.mem_flatMap, List.mem_map, mem_pyRange, Prod.mk.injEq]
  constructor
  · rintro ⟨a, ha, b, hb, d, hd, rfl, rfl, rfl⟩
    exact ⟨ha, hb.2, hd.2⟩
  · rintro ⟨h1, h2, h3⟩
    exact ⟨x, h1, y, ⟨Nat.zero_le _, h2⟩, z, ⟨Nat.zero_le _, h3⟩, rfl, rfl, rfl⟩

theorem nodup_loop3 (x0 x1 ny nz : ℕ) : (loop3 x0 x1 ny nz).Nodup := by
  unfold loop3
  rw [List.nodup_flatMap]
  refine ⟨fun x _ => ?_, ?_⟩
  · rw [List.nodup_flatMap]
    refine ⟨fun y _ => ?_, ?_⟩
    · refine (nodup_pyRange 0 nz).map ?_
      intro a b h; simpa using h
    · refine (nodup_pyRange 0 ny).imp ?_
      intro a b hab
      simp only [Function.onFun, List.disjoint_left, List.mem_map]
      rintro c ⟨z, _, rfl⟩ ⟨z', _, h⟩
      simp only [Prod.mk.injEq] at h
      exact hab h.2.1.symm
  · refine (nodup_pyRange x0 x1).imp ?_
    intro a b hab
    simp only [Function.onFun, List.disjoint_left, List.mem_flatMap, List.mem_map]
    rintro c ⟨y, _, z, _, rfl⟩ ⟨y', _, z', _, h⟩
    simp only [Prod.mk.injEq] at h
    exact hab h.1.symm

/-- Element `i*m+j` of a concatenation of lists of length `m`. -/
theorem getElem?_flatMap_const {α β : Type*} (L : List α) (f : α → List β) (m : ℕ)
    (hf : ∀ a ∈ L, (f a).length = m) (i j : ℕ) (hj : j < m) :
    (L.flatMap f)[i * m + j]? = L[i]?.bind (fun a => (f a)[j]?) := by
  induction L generalizing i with
  | nil => simp
  | cons a L ih =>
    have ha : (f a).length = m := hf a (by simp)
    cases i with
    | zero =>
      simp only [List.flatMap_cons, Nat.zero_mul, Nat.zero_add]
      rw [List.getElem?_append_left (by omega)]
      simp
    | succ i =>
      simp only [List.flatMap_cons]
      have h1 : (i + 1) * m + j = (f a).length + (i * m + j) := by
        rw [ha]; ring
      rw [h1, List.getElem?_append_right (by omega), Nat.add_sub_cancel_left,
        ih (fun a h => hf a (by simp [h]))]
      simp

theorem length_flatMap_const {α β : Type*} (L : List α) (f : α → List β) (m : ℕ)
    (hf : ∀ a ∈ L, (f a).length = m) : (L.flatMap f).length = L.length * m := by
  induction L with
  | nil => simp
  | cons a L ih =>
    simp only [List.flatMap_cons, List.length_append, hf a (by simp), List.length_cons,
      ih (fun a h => hf a (by simp [h]))]
    ring

theorem length_loop3 (x0 x1 ny nz : ℕ) : (loop3 x0 x1 ny nz).length = (x1 - x0) * (ny * nz) := by
  unfold loop3
  rw [length_flatMap_const _ _ (ny * nz), length_pyRange]
  intro a _
  rw [length_flatMap_const _ _ nz, length_pyRange]
  · simp
  · intro b _; simp [length_pyRange]

theorem getElem?_loop3 (x0 x1 ny nz x y z : ℕ) (hx0 : x0 ≤ x) (hx : x < x1) (hy : y < ny)
    (hz : z < nz) :
    (loop3 x0 x1 ny nz)[((x - x0) * ny + y) * nz + z]? = some (x, y, z) := by
  unfold loop3
  have h1 : ((x - x0) * ny + y) * nz + z = (x - x0) * (ny * nz) + (y * nz + z) := by ring
  rw [h1, getElem?_flatMap_const _ _ (ny * nz)]
  · rw [getElem?_pyRange _ _ _ (by omega)]
    simp only [Option.bind_some]
    rw [getElem?_flatMap_const _ _ nz _ _ _ hz, getElem?_pyRange _ _ _ (by omega)]
    · simp only [Option.bind_some, List.getElem?_map]
      rw [getElem?_pyRange _ _ _ (by omega)]
      simp; omega
    · intro b _; simp [length_pyRange]
  · intro a _
    rw [length_flatMap_const _ _ nz, length_pyRange]
    · simp
    · intro b _; simp [length_pyRange]
  · calc y * nz + z < y * nz + nz := by omega
      _ = (y + 1) * nz := by ring
      _ ≤ ny * nz := Nat.mul_le_mul_right _ hy

end loops

end Zoidberg
