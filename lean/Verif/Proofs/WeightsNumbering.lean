import Verif.Spec.Weights
import Verif.Proofs.Numbering

/-! Numbering loops of `weights.py`. -/

set_option linter.unusedSectionVars false

namespace Zoidberg.Weights

variable {K : Type} [Field K] [LinearOrder K] [FloorRing K]

theorem foldl_numberCell (L : List Cell) (s : (Cell → ℤ) × ℕ) :
    L.foldl numberCell s = numberKeys L s := rfl

/-- All grid cells in the order in which they are numbered. -/
def cellOrder (nx ny nz mxg : ℕ) : List Cell :=
  loop3 mxg (nx - mxg) ny nz ++ loop3 0 mxg ny nz ++ loop3 (nx - mxg) nx ny nz

theorem mem_cellOrder {nx ny nz mxg : ℕ} (h : 2 * mxg ≤ nx) {c : Cell} :
    c ∈ cellOrder nx ny nz mxg ↔ c.1 < nx ∧ c.2.1 < ny ∧ c.2.2 < nz := by
  simp only [cellOrder, List.mem_append, mem_loop3]
  omega

theorem nodup_cellOrder {nx ny nz mxg : ℕ} (h : 2 * mxg ≤ nx) :
    (cellOrder nx ny nz mxg).Nodup := by
  unfold cellOrder
  rw [List.nodup_append', List.nodup_append']
  refine ⟨⟨nodup_loop3 .., nodup_loop3 .., ?_⟩, nodup_loop3 .., ?_⟩
  · intro c h1 h2
    rw [mem_loop3] at h1 h2; omega
  · intro c h1 h2
    rw [List.mem_append, mem_loop3, mem_loop3] at h1
    rw [mem_loop3] at h2; omega

theorem length_cellOrder {nx ny nz mxg : ℕ} (h : 2 * mxg ≤ nx) :
    (cellOrder nx ny nz mxg).length = nx * (ny * nz) := by
  simp only [cellOrder, List.length_append, length_loop3]
  rw [← Nat.add_mul, ← Nat.add_mul]
  congr 1
  omega

/-- The keys that one cell contributes in a loop numbering two arrays. -/
def twoKeys {β : Type} (p q : Cell → Bool) (a b : β) (c : Cell) : List (β × Cell) :=
  (if p c then [(a, c)] else []) ++ (if q c then [(b, c)] else [])

/-- The backward and forward test of the boundary loop. -/
def anyHit (nx mxg : ℕ) (a : SubArr K) (c : Cell) : Bool :=
  ((a.row c).map (fun v => hits v nx mxg)).any id

theorem numberBoundary_eq (nx mxg : ℕ) (bx fx : SubArr K) (s : BndState) (c : Cell) :
    numberBoundary nx mxg bx fx s c =
      let s := if anyHit nx mxg bx c then
          { s with bwd := Function.update s.bwd c (s.next : ℤ), next := s.next + 1 } else s
      if anyHit nx mxg fx c then
        { s with fwd := Function.update s.fwd c (s.next : ℤ), next := s.next + 1 } else s := rfl

theorem foldl_numberBoundary (nx mxg : ℕ) (bx fx : SubArr K) (L : List Cell) (s : BndState)
    (arr : Bool × Cell → ℤ) (hb : ∀ c, arr (false, c) = s.bwd c)
    (hf : ∀ c, arr (true, c) = s.fwd c) :
    let t := L.foldl (numberBoundary nx mxg bx fx) s
    let r := numberKeys (L.flatMap (twoKeys (anyHit nx mxg bx) (anyHit nx mxg fx) false true))
      (arr, s.next)
    (∀ c, r.1 (false, c) = t.bwd c) ∧ (∀ c, r.1 (true, c) = t.fwd c) ∧ r.2 = t.next := by
  induction L generalizing s arr with
  | nil => exact ⟨hb, hf, rfl⟩
  | cons c L ih =>
    simp only [List.foldl_cons, List.flatMap_cons, numberKeys_append]
    have key : ∀ (s' : BndState) (r' : (Bool × Cell → ℤ) × ℕ),
        (numberBoundary nx mxg bx fx s c = s') →
        numberKeys (twoKeys (anyHit nx mxg bx) (anyHit nx mxg fx) false true c)
          (arr, s.next) = r' →
        (∀ d, r'.1 (false, d) = s'.bwd d) ∧ (∀ d, r'.1 (true, d) = s'.fwd d) ∧ r'.2 = s'.next := by
      intro s' r' h1 h2
      subst h1; subst h2
      rw [numberBoundary_eq]; unfold twoKeys
      by_cases h1 : anyHit nx mxg bx c = true <;> by_cases h2 : anyHit nx mxg fx c = true <;>
        simp [h1, h2, numberKeys_cons, Function.update_apply, hb, hf]
    obtain ⟨h1, h2, h3⟩ := key _ _ rfl rfl
    have := ih (numberBoundary nx mxg bx fx s c) _ h1 h2
    rw [← h3] at this
    exact this


/-- Tests of the leg loop. -/
def anyStay (nx mxg : ℕ) (a : SubArr K) (c : Cell) : Bool :=
  (((a.row c).map (fun v => hits v nx mxg)).map not).any id

theorem foldl_legStep (nx mxg : ℕ) (xt : SubArr K) (w : List K) (L : List Cell) (s : LegSpace K)
    (arr : Bool × Cell → ℤ) (hb : ∀ c, arr (false, c) = s.interiorLeg c)
    (hf : ∀ c, arr (true, c) = s.boundaryLeg c) :
    let t := L.foldl (legStep nx mxg xt w) s
    let r := numberKeys (L.flatMap (twoKeys (anyStay nx mxg xt) (anyHit nx mxg xt) false true))
      (arr, s.nLegs)
    (∀ c, r.1 (false, c) = t.interiorLeg c) ∧ (∀ c, r.1 (true, c) = t.boundaryLeg c) ∧
      r.2 = t.nLegs := by
  induction L generalizing s arr with
  | nil => exact ⟨hb, hf, rfl⟩
  | cons c L ih =>
    simp only [List.foldl_cons, List.flatMap_cons, numberKeys_append]
    have key : ∀ (s' : LegSpace K) (r' : (Bool × Cell → ℤ) × ℕ),
        (legStep nx mxg xt w s c = s') →
        numberKeys (twoKeys (anyStay nx mxg xt) (anyHit nx mxg xt) false true c)
          (arr, s.nLegs) = r' →
        (∀ d, r'.1 (false, d) = s'.interiorLeg d) ∧ (∀ d, r'.1 (true, d) = s'.boundaryLeg d) ∧
          r'.2 = s'.nLegs := by
      intro s' r' h1 h2
      subst h1; subst h2
      have e1 : (classify (xt.row c) w nx mxg).hasInteriorLeg = anyStay nx mxg xt c := rfl
      have e2 : (classify (xt.row c) w nx mxg).hasBoundaryLeg = anyHit nx mxg xt c := rfl
      unfold legStep twoKeys
      simp only [e1, e2]
      by_cases h1 : anyStay nx mxg xt c = true <;> by_cases h2 : anyHit nx mxg xt c = true <;>
        simp [h1, h2, numberKeys_cons, Function.update_apply, hb, hf]
    obtain ⟨h1, h2, h3⟩ := key _ _ rfl rfl
    have := ih (legStep nx mxg xt w s c) _ h1 h2
    rw [← h3] at this
    exact this

/-- The remaining arrays of the leg loop. -/
theorem foldl_legStep_fields (nx mxg : ℕ) (xt : SubArr K) (w : List K) (L : List Cell)
    (s : LegSpace K) (c : Cell) :
    let t := L.foldl (legStep nx mxg xt w) s
    (t.hasInterior c = if c ∈ L then anyStay nx mxg xt c else s.hasInterior c) ∧
    (t.hasBoundary c = if c ∈ L then anyHit nx mxg xt c else s.hasBoundary c) ∧
    (t.interiorFraction c = if c ∈ L then (classify (xt.row c) w nx mxg).interiorFraction
      else s.interiorFraction c) ∧
    (t.boundaryFraction c = if c ∈ L then (classify (xt.row c) w nx mxg).boundaryFraction
      else s.boundaryFraction c) := by
  induction L generalizing s with
  | nil => simp
  | cons d L ih =>
    have e1 : (classify (xt.row c) w nx mxg).hasInteriorLeg = anyStay nx mxg xt c := rfl
    have e2 : (classify (xt.row c) w nx mxg).hasBoundaryLeg = anyHit nx mxg xt c := rfl
    have key : (legStep nx mxg xt w s d).hasInterior =
          Function.update s.hasInterior d (anyStay nx mxg xt d) ∧
        (legStep nx mxg xt w s d).hasBoundary =
          Function.update s.hasBoundary d (anyHit nx mxg xt d) ∧
        (legStep nx mxg xt w s d).interiorFraction =
          Function.update s.interiorFraction d (classify (xt.row d) w nx mxg).interiorFraction ∧
        (legStep nx mxg xt w s d).boundaryFraction =
          Function.update s.boundaryFraction d (classify (xt.row d) w nx mxg).boundaryFraction := by
      have e1 : (classify (xt.row d) w nx mxg).hasInteriorLeg = anyStay nx mxg xt d := rfl
      have e2 : (classify (xt.row d) w nx mxg).hasBoundaryLeg = anyHit nx mxg xt d := rfl
      unfold legStep
      simp only [e1, e2]
      by_cases h1 : anyStay nx mxg xt d = true <;> by_cases h2 : anyHit nx mxg xt d = true <;>
        simp [h1, h2]
    obtain ⟨h1, h2, h3, h4⟩ := ih (legStep nx mxg xt w s d)
    obtain ⟨k1, k2, k3, k4⟩ := key
    simp only [List.foldl_cons, h1, h2, h3, h4, k1, k2, k3, k4, List.mem_cons,
      Function.update_apply]
    by_cases hc : c = d
    · subst hc; simp
    · simp [hc]

theorem nodup_twoKeys_flatMap (p q : Cell → Bool) (L : List Cell) (hL : L.Nodup) :
    (L.flatMap (twoKeys p q false true)).Nodup := by
  rw [List.nodup_flatMap]
  constructor
  · intro c _
    unfold twoKeys
    by_cases h1 : p c = true <;> by_cases h2 : q c = true <;> simp [h1, h2]
  · refine hL.imp ?_
    intro a b hab
    simp only [Function.onFun, List.disjoint_left]
    intro k h1 h2
    have e : ∀ (c : Cell), k ∈ twoKeys p q false true c → k.2 = c := by
      intro c h
      unfold twoKeys at h
      by_cases h1 : p c = true <;> by_cases h2 : q c = true <;> simp [h1, h2] at h
      · rcases h with rfl | rfl <;> rfl
      · rw [h]
      · rw [h]
    exact hab ((e a h1).symm.trans (e b h2))

theorem mem_twoKeys_flatMap (p q : Cell → Bool) (L : List Cell) (k : Bool × Cell) :
    k ∈ L.flatMap (twoKeys p q false true) ↔ k.2 ∈ L ∧ (if k.1 then q k.2 else p k.2) = true := by
  obtain ⟨b, c⟩ := k
  simp only [List.mem_flatMap, twoKeys, List.mem_append]
  constructor
  · rintro ⟨a, ha, h⟩
    by_cases h1 : p a = true <;> by_cases h2 : q a = true <;> simp [h1, h2] at h
    · rcases h with ⟨rfl, rfl⟩ | ⟨rfl, rfl⟩ <;> simp [ha, h1, h2]
    · obtain ⟨rfl, rfl⟩ := h; simp [ha, h1]
    · obtain ⟨rfl, rfl⟩ := h; simp [ha, h2]
  · rintro ⟨hc, h⟩
    refine ⟨c, hc, ?_⟩
    cases b
    · left; simp at h; simp [h]
    · right; simp at h; simp [h]

theorem hits_iff (i : Input K) (x : K) : hits x i.nx i.mxg = true ↔ i.Escapes x := by
  simp [hits, Input.Escapes]

theorem anyHit_iff (i : Input K) (fwd : Bool) (c : Cell) :
    anyHit i.nx i.mxg ⟨i.n, i.xs fwd⟩ c = true ↔ i.SomeEscape fwd c := by
  simp [anyHit, SubArr.row, Input.SomeEscape, List.any_eq_true, hits_iff]

theorem anyStay_iff (i : Input K) (fwd : Bool) (c : Cell) :
    anyStay i.nx i.mxg ⟨i.n, i.xs fwd⟩ c = true ↔ i.SomeStay fwd c := by
  simp only [anyStay, SubArr.row, Input.SomeStay, List.any_eq_true, List.map_map, List.mem_map,
    List.mem_range, Function.comp_apply, id, ← hits_iff]
  constructor
  · rintro ⟨x, ⟨s, hs, rfl⟩, h⟩
    exact ⟨s, hs, by simpa using h⟩
  · rintro ⟨s, hs, h⟩
    exact ⟨_, ⟨s, hs, rfl⟩, by simpa using h⟩

end Zoidberg.Weights
