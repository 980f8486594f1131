import Verif.Props.WeightsCells
import Verif.Spec.ModifyMaps

/-! `modify_maps`. -/

set_option linter.unusedSectionVars false

namespace Zoidberg.Weights

variable {K : Type} [Field K] [LinearOrder K] [IsStrictOrderedRing K] [FloorRing K]

theorem Full.represents {maps : MapDict K} {i : Input K} {cx cz : Bool → Cell → K}
    (h : Full maps i cx cz) : Represents maps i :=
  ⟨h.shape, h.mxg, Or.inl h.fx, Or.inl h.fz, Or.inl h.bx, Or.inl h.bz, Or.inl h.w⟩

theorem foldl_markStep (nx mxg : ℕ) (a : SubArr K) (L : List Cell) (xt : Cell → K) (c : Cell) :
    L.foldl (markStep nx mxg a) xt c = if c ∈ L ∧ anyHit nx mxg a c = true then -1 else xt c := by
  have hany : ∀ c, ((a.row c).any fun v => hits v nx mxg) = anyHit nx mxg a c := by
    intro c; simp [anyHit, List.any_map, Function.comp_def]
  induction L generalizing xt with
  | nil => simp
  | cons d L ih =>
    rw [List.foldl_cons, ih]
    unfold markStep
    rw [hany]
    by_cases h1 : c ∈ L ∧ anyHit nx mxg a c = true
    · rw [if_pos h1, if_pos ⟨by simp [h1.1], h1.2⟩]
    · rw [if_neg h1]
      by_cases hd : anyHit nx mxg a d = true
      · rw [if_pos hd]
        by_cases hcd : c = d
        · subst hcd; simp [hd]
        · rw [Function.update_of_ne hcd]
          rw [if_neg]
          rintro ⟨hm, hc⟩
          rcases List.mem_cons.1 hm with h | h
          · exact hcd h
          · exact h1 ⟨h, hc⟩
      · rw [if_neg hd]
        rw [if_neg]
        rintro ⟨hm, hc⟩
        rcases List.mem_cons.1 hm with h | h
        · subst h; exact hd hc
        · exact h1 ⟨h, hc⟩

/-- Filter of one cell: `a`, `b` are its sub-sample x and z indices, `x`, `z` those
of its centre. -/
def filterCell (nx mxg n : ℕ) (x z : K) (a b : ℕ → K) : (ℕ → K) × (ℕ → K) :=
  let hit := (List.range n).map (fun w => hits (a w) nx mxg)
  if hit.any id && !(hit.all id) then
    if hits x nx mxg then (fun _ => x, fun _ => z)
    else (fun w => if hits (a w) nx mxg then x else a w,
      fun w => if hits (a w) nx mxg then z else b w)
  else (a, b)

theorem filterStep_eq (nx mxg n : ℕ) (xt zt : Cell → K) (s : (Cell → ℕ → K) × (Cell → ℕ → K))
    (c : Cell) : filterStep nx mxg n xt zt s c =
      (Function.update s.1 c (filterCell nx mxg n (xt c) (zt c) (s.1 c) (s.2 c)).1,
       Function.update s.2 c (filterCell nx mxg n (xt c) (zt c) (s.1 c) (s.2 c)).2) := by
  unfold filterStep filterCell
  simp only
  split
  · split
    · rfl
    · rfl
  · simp only [Function.update_eq_self]

theorem foldl_filterStep (nx mxg n : ℕ) (xt zt : Cell → K) (L : List Cell) (hL : L.Nodup)
    (s : (Cell → ℕ → K) × (Cell → ℕ → K)) (c : Cell) :
    let r := L.foldl (filterStep nx mxg n xt zt) s
    let f := filterCell nx mxg n (xt c) (zt c) (s.1 c) (s.2 c)
    r.1 c = (if c ∈ L then f.1 else s.1 c) ∧ r.2 c = (if c ∈ L then f.2 else s.2 c) := by
  induction L generalizing s with
  | nil => simp
  | cons d L ih =>
    rw [List.nodup_cons] at hL
    intro r f
    have := ih hL.2 (filterStep nx mxg n xt zt s d)
    simp only [r, List.foldl_cons]
    rw [this.1, this.2, filterStep_eq]
    simp only
    by_cases hcd : c = d
    · subst hcd
      simp only [if_neg hL.1, Function.update_self, List.mem_cons, true_or, if_true]
      exact ⟨rfl, rfl⟩
    · simp only [Function.update_of_ne hcd, List.mem_cons, hcd, false_or]
      exact ⟨rfl, rfl⟩

/-- What the filter guarantees for one cell. -/
theorem filterCell_all_or_none (nx mxg n : ℕ) (x z : K) (a b : ℕ → K) :
    let r := filterCell nx mxg n x z a b
    ((∀ s < n, hits (r.1 s) nx mxg = true) ∨ (∀ s < n, hits (r.1 s) nx mxg = false)) ∧
    (((∀ s < n, hits (a s) nx mxg = true) ∨ (∀ s < n, hits (a s) nx mxg = false)) → r = (a, b)) ∧
    (¬ ((∀ s < n, hits (a s) nx mxg = true) ∨ (∀ s < n, hits (a s) nx mxg = false)) →
      (hits x nx mxg = true → r = (fun _ => x, fun _ => z)) ∧
      (hits x nx mxg = false → r = (fun w => if hits (a w) nx mxg then x else a w,
        fun w => if hits (a w) nx mxg then z else b w))) := by
  intro r
  have key : ((((List.range n).map (fun w => hits (a w) nx mxg)).any id &&
      !(((List.range n).map (fun w => hits (a w) nx mxg)).all id)) = true) ↔
      ¬ ((∀ s < n, hits (a s) nx mxg = true) ∨ (∀ s < n, hits (a s) nx mxg = false)) := by
    simp only [Bool.and_eq_true, List.any_map, List.any_eq_true, List.mem_range, Function.comp_apply,
      id, Bool.not_eq_true', List.all_map, List.all_eq_false, not_or, not_forall, exists_prop,
      Bool.not_eq_true, Bool.not_eq_false]
    constructor
    · rintro ⟨⟨x, h1, h2⟩, ⟨y, h3, h4⟩⟩; exact ⟨⟨y, h3, by simpa using h4⟩, ⟨x, h1, h2⟩⟩
    · rintro ⟨⟨y, h3, h4⟩, ⟨x, h1, h2⟩⟩; exact ⟨⟨x, h1, h2⟩, ⟨y, h3, by simpa using h4⟩⟩
  by_cases hm : (∀ s < n, hits (a s) nx mxg = true) ∨ (∀ s < n, hits (a s) nx mxg = false)
  · have hr : r = (a, b) := by
      simp only [r, filterCell]
      rw [if_neg]
      rw [key]; exact not_not.2 hm
    rw [hr]
    exact ⟨hm, fun _ => rfl, fun h => absurd hm h⟩
  · have hr : r = if hits x nx mxg then (fun _ => x, fun _ => z)
        else (fun w => if hits (a w) nx mxg then x else a w,
          fun w => if hits (a w) nx mxg then z else b w) := by
      simp only [r, filterCell]
      rw [if_pos (key.2 hm)]
    refine ⟨?_, fun h => absurd h hm, fun _ => ⟨fun hx => by rw [hr, if_pos hx], fun hx => by
      rw [hr, hx]; rfl⟩⟩
    by_cases hx : hits x nx mxg = true
    · left; intro s _; rw [hr, if_pos hx]; exact hx
    · right; intro s _; rw [hr, if_neg hx]
      simp only
      split
      · simpa using hx
      · rename_i h; simpa using h

/-- Input after filtering. -/
def Input.filtered (i : Input K) (cx cz : Bool → Cell → K) : Input K :=
  { i with
    fx := ((loop3 0 i.nx i.ny i.nz).foldl (filterStep i.nx i.mxg i.n (cx true) (cz true))
      (i.fx, i.fz)).1
    fz := ((loop3 0 i.nx i.ny i.nz).foldl (filterStep i.nx i.mxg i.n (cx true) (cz true))
      (i.fx, i.fz)).2
    bx := ((loop3 0 i.nx i.ny i.nz).foldl (filterStep i.nx i.mxg i.n (cx false) (cz false))
      (i.bx, i.bz)).1
    bz := ((loop3 0 i.nx i.ny i.nz).foldl (filterStep i.nx i.mxg i.n (cx false) (cz false))
      (i.bx, i.bz)).2 }

theorem filtered_xs (i : Input K) (cx cz : Bool → Cell → K) (fwd : Bool) (c : Cell)
    (hc : i.InGrid c) :
    (i.filtered cx cz).xs fwd c =
      (filterCell i.nx i.mxg i.n (cx fwd c) (cz fwd c) (i.xs fwd c) (i.zs fwd c)).1 ∧
    (i.filtered cx cz).zs fwd c =
      (filterCell i.nx i.mxg i.n (cx fwd c) (cz fwd c) (i.xs fwd c) (i.zs fwd c)).2 := by
  have hm : c ∈ loop3 0 i.nx i.ny i.nz := by
    rw [mem_loop3]; exact ⟨⟨Nat.zero_le _, hc.1⟩, hc.2.1, hc.2.2⟩
  cases fwd
  · have := foldl_filterStep i.nx i.mxg i.n (cx false) (cz false) _ (nodup_loop3 0 i.nx i.ny i.nz)
      (i.bx, i.bz) c
    simp only [if_pos hm] at this
    exact this
  · have := foldl_filterStep i.nx i.mxg i.n (cx true) (cz true) _ (nodup_loop3 0 i.nx i.ny i.nz)
      (i.fx, i.fz) c
    simp only [if_pos hm] at this
    exact this

/-- Dictionary after the marking loop. -/
def markedMaps (maps : MapDict K) (i : Input K) (cx : Bool → Cell → K) : MapDict K :=
  (maps.set "forward_xt_prime" (.arr3 i.nx i.ny i.nz ((loop3 0 i.nx i.ny i.nz).foldl
    (markStep i.nx i.mxg ⟨i.n, i.fx⟩) (cx true)))).set "backward_xt_prime" (.arr3 i.nx i.ny i.nz
    ((loop3 0 i.nx i.ny i.nz).foldl (markStep i.nx i.mxg ⟨i.n, i.bx⟩) (cx false)))

/-- Dictionary after the filter loop. -/
def filteredMaps (maps : MapDict K) (i : Input K) (cx cz : Bool → Cell → K) : MapDict K :=
  (((maps.set "forward_xt_primes" (.arr4 i.nx i.ny i.nz i.n (i.filtered cx cz).fx)).set
    "forward_zt_primes" (.arr4 i.nx i.ny i.nz i.n (i.filtered cx cz).fz)).set
    "backward_xt_primes" (.arr4 i.nx i.ny i.nz i.n (i.filtered cx cz).bx)).set
    "backward_zt_primes" (.arr4 i.nx i.ny i.nz i.n (i.filtered cx cz).bz)

/-- The dictionary and input handed to the operator construction. -/
def midMaps (maps : MapDict K) (i : Input K) (cx cz : Bool → Cell → K) (p : Bool) : MapDict K :=
  if p then markedMaps maps i cx else filteredMaps maps i cx cz

/-- See `midMaps`. -/
def Input.mid (i : Input K) (cx cz : Bool → Cell → K) (p : Bool) : Input K :=
  if p then i else i.filtered cx cz

theorem get_set {V : Type} (d : Dict V) (k k' : String) (v : V) :
    (Dict.set d k v) k' = if k' = k then some v else d k' := by
  simp [Dict.set, Function.update_apply]

theorem mid_represents (maps : MapDict K) (i : Input K) (cx cz : Bool → Cell → K)
    (h : Full maps i cx cz) (p : Bool) : Represents (midMaps maps i cx cz p) (i.mid cx cz p) := by
  cases p
  · simp only [midMaps, Input.mid, Bool.false_eq_true, if_false]
    exact ⟨h.shape, h.mxg, Or.inl rfl, Or.inl rfl, Or.inl rfl, Or.inl rfl, Or.inl h.w⟩
  · simp only [midMaps, Input.mid, if_true]
    exact ⟨h.shape, h.mxg, Or.inl h.fx, Or.inl h.fz, Or.inl h.bx, Or.inl h.bz, Or.inl h.w⟩

theorem modifyMaps_eq (jc : ℕ → ℤ) (jw : ℕ → K) (maps : MapDict K) (i : Input K)
    (cx cz : Bool → Cell → K) (h : Full maps i cx cz) (p : Bool) :
    modifyMaps jc jw maps p = (calculateOps jc jw (midMaps maps i cx cz p)).bind fun o =>
      .ok (removedKeys.foldl (fun d k => d.pop k)
        ((opsEntries o).foldl (fun d e => d.set e.1 e.2) (midMaps maps i cx cz p))) := by
  have hmxg : getMXG maps = .ok i.mxg := by
    simp [getMXG, Dict.get, h.mxg, bind, Except.bind]
  have e1 : "forward" ++ "_xt_primes" = "forward_xt_primes" := rfl
  have e2 : "backward" ++ "_xt_primes" = "backward_xt_primes" := rfl
  have e3 : "forward" ++ "_xt_prime" = "forward_xt_prime" := rfl
  have e4 : "backward" ++ "_xt_prime" = "backward_xt_prime" := rfl
  have e5 : "forward" ++ "_zt_primes" = "forward_zt_primes" := rfl
  have e6 : "backward" ++ "_zt_primes" = "backward_zt_primes" := rfl
  have e7 : "forward" ++ "_zt_prime" = "forward_zt_prime" := rfl
  have e8 : "backward" ++ "_zt_prime" = "backward_zt_prime" := rfl
  have hmid : (["forward", "backward"].foldlM (if p then markDir i.mxg else filterDir i.mxg) maps) =
      .ok (midMaps maps i cx cz p) := by
    cases p
    · simp only [Bool.false_eq_true, if_false, List.foldlM_cons, List.foldlM_nil, filterDir, get4,
        get3, Dict.get, e1, e2, e3, e4, e5, e6, e7, e8, h.fx, h.fz, h.bx, h.bz, h.cfx, h.cfz, h.cbx,
        h.cbz, bind, Except.bind, pure, Except.pure, get_set]
      simp [midMaps, filteredMaps, Input.filtered]
    · simp only [if_true, List.foldlM_cons, List.foldlM_nil, markDir, get4,
        get3, Dict.get, e1, e2, e3, e4, h.fx, h.bx, h.cfx, h.cbx,
        bind, Except.bind, pure, Except.pure, get_set]
      simp [midMaps, markedMaps]
  unfold modifyMaps
  simp only [hmxg, hmid, bind, Except.bind]

/-- Final dictionary, key by key. -/
theorem final_get (m : MapDict K) (o : Ops K) (k : String) :
    (removedKeys.foldl (fun d k => d.pop k) ((opsEntries o).foldl (fun d e => d.set e.1 e.2) m)) k =
      if k ∈ subsampleNames then none else
        if k ∈ exportedNames then ((opsEntries o).foldl (fun d e => d.set e.1 e.2) m) k else m k := by
  have pops : ∀ (L : List String) (d : MapDict K), (L.foldl (fun d k => d.pop k) d) k =
      if k ∈ L then none else d k := by
    intro L
    induction L with
    | nil => simp
    | cons a L ih =>
      intro d
      rw [List.foldl_cons, ih]
      by_cases hk : k ∈ L
      · simp [hk]
      · by_cases ha : k = a
        · subst ha; simp [hk, Dict.pop]
        · simp [hk, ha, Dict.pop]
  have sets : ∀ (L : List (String × Val K)) (d : MapDict K), k ∉ L.map (·.1) →
      (L.foldl (fun d e => d.set e.1 e.2) d) k = d k := by
    intro L
    induction L with
    | nil => simp
    | cons a L ih =>
      intro d hk
      simp only [List.map_cons, List.mem_cons, not_or] at hk
      rw [List.foldl_cons, ih _ hk.2, get_set, if_neg hk.1]
  rw [pops]
  change (if k ∈ subsampleNames then _ else _) = _
  by_cases h1 : k ∈ subsampleNames
  · simp [h1]
  · rw [if_neg h1, if_neg h1]
    by_cases h2 : k ∈ exportedNames
    · rw [if_pos h2]
    · rw [if_neg h2, sets]
      exact h2

theorem final_exports (m : MapDict K) (o : Ops K) :
    Exports (removedKeys.foldl (fun d k => d.pop k)
      ((opsEntries o).foldl (fun d e => d.set e.1 e.2) m)) o := by
  constructor <;> rfl

end Zoidberg.Weights
