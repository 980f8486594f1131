import Verif.Model.GetMetric

/-! # C37, C38: renaming and writing dictionaries -/

set_option linter.unusedSectionVars false

namespace Zoidberg

variable {K : Type} [Field K] [LinearOrder K] [IsStrictOrderedRing K] [FloorRing K]

/-! ## C37 -/

/-- The renaming as documented: tensor components and cell positions. -/
def documentedNames : List (String × String) :=
  [("g_yy", "g_22"), ("g_yy_cell_ylow", "g_22_cell_ylow"), ("g_yy_cell_yhigh", "g_22_cell_yhigh"),
   ("gyy", "g22"), ("gyy_cell_ylow", "g22_cell_ylow"), ("gyy_cell_yhigh", "g22_cell_yhigh"),
   ("gxx", "g11"), ("gxx_cell_ylow", "g11_cell_ylow"), ("gxx_cell_yhigh", "g11_cell_yhigh"),
   ("gxz", "g13"), ("gxz_cell_ylow", "g13_cell_ylow"), ("gxz_cell_yhigh", "g13_cell_yhigh"),
   ("gzz", "g33"), ("gzz_cell_ylow", "g33_cell_ylow"), ("gzz_cell_yhigh", "g33_cell_yhigh"),
   ("g_xx", "g_11"), ("g_xx_cell_ylow", "g_11_cell_ylow"), ("g_xx_cell_yhigh", "g_11_cell_yhigh"),
   ("g_xz", "g_13"), ("g_xz_cell_ylow", "g_13_cell_ylow"), ("g_xz_cell_yhigh", "g_13_cell_yhigh"),
   ("g_zz", "g_33"), ("g_zz_cell_ylow", "g_33_cell_ylow"), ("g_zz_cell_yhigh", "g_33_cell_yhigh")]

/-- `new` is the documented new name of the entry `old`. -/
def NewName (old new : String) : Prop :=
  (old, new) ∈ documentedNames ∨ (old = new ∧ old ∉ documentedNames.map (·.1))

theorem nameChanges_eq : nameChanges = documentedNames := by decide

theorem documented_nodup : (documentedNames.map (·.1)).Nodup := by decide

theorem documented_nodup' : (documentedNames.map (·.2)).Nodup := by decide

theorem documented_disjoint : ∀ p ∈ documentedNames, p.2 ∉ documentedNames.map (·.1) := by decide

theorem newName_rename (k : String) : NewName k (rename k) := by
  unfold rename NewName
  rw [nameChanges_eq]
  cases h : ODict.get? documentedNames k with
  | some v =>
    left
    exact (ODict.get?_eq_some_iff _ documented_nodup k v).1 h
  | none =>
    right
    exact ⟨rfl, (ODict.get?_eq_none_iff _ _).1 h⟩

theorem NewName.eq {old new : String} (h : NewName old new) : rename old = new := by
  unfold rename
  rw [nameChanges_eq]
  rcases h with h | ⟨rfl, h⟩
  · rw [(ODict.get?_eq_some_iff _ documented_nodup old new).2 h]; rfl
  · rw [(ODict.get?_eq_none_iff documentedNames old).2 h]; rfl

theorem rename_rename (k : String) : rename (rename k) = rename k := by
  apply NewName.eq
  right
  refine ⟨rfl, ?_⟩
  rcases newName_rename k with h | ⟨h1, h2⟩
  · exact documented_disjoint _ h
  · rwa [← h1]

/-- The dictionary has no entry already called like the new name of another one. -/
def NoClash {V : Type} (d : ODict V) : Prop :=
  ∀ p ∈ documentedNames, p.1 ∈ d.keys → p.2 ∉ d.keys

theorem rename_inj {V : Type} (d : ODict V) (h : NoClash d) (k k' : String) (hk : k ∈ d.keys)
    (hk' : k' ∈ d.keys) (he : rename k = rename k') : k = k' := by
  rcases newName_rename k with h1 | ⟨h1, h2⟩ <;> rcases newName_rename k' with h3 | ⟨h3, h4⟩
  · rw [he] at h1
    exact congrArg Prod.fst (List.inj_on_of_nodup_map documented_nodup' h1 h3 rfl)
  · exact absurd (by rw [he, ← h3]; exact hk') (h _ h1 hk)
  · exact absurd (by rw [← he, ← h1]; exact hk) (h _ h3 hk')
  · rw [h1, h3, he]

/-- C37: without clashes the entries keep their order, number and values, and get
exactly the documented names. -/
theorem C37_renames {V : Type} (d : ODict V) (hd : d.keys.Nodup) (h : NoClash d) :
    (updateMetricNames d).length = d.length ∧
    (∀ (i : ℕ) (k : String) (v : V), (d : List (String × V))[i]? = some (k, v) → ∃ k', NewName k k' ∧
      (updateMetricNames d : List (String × V))[i]? = some (k', v)) ∧
    (∀ k k', k ∈ d.keys → NewName k k' → (updateMetricNames d).get? k' = d.get? k) := by
  have hnd : ((d.map fun p => (rename p.1, p.2)).map (·.1)).Nodup := by
    rw [List.map_map]
    have : ((fun p : String × V => p.1) ∘ fun p : String × V => (rename p.1, p.2)) =
        rename ∘ (fun p => p.1) := rfl
    rw [this, ← List.map_map]
    refine (List.nodup_map_iff_inj_on hd).2 ?_
    intro a ha b hb hab
    exact rename_inj d h a b ha hb hab
  have e : updateMetricNames d = d.map fun p => (rename p.1, p.2) := ODict.ofList_nodup _ hnd
  refine ⟨by rw [e]; simp, ?_, ?_⟩
  · intro i k v hi
    refine ⟨rename k, newName_rename k, ?_⟩
    rw [e, List.getElem?_map, hi]
    rfl
  · intro k k' hk hn
    have hk' := hn.eq
    subst hk'
    obtain ⟨v, hv⟩ := Option.ne_none_iff_exists'.1 ((ODict.mem_keys_iff _ _).1 hk)
    rw [hv, e]
    refine (ODict.get?_eq_some_iff _ hnd _ _).2 ?_
    exact List.mem_map.2 ⟨(k, v), (ODict.get?_eq_some_iff d hd k v).1 hv, rfl⟩

/-- C37: applying it twice equals applying it once, for every dictionary. -/
theorem C37_idempotent {V : Type} (d : ODict V) :
    updateMetricNames (updateMetricNames d) = updateMetricNames d := by
  have hfix : (updateMetricNames d).map (fun p => (rename p.1, p.2)) = updateMetricNames d := by
    conv_rhs => rw [← List.map_id (updateMetricNames d)]
    refine List.map_congr_left ?_
    intro p hp
    have : p.1 ∈ (updateMetricNames d).keys := List.mem_map.2 ⟨p, hp, rfl⟩
    unfold updateMetricNames at this
    rw [ODict.mem_keys_ofList, List.map_map] at this
    obtain ⟨q, _, hq⟩ := List.mem_map.1 this
    have hq : rename q.1 = p.1 := hq
    rw [← hq, rename_rename, hq]
    rfl
  conv_lhs => unfold updateMetricNames
  change ODict.ofList ((updateMetricNames d).map fun p => (rename p.1, p.2)) = _
  rw [hfix]
  exact ODict.ofList_nodup _ (ODict.nodup_ofList _)

/-- Without the condition two entries are merged, the later value winning. -/
theorem C37_merges_on_clash : updateMetricNames [("g_22", 1), ("g_yy", 2)] = [("g_22", 2)] := by decide

example : updateMetricNames [("dx", 1), ("g_yy", 2), ("B", 3), ("gxz_cell_ylow", 4)] =
    [("dx", 1), ("g_22", 2), ("B", 3), ("g13_cell_ylow", 4)] := by decide

example : NoClash [("dx", 1), ("g_yy", 2), ("B", 3), ("gxz_cell_ylow", 4)] := by
  unfold NoClash; decide

/-! ## C38 -/

/-- The entry stops `write_dict`. -/
def Bad {V : Type} (o : Vals V) (v : V) : Prop := o.isArray v = true ∧ o.finite v = false

/-- The entries that reach the write loop: the dictionary itself, or its
two-dimensional reduction. -/
def Reaches {V : Type} (o : Vals V) (metric2d always3d : Bool) (d d' : ODict V) : Prop :=
  (metric2d = true ∧ always3d = false ∧ cutDict o d = .ok d') ∨
    (¬ (metric2d = true ∧ always3d = false) ∧ d' = d)

theorem writeEntries_cases {V : Type} (o : Vals V) (d : ODict V) : ∀ file : ODict V,
    ((∀ p ∈ d, ¬ Bad o p.2) ∧
      writeEntries o d file = (d.foldl (fun a p => ODict.set a p.1 p.2) file, none)) ∨
    (∃ pre k v post, d = pre ++ (k, v) :: post ∧ (∀ p ∈ pre, ¬ Bad o p.2) ∧ Bad o v ∧
      writeEntries o d file = (pre.foldl (fun a p => ODict.set a p.1 p.2) file,
        some (.assertion (k ++ " is not finite")))) := by
  induction d with
  | nil => intro file; left; simp [writeEntries]
  | cons p t ih =>
    intro file
    obtain ⟨k, v⟩ := p
    unfold writeEntries
    by_cases hb : (o.isArray v && !o.finite v) = true
    · right
      refine ⟨[], k, v, t, rfl, by simp, ?_, ?_⟩
      · simpa [Bad] using hb
      · rw [if_pos hb]; rfl
    · rw [if_neg hb]
      have hb' : ¬ Bad o v := by
        intro h; apply hb; simp [h.1, h.2]
      rcases ih (file.set k v) with ⟨h1, h2⟩ | ⟨pre, k', v', post, h1, h2, h3, h4⟩
      · left
        refine ⟨?_, h2⟩
        intro p hp
        rcases List.mem_cons.1 hp with rfl | hp
        · exact hb'
        · exact h1 p hp
      · right
        refine ⟨(k, v) :: pre, k', v', post, by rw [h1]; rfl, ?_, h3, h4⟩
        intro p hp
        rcases List.mem_cons.1 hp with rfl | hp
        · exact hb'
        · exact h2 p hp

/-- C38: nothing is written to a closed file. -/
theorem C38_closed {V : Type} (o : Vals V) (metric2d always3d : Bool) (d file : ODict V) :
    ∃ e, writeDict o false metric2d always3d d file = (file, some e) := ⟨_, rfl⟩

/-- C38: either all entries are written in order, or the write stops at the first
array with a non-finite value, having written exactly the entries before it; if
the reduction to two dimensions fails, nothing is written. -/
theorem C38_all_or_prefix {V : Type} (o : Vals V) (metric2d always3d : Bool) (d file : ODict V) :
    (∃ e, writeDict o true metric2d always3d d file = (file, some e) ∧
      metric2d = true ∧ always3d = false ∧ cutDict o d = .error e) ∨
    ∃ d', Reaches o metric2d always3d d d' ∧
      (((∀ p ∈ d', ¬ Bad o p.2) ∧ writeDict o true metric2d always3d d file =
          (d'.foldl (fun a p => ODict.set a p.1 p.2) file, none)) ∨
      (∃ pre k v post, d' = pre ++ (k, v) :: post ∧ (∀ p ∈ pre, ¬ Bad o p.2) ∧ Bad o v ∧
        writeDict o true metric2d always3d d file =
          (pre.foldl (fun a p => ODict.set a p.1 p.2) file,
            some (.assertion (k ++ " is not finite"))))) := by
  unfold writeDict
  rw [if_neg (by simp)]
  by_cases hm : metric2d = true ∧ always3d = false
  · obtain ⟨rfl, rfl⟩ := hm
    rw [if_pos (by simp)]
    cases hc : cutDict o d with
    | error e => exact Or.inl ⟨e, rfl, rfl, rfl, rfl⟩
    | ok d' => exact Or.inr ⟨d', Or.inl ⟨rfl, rfl, hc⟩, writeEntries_cases o d' file⟩
  · rw [if_neg (by simpa using hm)]
    exact Or.inr ⟨d, Or.inr ⟨hm, rfl⟩, writeEntries_cases o d file⟩

/-- C38: no array with a non-finite value gets into the file by `write_dict`. -/
theorem C38_file_finite {V : Type} (o : Vals V) (isOpen metric2d always3d : Bool) (d file : ODict V)
    (hf : ∀ k v, file.get? k = some v → ¬ Bad o v) (k : String) (v : V)
    (h : (writeDict o isOpen metric2d always3d d file).1.get? k = some v) : ¬ Bad o v := by
  have key : ∀ (pre : ODict V), (∀ p ∈ pre, ¬ Bad o p.2) → ∀ file : ODict V,
      (∀ k v, file.get? k = some v → ¬ Bad o v) →
      ∀ k v, ODict.get? (pre.foldl (fun a p => ODict.set a p.1 p.2) file) k = some v → ¬ Bad o v := by
    intro pre
    induction pre with
    | nil => intro _ file hf; exact hf
    | cons p t ih =>
      intro hp file hf
      refine ih (fun q hq => hp q (by simp [hq])) _ ?_
      intro k v hk
      rw [ODict.get?_set] at hk
      split at hk
      · injection hk with hk; subst hk; exact hp p (by simp)
      · exact hf k v hk
  cases isOpen with
  | false => exact hf k v h
  | true =>
    rcases C38_all_or_prefix o metric2d always3d d file with
      ⟨e, he, _⟩ | ⟨d', _, ⟨h1, h2⟩ | ⟨pre, k', v', post, _, h2, _, h4⟩⟩
    · rw [he] at h; exact hf k v h
    · rw [h2] at h; exact key d' h1 file hf k v h
    · rw [h4] at h; exact key pre h2 file hf k v h

/-- C38: after a complete write every entry of the dictionary can be read back,
and all other variables are unchanged. -/
theorem C38_read_back {V : Type} (o : Vals V) (metric2d : Bool) (d file : ODict V) (hd : d.keys.Nodup)
    (h : (writeDict o true metric2d true d file).2 = none) (k : String) :
    (writeDict o true metric2d true d file).1.get? k = (d.get? k).or (file.get? k) := by
  rcases C38_all_or_prefix o metric2d true d file with
      ⟨e, _, _, h3, _⟩ | ⟨d', hr, ⟨_, h2⟩ | ⟨pre, k', v', post, _, _, _, h4⟩⟩
  · simp at h3
  · have : d' = d := by
      rcases hr with ⟨_, h, _⟩ | ⟨_, h⟩
      · simp at h
      · exact h
    subst this
    rw [h2]
    exact ODict.get?_foldl_set d' hd k file
  · rw [h4] at h; simp at h

/-- The two-dimensional reduction of the metric arrays: plane `z = 0`, and one
number for `dz`. -/
theorem C38_two_dimensional (finite : Val K → Bool) (m : Metric K) (file : ODict (Val K))
    (hm : (ODict.keys m).Nodup)
    (h : (writeDict (valOps finite) true true false (m.mapV Val.f3) file).2 = none) :
    ∀ k a, m.get? k = some a →
      (writeDict (valOps finite) true true false (m.mapV Val.f3) file).1.get? k =
        some (if k = "dz" then Val.num (a (0, 0, 0)) else Val.f2 fun x y => a (x, y, 0)) := by
  let cutM : ODict (Val K) := m.mapV fun a => Val.f2 fun x y => a (x, y, 0)
  have hcut : (m.mapV Val.f3).mapM (fun p => (cutEntry (valOps finite) p.2).map fun v => (p.1, v)) =
      Except.ok cutM := by
    clear h hm
    induction m with
    | nil => rfl
    | cons p t ih =>
      obtain ⟨a, b⟩ := p
      change List.mapM _ ((a, Val.f3 b) :: ODict.mapV Val.f3 t) = _
      rw [List.mapM_cons, ih]
      rfl
  have hdict : cutDict (valOps finite) (m.mapV Val.f3) = .ok (match m.get? "dz" with
      | none => cutM
      | some a => cutM.set "dz" (Val.num (a (0, 0, 0)))) := by
    unfold cutDict
    rw [hcut]
    simp only [cutM, ODict.get?_mapV]
    cases m.get? "dz" with
    | none => rfl
    | some a => rfl
  have hwd : writeDict (valOps finite) true true false (m.mapV Val.f3) file =
      writeEntries (valOps finite) (match m.get? "dz" with
      | none => cutM
      | some a => cutM.set "dz" (Val.num (a (0, 0, 0)))) file := by
    unfold writeDict
    rw [if_neg (by simp), if_pos (by simp), hdict]
  rw [hwd] at h
  intro k a hk
  rw [hwd]
  rcases writeEntries_cases (valOps finite) (match m.get? "dz" with
      | none => cutM
      | some a => cutM.set "dz" (Val.num (a (0, 0, 0)))) file with
    ⟨_, h2⟩ | ⟨pre, k', v', post, _, _, _, h4⟩
  · rw [h2]
    have hcn : cutM.keys.Nodup := by
      simp only [cutM]; rw [ODict.keys_mapV]; exact hm
    have hcg : cutM.get? k = some (Val.f2 fun x y => a (x, y, 0)) := by
      simp only [cutM]; rw [ODict.get?_mapV, hk]; rfl
    simp only
    rw [ODict.get?_foldl_set]
    · cases hz : m.get? "dz" with
      | none =>
        have : k ≠ "dz" := by rintro rfl; rw [hz] at hk; simp at hk
        simp only [hcg, if_neg this, Option.or]
      | some b =>
        simp only [ODict.get?_set]
        by_cases hkz : "dz" = k
        · subst hkz
          rw [hz] at hk
          injection hk with hk
          subst hk
          simp
        · rw [if_neg hkz, hcg, if_neg (Ne.symm hkz)]; rfl
    · split
      · exact hcn
      · exact ODict.nodup_set _ _ _ hcn
  · rw [h4] at h; simp at h

/-- Three arrays of which the second is not finite: the first one is written. -/
example : writeDict (valOps (K := ℚ) fun v => match v with | .f2 _ => false | _ => true) true false true
    [("a", .num 1), ("b", .f2 fun _ _ => 0), ("c", .num 2)] [] =
      ([("a", .num 1)], some (.assertion "b is not finite")) := rfl

/-- What `metric2d` makes of an entry: of an array over the cells its plane `z = 0`, numbers stay. -/
inductive Reduced : Val K → Val K → Prop where
  | array (a : Cell → K) : Reduced (.f3 a) (.f2 fun x y => a (x, y, 0))
  | num (v : K) : Reduced (.num v) (.num v)
  | int (n : ℤ) : Reduced (.int n) (.int n)

/-- C38: with `metric2d` a dictionary of arrays over the cells and of numbers is written with the planes `z = 0` of the arrays and the same numbers, and
one number for `dz`, if everything is finite. -/
theorem C38_mixed (finite : Val K → Bool) (d d' : ODict (Val K)) (file : ODict (Val K)) (hd : d.keys.Nodup)
    (hr : List.Forall₂ (fun p q => q.1 = p.1 ∧ Reduced p.2 q.2) d d') (hz : ∀ v, d.get? "dz" = some v → ∃ a, v = .f3 a)
    (hfin : ∀ v, finite v = true) :
    (writeDict (valOps finite) true true false d file).2 = none ∧
      (∀ a, d.get? "dz" = some (.f3 a) → (writeDict (valOps finite) true true false d file).1.get? "dz" = some (.num (a (0, 0, 0)))) ∧
      ∀ k, k ≠ "dz" → (writeDict (valOps finite) true true false d file).1.get? k = (ODict.get? d' k).or (file.get? k) := by
  have hcut : d.mapM (fun p => (cutEntry (valOps finite) p.2).map fun v => (p.1, v)) = Except.ok d' := by
    clear hz hd
    induction hr with
    | nil => rfl
    | cons h _ ih =>
      rename_i p q l l' _
      obtain ⟨k, v⟩ := p
      obtain ⟨k', v'⟩ := q
      obtain ⟨rfl, h⟩ := h
      rw [List.mapM_cons, ih]
      cases h <;> rfl
  have hkeys : ODict.keys d' = ODict.keys d := by
    clear hz hd hcut
    induction hr with
    | nil => rfl
    | cons h _ ih =>
      simp only [ODict.keys, List.map_cons, h.1] at ih ⊢
      rw [ih]
  have hget : ∀ k v, ODict.get? d k = some v → ∃ v', ODict.get? d' k = some v' ∧ Reduced v v' := by
    clear hz hcut hkeys hd
    induction hr with
    | nil => intro k v h; cases h
    | cons h _ ih =>
      rename_i p q l l' _
      obtain ⟨k, v⟩ := p
      obtain ⟨k', v'⟩ := q
      obtain ⟨rfl, h⟩ := h
      intro k v h2
      rw [ODict.get?_cons] at h2 ⊢
      split_ifs at h2 ⊢ with h3
      · cases h2
        exact ⟨_, rfl, h⟩
      · exact ih k v h2
  have hnd : (ODict.keys d').Nodup := by rw [hkeys]; exact hd
  obtain ⟨d'', hd'', hnd'', hdz, hne⟩ : ∃ d'', cutDict (valOps finite) d = .ok d'' ∧ (ODict.keys d'').Nodup ∧
      (∀ a, d.get? "dz" = some (.f3 a) → ODict.get? d'' "dz" = some (.num (a (0, 0, 0)))) ∧
      ∀ k, k ≠ "dz" → ODict.get? d'' k = ODict.get? d' k := by
    unfold cutDict
    rw [hcut]
    simp only
    cases h : ODict.get? d "dz" with
    | none =>
      have : ODict.get? d' "dz" = none := by
        rw [ODict.get?_eq_none_iff] at h ⊢
        rw [hkeys]
        exact h
      rw [this]
      exact ⟨_, rfl, hnd, fun a h => by (cases h), fun _ _ => rfl⟩
    | some v =>
      obtain ⟨a, rfl⟩ := hz v h
      obtain ⟨v', h1, h2⟩ := hget _ _ h
      cases h2
      rw [h1]
      refine ⟨_, rfl, ODict.nodup_set _ _ _ hnd, ?_, ?_⟩
      · intro b hb
        cases hb
        rw [ODict.get?_set_self]
      · intro k hk
        rw [ODict.get?_set_ne _ _ hk]
  have hw : writeDict (valOps finite) true true false d file = writeEntries (valOps finite) d'' file := by
    unfold writeDict
    rw [if_neg (by simp), if_pos (by simp), hd'']
  rw [hw]
  rcases writeEntries_cases (valOps finite) d'' file with ⟨-, h2⟩ | ⟨pre, k', v', post, -, -, hb, -⟩
  · rw [h2]
    refine ⟨rfl, ?_, ?_⟩
    · intro a ha
      simp only
      rw [ODict.get?_foldl_set d'' hnd'', hdz a ha]
      rfl
    · intro k hk
      simp only
      rw [ODict.get?_foldl_set d'' hnd'', hne k hk]
  · obtain ⟨-, hb⟩ := hb
    change finite v' = false at hb
    rw [hfin] at hb
    cases hb

/-- An array, a number and `dz`. -/
example : (writeDict (valOps (K := ℚ) fun _ => true) true true false
      [("dx", .f3 fun c => c.1 + 10 * c.2.2), ("Rxy", .num 3), ("dz", .f3 fun _ => 7)] []).1.get? "Rxy" = some (.num 3) := by
  have h := (C38_mixed (K := ℚ) (fun _ => true) [("dx", .f3 fun c => c.1 + 10 * c.2.2), ("Rxy", .num 3), ("dz", .f3 fun _ => 7)]
    [("dx", .f2 fun x _ => (x : ℚ) + 10 * ((0 : ℕ) : ℚ)), ("Rxy", .num 3), ("dz", .f2 fun _ _ => 7)] [] (by decide)
    (.cons ⟨rfl, .array _⟩ (.cons ⟨rfl, .num _⟩ (.cons ⟨rfl, .array _⟩ .nil))) (by intro v hv; cases hv; exact ⟨_, rfl⟩) (fun _ => rfl)).2.2 "Rxy" (by decide)
  rw [h]
  rfl

end Zoidberg
