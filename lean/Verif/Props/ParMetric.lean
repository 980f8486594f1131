import Verif.Props.ParCoords
import Verif.Props.MetricFile
import Verif.Props.SliceNames

/-! # C101, C102: the metric of parallel slices in the file -/

set_option linter.unusedSectionVars false

namespace Zoidberg

variable {K : Type} [Field K] [LinearOrder K] [IsStrictOrderedRing K] [FloorRing K]

/-- The names of a metric of `get_metric` in the file. -/
def outNames : List String := baseMetricNames ++ ["g_22", "g22", "g11", "g13", "g33", "g_11", "g_13", "g_33"]

/-- No name continues another one after an underscore. -/
theorem prefix_free : ∀ f ∈ outNames, ∀ f' ∈ outNames, ¬ f.toList ++ ['_'] <+: f'.toList := by
  decide +kernel

theorem base_fileName (nn : Bool) {k k' : String} (hk : k ∈ baseMetricNames) (h : FileName nn k k') :
    k' ∈ outNames := by
  unfold FileName at h
  split at h
  · subst h
    exact List.mem_append_left _ hk
  · rcases h with h | ⟨rfl, _⟩
    · have : ∀ p ∈ documentedNames, p.1 ∈ baseMetricNames → p.2 ∈ outNames := by decide
      exact this _ h hk
    · exact List.mem_append_left _ hk

/-- The names of slices are different for different slices and entries. -/
theorem sliceName_inj (repr : K → String) {f f' : String} (hf : f ∈ outNames) (hf' : f' ∈ outNames)
    {n n' : ℤ} (hn : n ≠ 0) (hn' : n' ≠ 0) {s : String}
    (h : parallelSliceFieldName repr f (.int n) = .ok s)
    (h' : parallelSliceFieldName repr f' (.int n') = .ok s) : f = f' ∧ n = n' := by
  obtain ⟨s1, e1, l1⟩ := name_int repr f n hn
  obtain ⟨s2, e2, l2⟩ := name_int repr f' n' hn'
  rw [h] at e1
  rw [h'] at e2
  injection e1 with e1
  injection e2 with e2
  subst e1
  subst e2
  rw [l1] at l2
  have hsame : (0 < n) ↔ (0 < n') := by
    by_cases a : 0 < n <;> by_cases b : 0 < n'
    · simp [a, b]
    · exfalso
      rw [if_pos a, if_neg b] at l2
      simp at l2
    · exfalso
      rw [if_neg a, if_pos b] at l2
      simp at l2
    · simp [a, b]
  have l3 : f.toList ++ (if 1 < n.natAbs then '_' :: (toString n.natAbs).toList else []) =
      f'.toList ++ (if 1 < n'.natAbs then '_' :: (toString n'.natAbs).toList else []) := by
    by_cases a : 0 < n
    · rw [if_pos a, if_pos (hsame.1 a), List.append_assoc, List.append_assoc] at l2
      exact List.append_cancel_left l2
    · rw [if_neg a, if_neg (fun h => a (hsame.2 h)), List.append_assoc, List.append_assoc] at l2
      exact List.append_cancel_left l2
  have key : f.toList = f'.toList ∧ n.natAbs = n'.natAbs := by
    by_cases a : 1 < n.natAbs <;> by_cases b : 1 < n'.natAbs
    · rw [if_pos a, if_pos b] at l3
      obtain ⟨q1, q2⟩ := split_last (digits_no_underscore _) (digits_no_underscore _) l3
      exact ⟨q1, digits_inj q2⟩
    · rw [if_pos a, if_neg b, List.append_nil] at l3
      exact absurd ⟨(toString n.natAbs).toList, by rw [← l3]; simp⟩ (prefix_free f hf f' hf')
    · rw [if_neg a, if_pos b, List.append_nil] at l3
      exact absurd ⟨(toString n'.natAbs).toList, by rw [l3]; simp⟩ (prefix_free f' hf' f hf)
    · rw [if_neg a, if_neg b, List.append_nil, List.append_nil] at l3
      exact ⟨l3, by omega⟩
  refine ⟨String.toList_inj.1 key.1, ?_⟩
  have := key.2
  by_cases a : 0 < n
  · have := hsame.1 a
    omega
  · have : ¬ 0 < n' := fun h => a (hsame.2 h)
    omega

/-- The dictionary of one slice. -/
theorem sliceDict_ok {repr : K → String} {n : ℤ} {m : Metric K} (hn : n ≠ 0)
    (hk : ∀ k ∈ ODict.keys m, k ∈ outNames) (hm : (ODict.keys m).Nodup) {d : ODict (Val K)}
    (h : sliceDict repr n m = .ok d) : d.keys.Nodup ∧
    (∀ k s, k ∈ outNames → parallelSliceFieldName repr k (.int n) = .ok s →
      d.get? s = (m.get? k).map Val.f3) ∧
    ∀ s ∈ d.keys, ∃ k ∈ outNames, parallelSliceFieldName repr k (.int n) = .ok s := by
  unfold sliceDict at h
  cases hl : m.mapM (fun p => (parallelSliceFieldName repr p.1 (.int n)).map fun n => (n, Val.f3 p.2)) with
  | error e => rw [hl] at h; simp [Except.map] at h
  | ok l =>
    rw [hl] at h
    simp only [Except.map, Except.ok.injEq] at h
    have hmem : ∀ s v, (s, v) ∈ l ↔ ∃ k a, (k, a) ∈ m ∧ v = Val.f3 a ∧
        parallelSliceFieldName repr k (.int n) = .ok s := by
      clear h hk hm
      induction m generalizing l with
      | nil => cases hl; simp
      | cons p t ih =>
        obtain ⟨k0, a0⟩ := p
        rw [List.mapM_cons] at hl
        obtain ⟨s0, h0, _⟩ := name_int repr k0 n hn
        rw [h0] at hl
        cases ht : t.mapM (fun p => (parallelSliceFieldName repr p.1 (.int n)).map fun n =>
            (n, Val.f3 p.2)) with
        | error e => rw [ht] at hl; simp [Except.map, bind, Except.bind] at hl
        | ok l' =>
          rw [ht] at hl
          simp only [Except.map, bind, Except.bind, pure, Except.pure, Except.ok.injEq] at hl
          subst hl
          intro s v
          rw [List.mem_cons, ih l' ht]
          constructor
          · rintro (e | ⟨k, a, h1, h2, h3⟩)
            · injection e with e1 e2
              exact ⟨k0, a0, List.mem_cons_self, e2, by rw [h0, e1]⟩
            · exact ⟨k, a, List.mem_cons_of_mem _ h1, h2, h3⟩
          · rintro ⟨k, a, h1, h2, h3⟩
            rcases List.mem_cons.1 h1 with e | h1
            · injection e with e1 e2
              subst e1 e2
              rw [h0] at h3
              injection h3 with h3
              left
              rw [h2, h3]
            · exact Or.inr ⟨k, a, h1, h2, h3⟩
    have hnd : (l.map (·.1)).Nodup := by
      have : ∃ g : String → String, (∀ k, parallelSliceFieldName repr k (.int n) = .ok (g k)) ∧
          l.map (·.1) = (m.map (·.1)).map g := by
        choose g hg _ using fun k => name_int repr k n hn
        refine ⟨g, hg, ?_⟩
        clear h hk hm hmem
        induction m generalizing l with
        | nil => cases hl; rfl
        | cons p t ih =>
          rw [List.mapM_cons, hg] at hl
          cases ht : t.mapM (fun p => (parallelSliceFieldName repr p.1 (.int n)).map fun n =>
              (n, Val.f3 p.2)) with
          | error e => rw [ht] at hl; simp [Except.map, bind, Except.bind] at hl
          | ok l' =>
            rw [ht] at hl
            simp only [Except.map, bind, Except.bind, pure, Except.pure, Except.ok.injEq] at hl
            subst hl
            simp [ih l' ht]
      obtain ⟨g, hg, e⟩ := this
      rw [e]
      refine (List.nodup_map_iff_inj_on hm).2 ?_
      intro a ha b hb hab
      exact (sliceName_inj repr (hk a ha) (hk b hb) hn hn (hg a) (by rw [hg b, hab])).1
    rw [ODict.ofList_nodup l hnd] at h
    subst h
    refine ⟨hnd, ?_, ?_⟩
    · intro k s hk1 hs
      cases hmk : m.get? k with
      | some a =>
        exact (ODict.get?_eq_some_iff _ hnd _ _).2 ((hmem _ _).2 ⟨k, a,
          (ODict.get?_eq_some_iff _ hm _ _).1 hmk, rfl, hs⟩)
      | none =>
        refine (ODict.get?_eq_none_iff _ _).2 ?_
        intro hc
        obtain ⟨⟨s', v⟩, hc1, hc2⟩ := List.mem_map.1 hc
        obtain ⟨k', a, q1, q2, q3⟩ := (hmem _ _).1 hc1
        have hc2 : s' = s := hc2
        subst hc2
        have hk' : k' ∈ ODict.keys m := List.mem_map.2 ⟨_, q1, rfl⟩
        have := (sliceName_inj repr hk1 (hk k' hk') hn hn hs q3).1
        subst this
        exact (ODict.get?_eq_none_iff _ _).1 hmk hk'
    · intro s hs
      obtain ⟨⟨s', v⟩, hc1, hc2⟩ := List.mem_map.1 hs
      obtain ⟨k', a, q1, q2, q3⟩ := (hmem _ _).1 hc1
      have hc2 : s' = s := hc2
      subst hc2
      exact ⟨k', hk k' (List.mem_map.2 ⟨_, q1, rfl⟩), q3⟩

/-- The grid on which the metric of slice `n` is to be computed: the traced positions
of the maps as poloidal grids, at the y coordinates of the slice. -/
structure SliceGrid (mkPol : (ℕ → ℕ → K) → (ℕ → ℕ → K) → PolGrid K) (ypar : List K) (Ly : K)
    (yperiodic : Bool) (maps : ODict (Cell → K)) (repr : K → String) (n : ℤ)
    (g : Grid (PolGrid K) K) : Prop where
  ycoords : parCoords ypar Ly yperiodic n = .ok g.ycoords
  Ly : g.Ly = Ly
  yperiodic : g.yperiodic = yperiodic
  planes : ∃ nR nZ R Z, parallelSliceFieldName repr "R" (.int n) = .ok nR ∧
    parallelSliceFieldName repr "Z" (.int n) = .ok nZ ∧ maps.get? nR = some R ∧ maps.get? nZ = some Z ∧
    g.polGrids.length = ypar.length ∧
    ∀ j < ypar.length, g.polGrids[j]? = some (mkPol (fun x z => R (x, j, z)) fun x z => Z (x, j, z))

theorem getE_ok {V : Type} {m : ODict V} {k : String} {v : V} (h : m.getE k = .ok v) :
    m.get? k = some v := by
  unfold ODict.getE at h
  split at h
  · injection h with h
    subst h
    assumption
  · simp at h

theorem parGrid_ok {mkPol : (ℕ → ℕ → K) → (ℕ → ℕ → K) → PolGrid K} {ypar : List K} {Ly : K}
    {yperiodic : Bool} {maps : ODict (Cell → K)} {repr : K → String} {n : ℤ} {g : Grid (PolGrid K) K}
    (h : parGrid mkPol ypar Ly yperiodic maps repr n = .ok g) :
    SliceGrid mkPol ypar Ly yperiodic maps repr n g := by
  unfold parGrid at h
  cases h1 : parCoords ypar Ly yperiodic n with
  | error e => rw [h1] at h; simp [bind, Except.bind] at h
  | ok p =>
    cases h2 : parallelSliceFieldName repr "R" (.int n) with
    | error e => rw [h1, h2] at h; simp [bind, Except.bind] at h
    | ok nR =>
      cases h3 : parallelSliceFieldName repr "Z" (.int n) with
      | error e =>
        rw [h1, h2, h3] at h
        simp only [bind, Except.bind] at h
        split at h <;> simp at h
      | ok nZ =>
        rw [h1, h2, h3] at h
        simp only [bind, Except.bind] at h
        cases h4 : maps.getE nR with
        | error e => rw [h4] at h; simp at h
        | ok R =>
          cases h5 : maps.getE nZ with
          | error e => rw [h4, h5] at h; simp at h
          | ok Z =>
            rw [h4, h5] at h
            simp only at h
            obtain ⟨a, b, c, d, e, f⟩ := Grid.init_many h
            refine ⟨by rw [h1, b], c, d, nR, nZ, R, Z, h2, h3, getE_ok h4, getE_ok h5, by rw [a]; simp, ?_⟩
            intro j hj
            rw [a, List.getElem?_map, List.getElem?_range hj]
            rfl

/-- One slice: its metric is in the file under the names of the slice, and nothing
else has changed. -/
theorem writeSlice_ok (c : MwConf K) (mkPol : (ℕ → ℕ → K) → (ℕ → ℕ → K) → PolGrid K) (f : MagField K)
    (ypar : List K) (Ly : K) (yperiodic : Bool) (maps : ODict (Cell → K)) (repr : K → String)
    (file : ODict (Val K)) (n : ℤ) (hn : n ≠ 0)
    (h : (writeSlice c mkPol f ypar Ly yperiodic maps repr file n).2 = none) :
    (∃ g m b, SliceGrid mkPol ypar Ly yperiodic maps repr n g ∧ getMetric c.sqrt g f none = .ok (m, b) ∧
      ∀ k k' s a, m.get? k = some a → FileName c.newNames k k' →
        parallelSliceFieldName repr k' (.int n) = .ok s →
        (writeSlice c mkPol f ypar Ly yperiodic maps repr file n).1.get? s = some (.f3 a)) ∧
    ∀ s, (∀ k ∈ outNames, parallelSliceFieldName repr k (.int n) ≠ .ok s) →
      (writeSlice c mkPol f ypar Ly yperiodic maps repr file n).1.get? s = file.get? s := by
  unfold writeSlice at h ⊢
  cases h1 : parGrid mkPol ypar Ly yperiodic maps repr n with
  | error e => rw [h1] at h; simp at h
  | ok g =>
    rw [h1] at h
    simp only at h ⊢
    cases h2 : getMetric c.sqrt g f none with
    | error e => rw [h2] at h; simp at h
    | ok mb =>
      obtain ⟨m, b⟩ := mb
      rw [h2] at h
      simp only at h ⊢
      obtain ⟨hnd, hnames⟩ := getMetric_names h2
      have hbase : ∀ k ∈ baseMetricNames, k ∈ allMetricNames := by decide
      have hout : ∃ out : Metric K, (if c.newNames then m else updateMetricNames m) = out ∧
          (ODict.keys out).Nodup ∧ (∀ k ∈ ODict.keys out, k ∈ outNames) ∧
          ∀ k k', k ∈ ODict.keys m → FileName c.newNames k k' → out.get? k' = m.get? k := by
        refine ⟨_, rfl, ?_, ?_, ?_⟩
        · split
          · exact hnd
          · exact ODict.nodup_ofList _
        · intro k hk
          split at hk
          · exact List.mem_append_left _ (hnames k hk)
          · unfold updateMetricNames at hk
            rw [ODict.mem_keys_ofList, List.map_map] at hk
            obtain ⟨q, hq1, hq2⟩ := List.mem_map.1 hk
            have hq2 : rename q.1 = k := hq2
            rw [← hq2]
            refine base_fileName false (hnames q.1 (List.mem_map.2 ⟨q, hq1, rfl⟩)) ?_
            exact newName_rename q.1
        · intro k k' hk hkk
          unfold FileName at hkk
          split
          · rename_i hc; rw [if_pos hc] at hkk; rw [hkk]
          · rename_i hc
            rw [if_neg hc] at hkk
            refine (C37_renames m hnd ?_).2.2 k k' hk hkk
            intro p hp _ hp2
            exact all_noClash p hp (hbase _ (hnames _ hp2))
      obtain ⟨out, ho, hno, hon, hget⟩ := hout
      rw [ho] at h ⊢
      cases h3 : sliceDict repr n out with
      | error e => rw [h3] at h; simp at h
      | ok d =>
        rw [h3] at h
        simp only at h ⊢
        obtain ⟨d1, d2, d3⟩ := sliceDict_ok hn hon hno h3
        have hopen : c.isOpen = true := by
          cases hc : c.isOpen with
          | true => rfl
          | false => rw [hc] at h; simp [writeDict] at h
        rw [hopen] at h ⊢
        have hr := C38_read_back (valOps c.finite) c.metric2d d file d1 h
        refine ⟨⟨g, m, b, parGrid_ok h1, h2, ?_⟩, ?_⟩
        · intro k k' s a hk hkk hs
          have hkm : k ∈ ODict.keys m := (ODict.mem_keys_iff _ _).2 (by rw [hk]; simp)
          rw [hr, d2 k' s (base_fileName _ (hnames k hkm) hkk) hs, hget k k' hkm hkk, hk]
          rfl
        · intro s hs
          rw [hr, (ODict.get?_eq_none_iff _ _).2, Option.none_or]
          intro hc
          obtain ⟨k, q1, q2⟩ := d3 s hc
          exact hs k q1 q2

/-- What the file is to contain for slice `n`. -/
def SliceInFile (c : MwConf K) (mkPol : (ℕ → ℕ → K) → (ℕ → ℕ → K) → PolGrid K) (f : MagField K)
    (ypar : List K) (Ly : K) (yperiodic : Bool) (maps : ODict (Cell → K)) (repr : K → String)
    (n : ℤ) (file : ODict (Val K)) : Prop :=
  ∃ g m b, SliceGrid mkPol ypar Ly yperiodic maps repr n g ∧ getMetric c.sqrt g f none = .ok (m, b) ∧
    ∀ k k' s a, m.get? k = some a → FileName c.newNames k k' →
      parallelSliceFieldName repr k' (.int n) = .ok s → file.get? s = some (.f3 a)

theorem writeSlices_ok (c : MwConf K) (mkPol : (ℕ → ℕ → K) → (ℕ → ℕ → K) → PolGrid K) (f : MagField K)
    (ypar : List K) (Ly : K) (yperiodic : Bool) (maps : ODict (Cell → K)) (repr : K → String)
    (l : List ℤ) (hl : l.Nodup) (h0 : 0 ∉ l) : ∀ file : ODict (Val K),
    (writeSlices c mkPol f ypar Ly yperiodic maps repr l file).2 = none →
    (∀ n ∈ l, SliceInFile c mkPol f ypar Ly yperiodic maps repr n
      (writeSlices c mkPol f ypar Ly yperiodic maps repr l file).1) ∧
    ∀ s, (∀ n ∈ l, ∀ k ∈ outNames, parallelSliceFieldName repr k (.int n) ≠ .ok s) →
      (writeSlices c mkPol f ypar Ly yperiodic maps repr l file).1.get? s = file.get? s := by
  induction l with
  | nil => intro file _; exact ⟨by simp, fun s _ => rfl⟩
  | cons n t ih =>
    intro file h
    have hn : n ≠ 0 := fun e => h0 (by rw [e]; exact List.mem_cons_self)
    unfold writeSlices at h ⊢
    cases hw : writeSlice c mkPol f ypar Ly yperiodic maps repr file n with
    | mk file1 err =>
      rw [hw] at h
      cases err with
      | some e => simp at h
      | none =>
        simp only at h ⊢
        have hs := writeSlice_ok c mkPol f ypar Ly yperiodic maps repr file n hn (by rw [hw])
        rw [hw] at hs
        obtain ⟨⟨g, m, b, a1, a2, a3⟩, a4⟩ := hs
        obtain ⟨i1, i2⟩ := ih (List.nodup_cons.1 hl).2 (fun h => h0 (List.mem_cons_of_mem _ h)) file1 h
        constructor
        · intro n' hn'
          rcases List.mem_cons.1 hn' with rfl | hn'
          · refine ⟨g, m, b, a1, a2, ?_⟩
            intro k k' s a hk hkk hs
            have hkm : k ∈ ODict.keys m := (ODict.mem_keys_iff _ _).2 (by rw [hk]; simp)
            rw [i2 s, a3 k k' s a hk hkk hs]
            intro n2 hn2 k2 hk2 hc
            have := (sliceName_inj repr (base_fileName _ ((getMetric_names a2).2 k hkm) hkk) hk2 hn
              (fun e => h0 (by rw [← e]; exact List.mem_cons_of_mem _ hn2)) hs hc).2
            subst this
            exact (List.nodup_cons.1 hl).1 hn2
          · exact i1 n' hn'
        · intro s hs
          rw [i2 s (fun n2 h2 => hs n2 (List.mem_cons_of_mem _ h2)), a4 s (hs n List.mem_cons_self)]

theorem mem_parOffsets {nslice : ℕ} {n : ℤ} : n ∈ parOffsets nslice ↔ n ≠ 0 ∧ n.natAbs ≤ nslice := by
  unfold parOffsets
  rw [List.mem_append, List.mem_map, List.mem_map]
  constructor
  · rintro (⟨i, hi, rfl⟩ | ⟨i, hi, rfl⟩) <;> have := List.mem_range.1 hi <;> omega
  · rintro ⟨h1, h2⟩
    by_cases h : 0 < n
    · exact Or.inl ⟨n.natAbs - 1, List.mem_range.2 (by omega), by omega⟩
    · exact Or.inr ⟨n.natAbs - 1, List.mem_range.2 (by omega), by omega⟩

theorem parOffsets_nodup (nslice : ℕ) : (parOffsets nslice).Nodup := by
  unfold parOffsets
  rw [List.nodup_append]
  refine ⟨(List.nodup_map_iff_inj_on List.nodup_range).2 (fun a _ b _ h => by omega),
    (List.nodup_map_iff_inj_on List.nodup_range).2 (fun a _ b _ h => by omega), ?_⟩
  intro a ha b hb hab
  obtain ⟨i, _, rfl⟩ := List.mem_map.1 ha
  obtain ⟨j, _, rfl⟩ := List.mem_map.1 hb
  omega

/-- **C101.** After `_write_par_metric` without exception, for every slice
`-nslice .. nslice` but 0 the file has the metric that `get_metric` gives on the grid
of the positions of that slice, every entry under the name of that slice; variables
with other names have not changed. -/
theorem C101_slices_in_file (c : MwConf K) (mkPol : (ℕ → ℕ → K) → (ℕ → ℕ → K) → PolGrid K)
    (f : MagField K) (ypar : List K) (Ly : K) (yperiodic : Bool) (maps : ODict (Cell → K))
    (repr : K → String) (nslice : ℕ) (file : ODict (Val K))
    (h : (writeParMetric c mkPol f ypar Ly yperiodic maps repr nslice file).2 = none) :
    (∀ n : ℤ, n ≠ 0 → n.natAbs ≤ nslice → SliceInFile c mkPol f ypar Ly yperiodic maps repr n
      (writeParMetric c mkPol f ypar Ly yperiodic maps repr nslice file).1) ∧
    ∀ s, (∀ n : ℤ, n ≠ 0 → n.natAbs ≤ nslice → ∀ k ∈ outNames,
        parallelSliceFieldName repr k (.int n) ≠ .ok s) →
      (writeParMetric c mkPol f ypar Ly yperiodic maps repr nslice file).1.get? s = file.get? s := by
  unfold writeParMetric at h ⊢
  cases hc : checkLy ypar Ly with
  | error e => rw [hc] at h; simp at h
  | ok u =>
    rw [hc] at h
    simp only at h ⊢
    obtain ⟨a, b⟩ := writeSlices_ok c mkPol f ypar Ly yperiodic maps repr _ (parOffsets_nodup nslice)
      (fun h => (mem_parOffsets.1 h).1 rfl) file h
    exact ⟨fun n h1 h2 => a n (mem_parOffsets.2 ⟨h1, h2⟩), fun s hs => b s fun n hn =>
      hs n (mem_parOffsets.1 hn).1 (mem_parOffsets.1 hn).2⟩

theorem ok_bind {A B : Type} {a : A} {F : A → Except Err B} : (Except.ok a >>= F) = F a := rfl

theorem sliceDict_total (repr : K → String) (n : ℤ) (hn : n ≠ 0) (m : Metric K) :
    ∃ d, sliceDict repr n m = .ok d := by
  have : ∃ l, m.mapM (fun p => (parallelSliceFieldName repr p.1 (.int n)).map fun n => (n, Val.f3 p.2)) =
      Except.ok l := by
    induction m with
    | nil => exact ⟨_, rfl⟩
    | cons p t ih =>
      obtain ⟨l, hl⟩ := ih
      obtain ⟨s, hs, _⟩ := name_int repr p.1 n hn
      rw [List.mapM_cons, hs, hl]
      exact ⟨_, rfl⟩
  obtain ⟨l, hl⟩ := this
  unfold sliceDict
  rw [hl]
  exact ⟨_, rfl⟩

/-- The map has traced positions for slice `n`. -/
def HasSlice (maps : ODict (Cell → K)) (repr : K → String) (n : ℤ) : Prop :=
  ∀ k ∈ ["R", "Z"], ∃ s, parallelSliceFieldName repr k (.int n) = .ok s ∧ maps.get? s ≠ none

/-- **C101.** It does succeed on periodic grids with equally spaced planes (with positive
`Ly`), if the file is open, the metric of all traced planes can be computed and
all numbers are finite. -/
theorem C101_succeeds (c : MwConf K) (ho : c.isOpen = true) (hfin : ∀ v, c.finite v = true)
    (mkPol : (ℕ → ℕ → K) → (ℕ → ℕ → K) → PolGrid K) (hc : ∀ R Z, (mkPol R Z).Complete)
    (hJ : (∀ R Z, (mkPol R Z).ProvidesJ) ∨ (∀ R Z, ¬ (mkPol R Z).ProvidesJ))
    (f : MagField K) (ypar : List K) (Ly : K) (hu : UniformY ypar Ly) (hLy : 0 < Ly)
    (hn : 2 ≤ ypar.length) (maps : ODict (Cell → K)) (repr : K → String) (nslice : ℕ)
    (hmaps : ∀ n : ℤ, n ≠ 0 → n.natAbs ≤ nslice → HasSlice maps repr n) (file : ODict (Val K)) :
    (writeParMetric c mkPol f ypar Ly true maps repr nslice file).2 = none := by
  have hck : checkLy ypar Ly = .ok () := by
    obtain ⟨y0, h, h0, hy, e⟩ := hu
    unfold checkLy
    rw [if_neg]
    rintro ⟨_, hc⟩
    apply hc
    rw [uniform_mean hn y0 h hy e, e, mul_comm]
    exact isClose_self _
  have hslice : ∀ (n : ℤ) (file : ODict (Val K)), n ≠ 0 → n.natAbs ≤ nslice →
      (writeSlice c mkPol f ypar Ly true maps repr file n).2 = none := by
    intro n file hn0 hns
    obtain ⟨p, hp, hpl, _⟩ := C39_spacing_partial ypar Ly hu hLy hn n
    obtain ⟨nR, hR, hR'⟩ := hmaps n hn0 hns "R" (by simp)
    obtain ⟨nZ, hZ, hZ'⟩ := hmaps n hn0 hns "Z" (by simp)
    obtain ⟨R, hR'⟩ := Option.ne_none_iff_exists'.1 hR'
    obtain ⟨Z, hZ'⟩ := Option.ne_none_iff_exists'.1 hZ'
    have hg : ∃ g, parGrid mkPol ypar Ly true maps repr n = .ok g ∧ Grid.init (fun p => (p.nx, p.nz))
        (.many ((List.range ypar.length).map fun i =>
          mkPol (fun x z => R (x, i, z)) fun x z => Z (x, i, z))) p Ly true = .ok g := by
      unfold parGrid
      rw [hp, hR, hZ]
      simp only [ok_bind, ODict.getE_of_get? hR', ODict.getE_of_get? hZ']
      unfold Grid.init
      simp only
      rw [if_neg (by simp [hpl]), List.getElem?_map, List.getElem?_range (by omega)]
      exact ⟨_, rfl, rfl⟩
    obtain ⟨g, hg, hgi⟩ := hg
    have hmg : MetricGrid g _ p := ⟨⟨_, _, _, hgi⟩, ?_, ?_⟩
    rotate_left
    · intro q hq
      obtain ⟨i, _, rfl⟩ := List.mem_map.1 hq
      exact hc _ _
    · rcases hJ with hJ | hJ
      · left
        intro q hq
        obtain ⟨i, _, rfl⟩ := List.mem_map.1 hq
        exact hJ _ _
      · right
        intro q hq
        obtain ⟨i, _, rfl⟩ := List.mem_map.1 hq
        exact hJ _ _
    obtain ⟨f1, f2, hl, M, xx, zz, xz, hM, M1, M2, hxx, hzz, hxz⟩ := hmg.facts
    obtain ⟨r, e, _⟩ := getMetric_eq c.sqrt g (by rw [f1, f2]; exact hl) f none M hM _ _ xx zz xz M1 M2 hxx
      hzz hxz
    obtain ⟨d, hd⟩ := sliceDict_total repr n hn0 (if c.newNames then r else updateMetricNames r)
    unfold writeSlice
    simp only [hg, e, hd]
    unfold writeDict
    rw [ho, if_neg (by simp), if_neg (by simp), writeEntries_ok (valOps c.finite) _ hfin]
  have hall : ∀ (l : List ℤ) (file : ODict (Val K)), (∀ n ∈ l, n ≠ 0 ∧ n.natAbs ≤ nslice) →
      (writeSlices c mkPol f ypar Ly true maps repr l file).2 = none := by
    intro l
    induction l with
    | nil => intro file _; rfl
    | cons n t ih =>
      intro file h
      unfold writeSlices
      obtain ⟨h1, h2⟩ := h n List.mem_cons_self
      have := hslice n file h1 h2
      cases hw : writeSlice c mkPol f ypar Ly true maps repr file n with
      | mk file1 err =>
        rw [hw] at this
        simp only at this
        subst this
        exact ih file1 fun n hn => h n (List.mem_cons_of_mem _ hn)
  unfold writeParMetric
  rw [hck]
  exact hall _ _ fun n hn => mem_parOffsets.1 hn

/-- Four planes and one slice in each direction. -/
def exSliceMaps : ODict (Cell → ℚ) :=
  [("forward_R", fun c => c.1), ("forward_Z", fun c => c.2.2), ("backward_R", fun c => c.1 + 1),
    ("backward_Z", fun c => 2 * c.2.2)]

def exMkPol (R Z : ℕ → ℕ → ℚ) : PolGrid ℚ := { exPol true with R := R, Z := Z }

theorem exMkPol_complete (R Z : ℕ → ℕ → ℚ) : (exMkPol R Z).Complete := by
  have := exPol_complete true
  unfold PolGrid.Complete at this ⊢
  exact this

theorem exMkPol_J (R Z : ℕ → ℕ → ℚ) : (exMkPol R Z).ProvidesJ := by
  simp [PolGrid.ProvidesJ, exPol, exMkPol]

theorem exUniform : UniformY ([1, 2, 3, 4] : List ℚ) 4 := by
  refine ⟨1, 1, by norm_num, ?_, by norm_num⟩
  intro i hi
  have : i < 4 := hi
  interval_cases i <;> norm_num

theorem exHasSlice (n : ℤ) (h1 : n ≠ 0) (h2 : n.natAbs ≤ 1) : HasSlice exSliceMaps (fun _ => "") n := by
  intro k hk
  have hn : n = 1 ∨ n = -1 := by omega
  simp only [List.mem_cons, List.not_mem_nil, or_false] at hk
  rcases hn with rfl | rfl <;> rcases hk with rfl | rfl
  · exact ⟨"forward_R", by decide +kernel, by simp [exSliceMaps, ODict.get?_cons]⟩
  · exact ⟨"forward_Z", by decide +kernel, by simp [exSliceMaps, ODict.get?_cons]⟩
  · exact ⟨"backward_R", by decide +kernel, by simp [exSliceMaps, ODict.get?_cons]⟩
  · exact ⟨"backward_Z", by decide +kernel, by simp [exSliceMaps, ODict.get?_cons]⟩

theorem exSlice_succeeds (nn m2 : Bool) (file : ODict (Val ℚ)) :
    (writeParMetric (exConf nn m2) exMkPol exField [1, 2, 3, 4] 4
      true exSliceMaps (fun _ => "") 1 file).2 = none :=
  C101_succeeds (exConf nn m2) rfl (fun _ => rfl) exMkPol exMkPol_complete (Or.inl exMkPol_J) exField
    [1, 2, 3, 4] 4 exUniform (by norm_num) (by decide) exSliceMaps (fun _ => "") 1 exHasSlice file

example (file : ODict (Val ℚ)) : SliceInFile (exConf false false) exMkPol
    exField [1, 2, 3, 4] 4 true exSliceMaps (fun _ => "") (-1)
    (writeParMetric (exConf false false) exMkPol exField [1, 2, 3, 4] 4
      true exSliceMaps (fun _ => "") 1 file).1 :=
  (C101_slices_in_file (exConf false false) exMkPol exField [1, 2, 3, 4] 4 true exSliceMaps (fun _ => "") 1 file
    (exSlice_succeeds false false file)).1 (-1) (by decide) (by decide)

/-! ## C102: grids that are not periodic -/

/-- **C102**, the claim: on a grid that is not periodic, with equally spaced planes, the
coordinates of slice `n` are those of the planes moved by `n` spacings. -/
def OpenSliceCoords (ypar : List K) (Ly : K) (n : ℤ) : Prop :=
  ∃ p, parCoords ypar Ly false n = .ok p ∧ ∀ i < ypar.length,
    p.getD i 0 = ypar.getD i 0 + (n : K) * (Ly / (ypar.length : K))

/-- The planes whose neighbour exists get the right coordinate.  Missing: the others, see
`C102_fails`. -/
theorem C102_interior_partial (ypar : List K) (Ly : K) (hu : UniformY ypar Ly) (n : ℤ) :
    ∃ p, parCoords ypar Ly false n = .ok p ∧ p.length = ypar.length ∧ ∀ i < ypar.length, 0 ≤ (i : ℤ) + n →
      (i : ℤ) + n < ypar.length → p.getD i 0 = ypar.getD i 0 + (n : K) * (Ly / (ypar.length : K)) := by
  obtain ⟨y0, h, h0, hy, e⟩ := hu
  refine ⟨rollBack ypar n, rfl, by simp [rollBack], ?_⟩
  intro i hi h1 h2
  rw [getD_rollBack _ _ _ hi, Int.emod_eq_of_lt h1 h2, hy i hi, hy _ (by omega), e]
  have : (ypar.length : K) ≠ 0 := by
    have : ypar.length ≠ 0 := by omega
    exact_mod_cast this
  have c : ((((i : ℤ) + n).toNat : ℕ) : K) = (i : K) + (n : K) := by
    rw [← Int.cast_natCast, Int.toNat_of_nonneg h1]
    push_cast
    ring
  rw [c]
  field_simp
  ring

example : UniformY ([0, 1, 2] : List ℚ) 3 :=
  ⟨0, 1, by norm_num, by
    intro i hi
    have : i < 3 := hi
    interval_cases i <;> norm_num, by norm_num⟩

/-- **C102** is false: the coordinates are rolled around the end of the grid.  For planes
at 0, 1, 2 the forward slice gets 1, 2, 0, so the `dy` of the slice, which is the
gradient of these, is negative in the last two planes. -/
theorem C102_fails : UniformY ([0, 1, 2] : List ℚ) 3 ∧ ¬ OpenSliceCoords ([0, 1, 2] : List ℚ) 3 1 ∧
    parCoords ([0, 1, 2] : List ℚ) 3 false 1 = .ok [1, 2, 0] := by
  have h : parCoords ([0, 1, 2] : List ℚ) 3 false 1 = .ok [1, 2, 0] := by decide +kernel
  refine ⟨⟨0, 1, by norm_num, ?_, by norm_num⟩, ?_, h⟩
  · intro i hi
    have : i < 3 := hi
    interval_cases i <;> norm_num
  · rintro ⟨p, hp, hc⟩
    rw [h] at hp
    injection hp with hp
    subst hp
    have := hc 2 (by decide)
    norm_num at this

end Zoidberg
