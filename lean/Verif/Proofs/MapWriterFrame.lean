import Verif.Model.MapWriter
import Verif.Props.ParMetric

/-! # Which variables of the file the calls of `MapWriter` can change -/

set_option linter.unusedSectionVars false

namespace Zoidberg

variable {K : Type} [Field K] [LinearOrder K] [IsStrictOrderedRing K] [FloorRing K]

theorem mapM_fst {V W : Type} {F : V → Except Err W} {l : List (String × V)} {r : List (String × W)}
    (h : l.mapM (fun p => (F p.2).map fun v => (p.1, v)) = .ok r) : r.map (·.1) = l.map (·.1) := by
  induction l generalizing r with
  | nil => cases h; rfl
  | cons p t ih =>
    rw [List.mapM_cons] at h
    cases hp : F p.2 with
    | error e => rw [hp] at h; simp [Except.map, bind, Except.bind] at h
    | ok a =>
      rw [hp] at h
      cases ht : t.mapM (fun p => (F p.2).map fun v => (p.1, v)) with
      | error e => rw [ht] at h; simp [Except.map, bind, Except.bind] at h
      | ok r' =>
        rw [ht] at h
        simp only [Except.map, bind, Except.bind, pure, Except.pure, Except.ok.injEq] at h
        subst h
        simp [ih ht]

theorem cutDict_keys {V : Type} {o : Vals V} {d d' : ODict V} (h : cutDict o d = .ok d') :
    d'.keys = d.keys := by
  unfold cutDict at h
  cases hm : d.mapM (fun p => (cutEntry o p.2).map fun v => (p.1, v)) with
  | error e => rw [hm] at h; simp at h
  | ok r =>
    rw [hm] at h
    have hk : ODict.keys r = ODict.keys d := mapM_fst hm
    simp only at h
    cases hz : ODict.get? r "dz" with
    | none => rw [hz] at h; injection h with h; subst h; exact hk
    | some dz =>
      rw [hz] at h
      dsimp only at h
      cases hc : o.corner dz with
      | error e => rw [hc] at h; simp [Except.map] at h
      | ok v =>
        rw [hc] at h
        simp only [Except.map, Except.ok.injEq] at h
        subst h
        rw [ODict.keys_set_of_mem _ _ _ ((ODict.mem_keys_iff _ _).2 (by rw [hz]; simp))]
        exact hk

/-- `write_dict` only changes variables in the dictionary. -/
theorem writeDict_frame {V : Type} (o : Vals V) (isOpen metric2d always3d : Bool) (d file : ODict V)
    (s : String) (hs : s ∉ d.keys) :
    (writeDict o isOpen metric2d always3d d file).1.get? s = file.get? s := by
  cases isOpen with
  | false => rfl
  | true =>
    rcases C38_all_or_prefix o metric2d always3d d file with
      ⟨e, h1, _⟩ | ⟨d', hr, ⟨_, h2⟩ | ⟨pre, k, v, post, e, _, _, h4⟩⟩
    · rw [h1]
    · have hk : d'.keys = d.keys := by
        rcases hr with ⟨_, _, h⟩ | ⟨_, h⟩
        · exact cutDict_keys h
        · rw [h]
      rw [h2]
      exact ODict.get?_foldl_set_of_not_mem d' s (by rw [← hk] at hs; exact hs) file
    · have hk : d'.keys = d.keys := by
        rcases hr with ⟨_, _, h⟩ | ⟨_, h⟩
        · exact cutDict_keys h
        · rw [h]
      rw [h4]
      refine ODict.get?_foldl_set_of_not_mem pre s ?_ file
      intro hc
      apply hs
      rw [← hk, e]
      unfold ODict.keys
      rw [List.map_append]
      exact List.mem_append_left _ hc

theorem updateMetricNames_keys {V : Type} {d : ODict V} {k : String}
    (h : k ∈ (updateMetricNames d).keys) : k ∈ d.keys ∨ k ∈ documentedNames.map (·.2) := by
  unfold updateMetricNames at h
  rw [ODict.mem_keys_ofList, List.map_map] at h
  obtain ⟨q, hq1, hq2⟩ := List.mem_map.1 h
  have hq2 : rename q.1 = k := hq2
  subst hq2
  rcases newName_rename q.1 with h1 | ⟨h1, _⟩
  · exact Or.inr (List.mem_map.2 ⟨_, h1, rfl⟩)
  · rw [← h1]
    exact Or.inl (List.mem_map.2 ⟨q, hq1, rfl⟩)

/-- The names in the cache of a grid. -/
def cacheKeys (cache : Option (Metric K)) : List String :=
  match cache with
  | some m => ODict.keys m
  | none => []

theorem gridMetric_names {g : Grid (PolGrid K) K} {cache : Option (Metric K)} {m : Metric K}
    (h : g.metric cache = .ok m) {k : String} (hk : k ∈ ODict.keys m) :
    k ∈ cacheKeys cache ∨ k ∈ baseMetricNames := by
  cases cache with
  | some m' => injection h with h; subst h; exact Or.inl hk
  | none =>
    right
    have h' : g.computeMetric = .ok m := h
    unfold Grid.computeMetric at h'
    split at h'
    · simp at h'
    · split at h'
      · simp at h'
      · injection h' with h'
        subst h'
        have : k ∈ ["dx", "dy", "dz", "gyy", "g_yy", "gxx", "g_xx", "gxz", "g_xz", "gzz", "g_zz", "J"] := by
          split at hk
          · exact hk
          · have hk : k ∈ ["dx", "dy", "dz", "gyy", "g_yy", "gxx", "g_xx", "gxz", "g_xz", "gzz", "g_zz"] := hk
            exact List.mem_append_left ["J"] hk
        have hall : ∀ k ∈ ["dx", "dy", "dz", "gyy", "g_yy", "gxx", "g_xx", "gxz", "g_xz", "gzz", "g_zz",
          "J"], k ∈ baseMetricNames := by decide
        exact hall k this

theorem getMetric_names_any {sqrt : K → K} {g : Grid (PolGrid K) K} {f : MagField K}
    {cache : Option (Metric K)} {r : Metric K} {b : Cell → K}
    (h : getMetric sqrt g f cache = .ok (r, b)) {k : String} (hk : k ∈ ODict.keys r) :
    k ∈ cacheKeys cache ∨ k ∈ baseMetricNames := by
  unfold getMetric at h
  cases hm : g.metric cache with
  | error e => rw [hm] at h; simp at h
  | ok m =>
    rw [hm] at h
    simp only at h
    cases hc : cylindrical g f m with
    | error e => rw [hc] at h; simp at h
    | ok m1 =>
      rw [hc] at h
      simp only at h
      have hm1 : ∀ k ∈ ODict.keys m1, k ∈ cacheKeys cache ∨ k ∈ baseMetricNames := by
        intro k hk
        unfold cylindrical at hc
        split at hc
        · injection hc with hc
          subst hc
          exact gridMetric_names hm hk
        · rename_i R hR
          cases hF : fieldOnGrid g R with
          | error e => rw [hF] at hc; simp [Except.map] at hc
          | ok Rm =>
            rw [hF] at hc
            simp only [Except.map] at hc
            injection hc with hc
            subst hc
            simp only [mem_keys_set] at hk
            rcases hk with rfl | rfl | hk
            · exact Or.inr (by decide)
            · exact Or.inr (by decide)
            · exact gridMetric_names hm hk
      split at h
      · simp at h
      · rename_i s hs
        have k2 := gmLoop_keys _ hs
        simp only at k2
        split at h
        · injection h with h
          injection h with h _
          subst h
          simp only [mem_keys_set] at hk
          rcases hk with rfl | rfl | rfl | hk
          · exact Or.inr (by decide)
          · exact Or.inr (by decide)
          · exact Or.inr (by decide)
          · rw [k2] at hk
            exact hm1 k hk
        all_goals simp at h

theorem addLy_names {m : Metric K} {maps : ODict (Cell → K)} {k : String}
    (hk : k ∈ ODict.keys (addLy m maps).1) : k ∈ ODict.keys m ∨ k ∈ parallelNames := by
  have key : ∀ {m : Metric K} {n : String} {a : Cell → K}, n ∈ parallelNames →
      k ∈ ODict.keys (ODict.set m n a) → k ∈ ODict.keys m ∨ k ∈ parallelNames := by
    intro m n a hn hk
    rw [mem_keys_set] at hk
    rcases hk with rfl | hk
    · exact Or.inr hn
    · exact Or.inl hk
  have step : ∀ {m m' : Metric K} {n : String} {a : Cell → K}, n ∈ parallelNames →
      (k ∈ ODict.keys m → k ∈ ODict.keys m' ∨ k ∈ parallelNames) →
      k ∈ ODict.keys (ODict.set m n a) → k ∈ ODict.keys m' ∨ k ∈ parallelNames := by
    intro m m' n a hn hm hk
    rcases key hn hk with h | h
    · exact hm h
    · exact Or.inr h
  have p1 : "g_yy_old" ∈ parallelNames := by decide
  have p2 : "g_yy" ∈ parallelNames := by decide
  have p3 : "g_yy_cell_ylow" ∈ parallelNames := by decide
  have p4 : "g_yy_cell_yhigh" ∈ parallelNames := by decide
  have p5 : "g_yy_correct" ∈ parallelNames := by decide
  unfold addLy at hk
  split at hk
  · split at hk
    · exact Or.inl hk
    · simp only at hk
      split at hk
      · exact step p1 Or.inl hk
      · split at hk
        · exact step p2 (step p1 Or.inl) hk
        · split at hk
          · exact step p3 (step p2 (step p1 Or.inl)) hk
          · exact step p5 (step p4 (step p3 (step p2 (step p1 Or.inl)))) hk
  · split at hk
    · exact Or.inl hk
    · exact step p4 (step p3 Or.inl) hk

/-- The names under which `_write_metric` may store something. -/
def metricFileNames : List String := allMetricNames ++ documentedNames.map (·.2)

theorem base_all {k : String} (h : k ∈ baseMetricNames) : k ∈ allMetricNames :=
  List.mem_append_left _ h

theorem parallel_all {k : String} (h : k ∈ parallelNames) : k ∈ allMetricNames :=
  List.mem_append_right _ h

/-- What `_write_metric` changes, whether it raises or not. -/
theorem writeMetric_frame (c : MwConf K) (g : Grid (PolGrid K) K) (f : MagField K)
    (maps : ODict (Cell → K)) (file : ODict (Val K)) (cache : Option (Metric K)) :
    (∀ s, s ∉ metricFileNames → s ∉ cacheKeys cache → s ∉ f.attributes.map (·.1) →
      (writeMetric c g f maps file cache).file.get? s = file.get? s) ∧
    ∀ k ∈ cacheKeys (writeMetric c g f maps file cache).cache,
      k ∈ cacheKeys cache ∨ k ∈ allMetricNames := by
  unfold writeMetric
  cases hg : getMetric c.sqrt g f cache with
  | error e =>
    simp only
    refine ⟨fun _ _ _ _ => trivial, ?_⟩
    intro k hk
    cases hm : g.metric cache with
    | error e => rw [hm] at hk; exact Or.inl hk
    | ok m =>
      rw [hm] at hk
      rcases gridMetric_names hm hk with h | h
      · exact Or.inl h
      · exact Or.inr (base_all h)
  | ok mb =>
    obtain ⟨m, b⟩ := mb
    simp only
    have hm : ∀ k ∈ ODict.keys (addLy m maps).1, k ∈ cacheKeys cache ∨ k ∈ allMetricNames := by
      intro k hk
      rcases addLy_names hk with h | h
      · rcases getMetric_names_any hg h with h | h
        · exact Or.inl h
        · exact Or.inr (base_all h)
      · exact Or.inr (parallel_all h)
    cases ha : addLy m maps with
    | mk m' err =>
      rw [ha] at hm
      cases err with
      | some e => exact ⟨fun _ _ _ _ => rfl, hm⟩
      | none =>
        simp only
        have h1 : ∀ s, s ∉ metricFileNames → s ∉ cacheKeys cache →
            (writeDict (valOps c.finite) c.isOpen c.metric2d false
              ((if c.newNames then m' else updateMetricNames m').mapV .f3) file).1.get? s =
              file.get? s := by
          intro s hs1 hs2
          refine writeDict_frame _ _ _ _ _ _ s ?_
          rw [ODict.keys_mapV]
          intro hc
          have : s ∈ cacheKeys cache ∨ s ∈ allMetricNames ∨ s ∈ documentedNames.map (·.2) := by
            split at hc
            · rcases hm s hc with h | h
              · exact Or.inl h
              · exact Or.inr (Or.inl h)
            · rcases updateMetricNames_keys hc with h | h
              · rcases hm s h with h | h
                · exact Or.inl h
                · exact Or.inr (Or.inl h)
              · exact Or.inr (Or.inr h)
          rcases this with h | h | h
          · exact hs2 h
          · exact hs1 (List.mem_append_left _ h)
          · exact hs1 (List.mem_append_right _ h)
        cases hw : writeDict (valOps c.finite) c.isOpen c.metric2d false
            ((if c.newNames then m' else updateMetricNames m').mapV .f3) file with
        | mk file1 err1 =>
          rw [hw] at h1
          cases err1 with
          | some e => exact ⟨fun s a b _ => h1 s a b, hm⟩
          | none =>
            simp only
            cases hat : f.attributes.mapM fun p => (fieldOnGrid g p.2).map fun a => (p.1, Val.f3 a) with
            | error e => exact ⟨fun s a b _ => h1 s a b, by simp [cacheKeys]⟩
            | ok attrs =>
              refine ⟨?_, by simp [cacheKeys]⟩
              intro s a b hs
              simp only
              rw [writeDict_frame _ _ _ _ _ _ s]
              · exact h1 s a b
              · have : ODict.keys attrs = f.attributes.map (·.1) := mapM_keys hat
                rw [this]
                exact hs

/-- The name starts like that of a slice. -/
def SlicePrefix (s : String) : Prop :=
  "forward_".toList <+: s.toList ∨ "backward_".toList <+: s.toList

instance (s : String) : Decidable (SlicePrefix s) := by unfold SlicePrefix; infer_instance

theorem slice_prefix (repr : K → String) {k s : String} {n : ℤ} (hn : n ≠ 0)
    (h : parallelSliceFieldName repr k (.int n) = .ok s) : SlicePrefix s := by
  obtain ⟨s1, e1, l1⟩ := name_int repr k n hn
  rw [h] at e1
  injection e1 with e1
  subst e1
  unfold SlicePrefix
  rw [l1]
  by_cases a : 0 < n
  · left; rw [if_pos a, List.append_assoc]; exact List.prefix_append _ _
  · right; rw [if_neg a, List.append_assoc]; exact List.prefix_append _ _

theorem sliceDict_keys {repr : K → String} {n : ℤ} {m : Metric K} {d : ODict (Val K)}
    (h : sliceDict repr n m = .ok d) {s : String} (hs : s ∈ d.keys) :
    ∃ k ∈ ODict.keys m, parallelSliceFieldName repr k (.int n) = .ok s := by
  unfold sliceDict at h
  cases hl : m.mapM (fun p => (parallelSliceFieldName repr p.1 (.int n)).map fun n => (n, Val.f3 p.2)) with
  | error e => rw [hl] at h; simp [Except.map] at h
  | ok l =>
    rw [hl] at h
    simp only [Except.map, Except.ok.injEq] at h
    subst h
    rw [ODict.mem_keys_ofList] at hs
    obtain ⟨⟨s', v⟩, hsv, e⟩ := List.mem_map.1 hs
    have e : s' = s := e
    subst e
    clear hs
    induction m generalizing l with
    | nil => cases hl; simp at hsv
    | cons p t ih =>
      rw [List.mapM_cons] at hl
      cases hp : parallelSliceFieldName repr p.1 (.int n) with
      | error e => rw [hp] at hl; simp [Except.map, bind, Except.bind] at hl
      | ok s0 =>
        rw [hp] at hl
        cases ht : t.mapM (fun p => (parallelSliceFieldName repr p.1 (.int n)).map fun n =>
            (n, Val.f3 p.2)) with
        | error e => rw [ht] at hl; simp [Except.map, bind, Except.bind] at hl
        | ok l' =>
          rw [ht] at hl
          simp only [Except.map, bind, Except.bind, pure, Except.pure, Except.ok.injEq] at hl
          subst hl
          rcases List.mem_cons.1 hsv with e | hsv
          · injection e with e1 e2
            exact ⟨p.1, List.mem_cons_self, by rw [hp, e1]⟩
          · obtain ⟨k, a, b⟩ := ih l' ht hsv
            exact ⟨k, List.mem_cons_of_mem _ a, b⟩

theorem writeSlices_frame (c : MwConf K) (mkPol : (ℕ → ℕ → K) → (ℕ → ℕ → K) → PolGrid K)
    (f : MagField K) (ypar : List K) (Ly : K) (yperiodic : Bool) (maps : ODict (Cell → K))
    (repr : K → String) (s : String) (hs : ¬ SlicePrefix s) (l : List ℤ) (h0 : 0 ∉ l) :
    ∀ file : ODict (Val K),
    (writeSlices c mkPol f ypar Ly yperiodic maps repr l file).1.get? s = file.get? s := by
  induction l with
  | nil => intro file; rfl
  | cons n t ih =>
    intro file
    have hn : n ≠ 0 := fun e => h0 (by rw [e]; exact List.mem_cons_self)
    have h1 : (writeSlice c mkPol f ypar Ly yperiodic maps repr file n).1.get? s = file.get? s := by
      unfold writeSlice
      split
      · rfl
      · split
        · rfl
        · split
          · rfl
          · rename_i d hd
            refine writeDict_frame _ _ _ _ _ _ s ?_
            intro hc
            obtain ⟨k, _, hk⟩ := sliceDict_keys hd hc
            exact hs (slice_prefix repr hn hk)
    unfold writeSlices
    cases hw : writeSlice c mkPol f ypar Ly yperiodic maps repr file n with
    | mk file1 err =>
      rw [hw] at h1
      cases err with
      | some e => exact h1
      | none =>
        simp only
        rw [ih (fun h => h0 (List.mem_cons_of_mem _ h))]
        exact h1

theorem writeParMetric_frame (c : MwConf K) (mkPol : (ℕ → ℕ → K) → (ℕ → ℕ → K) → PolGrid K)
    (f : MagField K) (ypar : List K) (Ly : K) (yperiodic : Bool) (maps : ODict (Cell → K))
    (repr : K → String) (nslice : ℕ) (file : ODict (Val K)) (s : String) (hs : ¬ SlicePrefix s) :
    (writeParMetric c mkPol f ypar Ly yperiodic maps repr nslice file).1.get? s = file.get? s := by
  unfold writeParMetric
  split
  · rfl
  · exact writeSlices_frame c mkPol f ypar Ly yperiodic maps repr s hs _
      (fun h => (mem_parOffsets.1 h).1 rfl) file

end Zoidberg
