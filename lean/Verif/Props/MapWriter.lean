import Verif.Proofs.MapWriterFrame

/-! # C42, C105, C106: the calls of `MapWriter` and `write_maps` -/

set_option linter.unusedSectionVars false

namespace Zoidberg

variable {K : Type} [Field K] [LinearOrder K] [IsStrictOrderedRing K] [FloorRing K]

/-- The variables written at the end. -/
def dimNames : List String := ["nx", "ny", "nz", "ixseps1", "ixseps2"]

/-- The file has the sizes `nx`, `ny`, `nz` and no separatrix in the domain. -/
structure DimsInFile (nx ny nz : ℕ) (file : ODict (Val K)) : Prop where
  x : file.get? "nx" = some (.int nx)
  y : file.get? "ny" = some (.int ny)
  z : file.get? "nz" = some (.int nz)
  ixseps1 : file.get? "ixseps1" = some (.int (nx + 1))
  ixseps2 : file.get? "ixseps2" = some (.int (nx + 1))

/-- `_final` when it does not raise. -/
theorem final_ok {c : MwParams K} {id : String} {s : Mw K} (h : (s.final c id).2 = none) :
    ∃ nx ny nz attrs, s.nxyz = some [nx, ny, nz] ∧
      finalFile false (newAttrs "BOUT++ grid file" "zoidberg" c.version id) s.attrs = some attrs ∧
      (s.final c id).1 = { s with attrs := attrs, file := ((((s.file.set "nx" (.int nx)).set "ny" (.int ny)).set "nz" (.int nz)).set
          "ixseps1" (.int (nx + 1))).set "ixseps2" (.int (nx + 1)) } := by
  unfold Mw.final at h ⊢
  split at h
  · simp at h
  · rename_i attrs ha
    simp only at h ⊢
    split at h
    · simp at h
    · rename_i nx ny nz hn
      refine ⟨nx, ny, nz, attrs, hn, ha, ?_⟩
      simp only [hn]
    · simp at h

theorem final_dims (file : ODict (Val K)) (nx ny nz : ℕ) : DimsInFile nx ny nz
    (((((file.set "nx" (.int nx)).set "ny" (.int ny)).set "nz" (.int nz)).set
          "ixseps1" (.int (nx + 1))).set "ixseps2" (.int (nx + 1))) := by
  constructor <;> simp only [ODict.get?_set, String.reduceEq, if_true, if_false]

theorem final_other (file : ODict (Val K)) (nx ny nz : ℕ) (k : String) (hk : k ∉ dimNames) :
    (((((file.set "nx" (.int nx)).set "ny" (.int ny)).set "nz" (.int nz)).set
          "ixseps1" (.int (nx + 1))).set "ixseps2" (.int (nx + 1)) : ODict (Val K)).get? k = file.get? k := by
  simp only [dimNames, List.mem_cons, List.not_mem_nil, or_false, not_or] at hk
  obtain ⟨a, b, c, d, e⟩ := hk
  rw [ODict.get?_set_ne _ _ e, ODict.get?_set_ne _ _ d, ODict.get?_set_ne _ _ c, ODict.get?_set_ne _ _ b,
    ODict.get?_set_ne _ _ a]

/-- The steps of an `add_maps` that does not raise. -/
structure AddMapsSteps (c : MwParams K) (maps : ODict (Val K)) (id : String) (s : Mw K)
    (maps' : ODict (Val K)) (nslice : ℕ) (keep : ODict (Val K)) (f : MagField K)
    (g : Grid (PolGrid K) K) (file1 : ODict (Val K)) (nx ny nz : ℕ) : Prop where
  rxy : addRxy maps = .ok maps'
  write : writeDict (valOps c.finite) s.isOpen c.metric2d true maps' s.file = (file1, none)
  slices : keepSlices c.repr maps' = .ok (nslice, keep)
  field : s.field = some f
  grid : s.grid = some g
  metric : (writeMetric (c.conf s.isOpen) g f (f3s maps') file1 s.cache).err = none
  par : (writeParMetric (c.conf s.isOpen) c.mkPol f g.ycoords g.Ly g.yperiodic (f3s keep) c.repr nslice
    (writeMetric (c.conf s.isOpen) g f (f3s maps') file1 s.cache).file).2 = none
  nxyz : s.nxyz = some [nx, ny, nz]
  final : ∃ attrs, finalFile false (newAttrs "BOUT++ grid file" "zoidberg" c.version id) s.attrs = some attrs ∧
    (s.addMaps c maps id).1 = { s with
      attrs := attrs
      cache := (writeMetric (c.conf s.isOpen) g f (f3s maps') file1 s.cache).cache
      file := (((((writeParMetric (c.conf s.isOpen) c.mkPol f g.ycoords g.Ly g.yperiodic (f3s keep) c.repr
        nslice (writeMetric (c.conf s.isOpen) g f (f3s maps') file1 s.cache).file).1.set "nx" (.int nx)).set
          "ny" (.int ny)).set "nz" (.int nz)).set "ixseps1" (.int (nx + 1))).set "ixseps2" (.int (nx + 1)) }

theorem addMaps_ok {c : MwParams K} {maps : ODict (Val K)} {id : String} {s : Mw K}
    (h : (s.addMaps c maps id).2 = none) :
    ∃ maps' nslice keep f g file1 nx ny nz,
      AddMapsSteps c maps id s maps' nslice keep f g file1 nx ny nz := by
  unfold Mw.addMaps at h
  cases h1 : addRxy maps with
  | error e => rw [h1] at h; simp at h
  | ok maps' =>
    rw [h1] at h
    simp only [Mw.writeDict] at h
    cases h2 : writeDict (valOps c.finite) s.isOpen c.metric2d true maps' s.file with
    | mk file1 err =>
      rw [h2] at h
      cases err with
      | some e => simp at h
      | none =>
        simp only at h
        cases h3 : keepSlices c.repr maps' with
        | error e => rw [h3] at h; simp at h
        | ok nk =>
          obtain ⟨nslice, keep⟩ := nk
          rw [h3] at h
          simp only at h
          cases h4 : s.field with
          | none => rw [h4] at h; simp at h
          | some f =>
            rw [h4] at h
            simp only at h
            cases h5 : s.grid with
            | none => rw [h5] at h; simp at h
            | some g =>
              rw [h5] at h
              simp only [Mw.metrics] at h
              cases h6 : (writeMetric (c.conf s.isOpen) g f (f3s maps') file1 s.cache).err with
              | some e => rw [h6] at h; simp at h
              | none =>
                rw [h6] at h
                simp only at h
                cases h7 : (writeParMetric (c.conf s.isOpen) c.mkPol f g.ycoords g.Ly g.yperiodic (f3s keep)
                    c.repr nslice (writeMetric (c.conf s.isOpen) g f (f3s maps') file1 s.cache).file).2 with
                | some e => rw [h7] at h; simp at h
                | none =>
                  rw [h7] at h
                  simp only at h
                  obtain ⟨nx, ny, nz, attrs, q1, q2, q3⟩ := final_ok h
                  refine ⟨maps', nslice, keep, f, g, file1, nx, ny, nz, h1, h2, h3, h4, h5, h6, h7, q1,
                    attrs, q2, ?_⟩
                  unfold Mw.addMaps
                  simp only [h1, Mw.writeDict, h2, h3, h4, h5, Mw.metrics, h6, h7]
                  exact q3

/-- The converse: if all steps succeed then so does `add_maps`. -/
theorem addMaps_of_steps {c : MwParams K} {maps maps' : ODict (Val K)} {id : String} {s : Mw K}
    {nslice : ℕ} {keep : ODict (Val K)} {f : MagField K} {g : Grid (PolGrid K) K} {file1 : ODict (Val K)}
    {nx ny nz : ℕ} (h1 : addRxy maps = .ok maps')
    (h2 : writeDict (valOps c.finite) s.isOpen c.metric2d true maps' s.file = (file1, none))
    (h3 : keepSlices c.repr maps' = .ok (nslice, keep)) (h4 : s.field = some f) (h5 : s.grid = some g)
    (h6 : (writeMetric (c.conf s.isOpen) g f (f3s maps') file1 s.cache).err = none)
    (h7 : ∀ file, (writeParMetric (c.conf s.isOpen) c.mkPol f g.ycoords g.Ly g.yperiodic (f3s keep) c.repr nslice
      file).2 = none) (h8 : s.nxyz = some [nx, ny, nz]) : (s.addMaps c maps id).2 = none := by
  unfold Mw.addMaps
  simp only [h1, Mw.writeDict, h2, h3, h4, h5, Mw.metrics, h6, h7]
  unfold Mw.final finalFile finalAttrs
  simp only [Bool.false_eq_true, if_false, Option.map_some, h8]

theorem addRxy_keys {maps maps' : ODict (Val K)} (h : addRxy maps = .ok maps') {k : String}
    (hk : k ∈ maps'.keys) : k ∈ maps.keys ∨ k = "Rxy" := by
  unfold addRxy at h
  split at h
  · injection h with h; subst h; exact Or.inl hk
  · cases hR : maps.getE "R" with
    | error e => rw [hR] at h; simp [Except.map] at h
    | ok R =>
      rw [hR] at h
      simp only [Except.map, Except.ok.injEq] at h
      subst h
      rw [mem_keys_set] at hk
      rcases hk with rfl | hk
      · exact Or.inr rfl
      · exact Or.inl hk

theorem addRxy_get {maps maps' : ODict (Val K)} (h : addRxy maps = .ok maps') :
    (∀ k ≠ "Rxy", maps'.get? k = maps.get? k) ∧
    maps'.get? "Rxy" = (maps.get? "Rxy").or (maps.get? "R") ∧ maps'.get? "Rxy" ≠ none ∧
    (maps.keys.Nodup → maps'.keys.Nodup) := by
  unfold addRxy at h
  split at h
  · rename_i v hv
    injection h with h; subst h
    exact ⟨fun _ _ => rfl, by rw [hv]; rfl, by rw [hv]; simp, id⟩
  · rename_i hv
    cases hR : maps.getE "R" with
    | error e => rw [hR] at h; simp [Except.map] at h
    | ok R =>
      rw [hR] at h
      simp only [Except.map, Except.ok.injEq] at h
      subst h
      refine ⟨fun k hk => ODict.get?_set_ne _ _ hk, ?_, ?_, ODict.nodup_set _ _ _⟩
      · rw [ODict.get?_set_self, hv, getE_ok hR]; rfl
      · rw [ODict.get?_set_self]; simp

/-! ## C42 -/

/-- **C42.** On a closed file `add_maps` raises and changes nothing at all. -/
theorem C42_closed (c : MwParams K) (maps : ODict (Val K)) (id : String) (s : Mw K)
    (h : s.isOpen = false) : ∃ e, s.addMaps c maps id = (s, some e) := by
  unfold Mw.addMaps
  cases h1 : addRxy maps with
  | error e => exact ⟨e, rfl⟩
  | ok maps' =>
    obtain ⟨o, g, ca, f, n, fi, at'⟩ := s
    simp only at h
    subst h
    exact ⟨_, rfl⟩

/-- **C42.** If the field or the grid is missing, `add_maps` raises, but the maps are in the
file by then; nothing else of the writer has changed. -/
theorem C42_missing (c : MwParams K) (hfin : ∀ v, c.finite v = true) (maps : ODict (Val K))
    (hnd : maps.keys.Nodup) (id : String) (s : Mw K) (ho : s.isOpen = true)
    (hm : s.field = none ∨ s.grid = none) (hR : "Rxy" ∈ maps.keys ∨ "R" ∈ maps.keys) :
    ∃ e file, s.addMaps c maps id = ({ s with file := file }, some e) ∧
      (∀ k v, maps.get? k = some v → file.get? k = some v) ∧
      (∀ k, k ∉ maps.keys → k ≠ "Rxy" → file.get? k = s.file.get? k) ∧
      file.get? "Rxy" = (maps.get? "Rxy").or (maps.get? "R") := by
  have hx : ∃ maps', addRxy maps = .ok maps' := by
    unfold addRxy
    split
    · exact ⟨_, rfl⟩
    · rename_i hx
      rcases hR with h | h
      · exact absurd hx ((ODict.mem_keys_iff _ _).1 h)
      · obtain ⟨v, hv⟩ := Option.ne_none_iff_exists'.1 ((ODict.mem_keys_iff _ _).1 h)
        rw [ODict.getE_of_get? hv]
        exact ⟨_, rfl⟩
  obtain ⟨maps', h1⟩ := hx
  obtain ⟨r1, r2, r3, r4⟩ := addRxy_get h1
  have h2 : writeDict (valOps c.finite) s.isOpen c.metric2d true maps' s.file =
      ((writeDict (valOps c.finite) s.isOpen c.metric2d true maps' s.file).1, none) := by
    unfold writeDict
    rw [ho, if_neg (by simp), if_neg (by simp), writeEntries_ok (valOps c.finite) _ hfin]
  have h3 := C38_read_back (valOps c.finite) c.metric2d maps' s.file (r4 hnd) (by rw [ho] at h2; rw [h2])
  have h3 : ∀ k, (writeDict (valOps c.finite) s.isOpen c.metric2d true maps' s.file).1.get? k =
      (maps'.get? k).or (s.file.get? k) := by rw [ho]; exact h3
  have hfile : ∀ file, file = (writeDict (valOps c.finite) s.isOpen c.metric2d true maps' s.file).1 →
      (∀ k v, maps.get? k = some v → file.get? k = some v) ∧
      (∀ k, k ∉ maps.keys → k ≠ "Rxy" → file.get? k = s.file.get? k) ∧
      file.get? "Rxy" = (maps.get? "Rxy").or (maps.get? "R") := by
    rintro _ rfl
    refine ⟨?_, ?_, ?_⟩
    · intro k v hk
      rw [h3]
      by_cases hx : k = "Rxy"
      · subst hx; rw [r2, hk]; rfl
      · rw [r1 k hx, hk]; rfl
    · intro k hk hx
      rw [h3, r1 k hx, (ODict.get?_eq_none_iff _ _).2 hk, Option.none_or]
    · rw [h3, r2]
      obtain ⟨v, hv⟩ := Option.ne_none_iff_exists'.1 r3
      rw [← r2, hv]
      rfl
  unfold Mw.addMaps
  simp only [h1, Mw.writeDict]
  rw [h2]
  simp only
  cases h4 : keepSlices c.repr maps' with
  | error e => exact ⟨e, _, rfl, hfile _ rfl⟩
  | ok nk =>
    simp only
    cases h5 : s.field with
    | none => exact ⟨_, _, rfl, hfile _ rfl⟩
    | some f =>
      cases h6 : s.grid with
      | none => exact ⟨_, _, rfl, hfile _ rfl⟩
      | some g =>
        exfalso
        rcases hm with h | h
        · rw [h] at h5; simp at h5
        · rw [h] at h6; simp at h6

/-- **C42.** An `add_maps` that does not raise had an open file, a field and a grid, and the
sizes are in the file. -/
theorem C42_completed (c : MwParams K) (maps : ODict (Val K)) (id : String) (s : Mw K)
    (h : (s.addMaps c maps id).2 = none) : s.isOpen = true ∧ s.field ≠ none ∧ s.grid ≠ none ∧
      ∃ nx ny nz, s.nxyz = some [nx, ny, nz] ∧ DimsInFile nx ny nz (s.addMaps c maps id).1.file := by
  obtain ⟨maps', nslice, keep, f, g, file1, nx, ny, nz, st⟩ := addMaps_ok h
  refine ⟨?_, by rw [st.field]; simp, by rw [st.grid]; simp, nx, ny, nz, st.nxyz, ?_⟩
  · cases ho : s.isOpen with
    | true => rfl
    | false =>
      have := st.write
      rw [ho] at this
      simp [writeDict] at this
  · obtain ⟨attrs, _, e⟩ := st.final
    rw [e]
    exact final_dims _ nx ny nz

/-- Nothing that the caller hands over is called like one of the sizes. -/
def MwOp.Harmless : MwOp K → Prop
  | .addGrid _ cache => ∀ k ∈ dimNames, k ∉ cacheKeys cache
  | .addField f => ∀ k ∈ dimNames, k ∉ f.attributes.map (·.1)
  | .writeDict d _ => ∀ k ∈ dimNames, k ∉ d.keys
  | .addMaps maps _ => ∀ k ∈ dimNames, k ∉ maps.keys
  | _ => True

/-- The same for what the writer remembers. -/
structure Mw.Harmless (s : Mw K) : Prop where
  cache : ∀ k ∈ dimNames, k ∉ cacheKeys s.cache
  field : ∀ f, s.field = some f → ∀ k ∈ dimNames, k ∉ f.attributes.map (·.1)

theorem dim_not_metric : ∀ k ∈ dimNames, k ∉ metricFileNames := by decide

theorem dim_not_all {k : String} (h : k ∈ dimNames) : k ∉ allMetricNames :=
  fun h' => dim_not_metric k h (List.mem_append_left _ h')

theorem dim_not_slice : ∀ k ∈ dimNames, ¬ SlicePrefix k := by decide

theorem addMaps_harmless (c : MwParams K) (maps : ODict (Val K)) (id : String) (s : Mw K)
    (hs : s.Harmless) (hm : ∀ k ∈ dimNames, k ∉ maps.keys) :
    (s.addMaps c maps id).1.Harmless ∧ ((s.addMaps c maps id).2 ≠ none →
      ∀ k ∈ dimNames, (s.addMaps c maps id).1.file.get? k = s.file.get? k) := by
  unfold Mw.addMaps
  cases h1 : addRxy maps with
  | error e => exact ⟨hs, fun _ _ _ => rfl⟩
  | ok maps' =>
    simp only [Mw.writeDict]
    have hm' : ∀ k ∈ dimNames, k ∉ maps'.keys := by
      intro k hk hc
      rcases addRxy_keys h1 hc with h | rfl
      · exact hm k hk h
      · revert hk; decide
    have hw : ∀ k ∈ dimNames, (writeDict (valOps c.finite) s.isOpen c.metric2d true maps' s.file).1.get? k =
        s.file.get? k := fun k hk => writeDict_frame _ _ _ _ _ _ k (hm' k hk)
    cases h2 : writeDict (valOps c.finite) s.isOpen c.metric2d true maps' s.file with
    | mk file1 err =>
      rw [h2] at hw
      cases err with
      | some e => exact ⟨⟨hs.cache, hs.field⟩, fun _ => hw⟩
      | none =>
        simp only
        cases h3 : keepSlices c.repr maps' with
        | error e => exact ⟨⟨hs.cache, hs.field⟩, fun _ => hw⟩
        | ok nk =>
          obtain ⟨nslice, keep⟩ := nk
          simp only
          cases h4 : s.field with
          | none => exact ⟨⟨hs.cache, by simp⟩, fun _ => hw⟩
          | some f =>
            simp only
            cases h5 : s.grid with
            | none => exact ⟨⟨hs.cache, by rw [← h4]; exact hs.field⟩, fun _ => hw⟩
            | some g =>
              have hf := hs.field f h4
              simp only [Mw.metrics]
              obtain ⟨m1, m2⟩ := writeMetric_frame (c.conf s.isOpen) g f (f3s maps') file1 s.cache
              have hc : ∀ k ∈ dimNames,
                  k ∉ cacheKeys (writeMetric (c.conf s.isOpen) g f (f3s maps') file1 s.cache).cache := by
                intro k hk h
                rcases m2 k h with h | h
                · exact hs.cache k hk h
                · exact dim_not_all hk h
              have hF : ∀ k ∈ dimNames,
                  (writeMetric (c.conf s.isOpen) g f (f3s maps') file1 s.cache).file.get? k = s.file.get? k := by
                intro k hk
                rw [m1 k (dim_not_metric k hk) (hs.cache k hk) (hf k hk), hw k hk]
              have hfield : ∀ f', some f = some f' → ∀ k ∈ dimNames, k ∉ f'.attributes.map (·.1) := by
                intro f' e; injection e with e; subst e; exact hf
              cases h6 : (writeMetric (c.conf s.isOpen) g f (f3s maps') file1 s.cache).err with
              | some e => exact ⟨⟨hc, hfield⟩, fun _ => hF⟩
              | none =>
                simp only
                have hP : ∀ k ∈ dimNames, (writeParMetric (c.conf s.isOpen) c.mkPol f g.ycoords g.Ly
                    g.yperiodic (f3s keep) c.repr nslice
                    (writeMetric (c.conf s.isOpen) g f (f3s maps') file1 s.cache).file).1.get? k =
                    s.file.get? k := by
                  intro k hk
                  rw [writeParMetric_frame _ _ _ _ _ _ _ _ _ _ k (dim_not_slice k hk), hF k hk]
                cases h7 : (writeParMetric (c.conf s.isOpen) c.mkPol f g.ycoords g.Ly g.yperiodic (f3s keep)
                    c.repr nslice (writeMetric (c.conf s.isOpen) g f (f3s maps') file1 s.cache).file).2 with
                | some e => exact ⟨⟨hc, hfield⟩, fun _ => hP⟩
                | none =>
                  simp only
                  unfold Mw.final
                  split
                  · exact ⟨⟨hc, hfield⟩, fun _ => hP⟩
                  · simp only
                    split
                    · exact ⟨⟨hc, hfield⟩, fun _ => hP⟩
                    · exact ⟨⟨hc, hfield⟩, fun h => absurd rfl h⟩
                    · exact ⟨⟨hc, hfield⟩, fun _ => hP⟩

theorem call_harmless (c : MwParams K) (s : Mw K) (o : MwOp K) (hs : s.Harmless) (ho : o.Harmless) :
    (s.call c o).1.Harmless ∧ ((∀ maps id, o = .addMaps maps id → (s.addMaps c maps id).2 ≠ none) →
      ∀ k ∈ dimNames, s.file.get? k = none → (s.call c o).1.file.get? k = none) := by
  cases o with
  | enter =>
    unfold Mw.call Mw.enter
    simp only
    split
    · exact ⟨⟨hs.cache, hs.field⟩, fun _ _ _ _ => rfl⟩
    · exact ⟨⟨hs.cache, hs.field⟩, fun _ _ _ h => h⟩
  | exit => exact ⟨⟨hs.cache, hs.field⟩, fun _ _ _ h => h⟩
  | addGrid g cache =>
    unfold Mw.call Mw.addGrid
    simp only
    split
    · refine ⟨⟨ho, hs.field⟩, fun _ k hk h => ?_⟩
      simp only [Mw.writeDict]
      have hRZ : ∀ k ∈ dimNames, k ∉ ["R", "Z"] := by decide
      rw [writeDict_frame _ _ _ _ _ _ k, h]
      exact hRZ k hk
    · exact ⟨⟨ho, hs.field⟩, fun _ _ _ h => h⟩
    · exact ⟨⟨ho, hs.field⟩, fun _ _ _ h => h⟩
  | addField f =>
    refine ⟨⟨hs.cache, ?_⟩, fun _ _ _ h => h⟩
    intro f' e
    injection e with e
    subst e
    exact ho
  | writeDict d a3 =>
    refine ⟨⟨hs.cache, hs.field⟩, fun _ k hk h => ?_⟩
    simp only [Mw.call, Mw.writeDict]
    rw [writeDict_frame _ _ _ _ _ _ k (ho k hk), h]
  | addMaps maps id =>
    obtain ⟨a, b⟩ := addMaps_harmless c maps id s hs ho
    refine ⟨a, fun h k hk h0 => ?_⟩
    change (s.addMaps c maps id).1.file.get? k = none
    rw [b (h maps id rfl) k hk, h0]

/-- **C42.** For all sequences of calls: if every `add_maps` among them raises, the sizes are
not in the file (unless they were before, or the caller wrote variables of these names
with `write_dict`). -/
theorem C42_only_completed (c : MwParams K) (l : List (MwOp K)) (s : Mw K) (hs : s.Harmless)
    (hl : ∀ o ∈ l, o.Harmless) (h0 : ∀ k ∈ dimNames, s.file.get? k = none)
    (h : ∀ pre maps id post, l = pre ++ .addMaps maps id :: post →
      ((s.calls c pre).addMaps c maps id).2 ≠ none) :
    ∀ k ∈ dimNames, (s.calls c l).file.get? k = none := by
  induction l generalizing s with
  | nil => exact h0
  | cons o t ih =>
    obtain ⟨a, b⟩ := call_harmless c s o hs (hl o List.mem_cons_self)
    refine ih _ a (fun o ho => hl o (List.mem_cons_of_mem _ ho)) (fun k hk => b ?_ k hk (h0 k hk)) ?_
    · intro maps id e
      exact h [] maps id t (by rw [e]; rfl)
    · intro pre maps id post e
      exact h (o :: pre) maps id post (by rw [e]; rfl)

/-! ## C105 -/

theorem get?_f3s (maps : ODict (Val K)) (h : maps.keys.Nodup) (k : String) :
    (f3s maps).get? k = match maps.get? k with
      | some (.f3 a) => some a
      | _ => none := by
  induction maps with
  | nil => rfl
  | cons p t ih =>
    obtain ⟨k', v⟩ := p
    have ht : (ODict.keys t).Nodup := (List.nodup_cons.1 h).2
    have hk' : k' ∉ ODict.keys t := (List.nodup_cons.1 h).1
    have ih := ih ht
    rw [ODict.get?_cons]
    unfold f3s at ih ⊢
    rw [List.filterMap_cons]
    by_cases e : k' = k
    · subst e
      rw [if_pos rfl]
      rw [(ODict.get?_eq_none_iff _ _).2 hk'] at ih
      cases v with
      | f3 a => simp only; rw [ODict.get?_cons, if_pos rfl]
      | _ => exact ih
    · rw [if_neg e]
      cases v with
      | f3 a => simp only; rw [ODict.get?_cons, if_neg e]; exact ih
      | _ => exact ih

theorem get?_ofList_of {V : Type} (F : String → Option V) (l : List (String × V))
    (h : ∀ p ∈ l, F p.1 = some p.2) (k : String) (v : V) (hk : (ODict.ofList l).get? k = some v) :
    F k = some v := by
  have key : ∀ (l : List (String × V)), (∀ p ∈ l, F p.1 = some p.2) → ∀ d : ODict V,
      (∀ k v, d.get? k = some v → F k = some v) →
      ∀ k v, (l.foldl (fun d p => ODict.set d p.1 p.2) d).get? k = some v → F k = some v := by
    intro l
    induction l with
    | nil => intro _ d hd; exact hd
    | cons p t ih =>
      intro h d hd
      refine ih (fun q hq => h q (List.mem_cons_of_mem _ hq)) _ ?_
      intro k v hk
      rw [ODict.get?_set] at hk
      split at hk
      · rename_i e
        injection hk with hk
        rw [← e, ← hk]
        exact h p List.mem_cons_self
      · exact hd k v hk
  exact key l h [] (by simp) k v hk

theorem mapM_mem {A B : Type} {F : A → Except Err B} {l : List A} {r : List B} (h : l.mapM F = .ok r) :
    (∀ b ∈ r, ∃ a ∈ l, F a = .ok b) ∧ ∀ a ∈ l, ∃ b ∈ r, F a = .ok b := by
  induction l generalizing r with
  | nil => cases h; simp
  | cons a t ih =>
    rw [List.mapM_cons] at h
    cases ha : F a with
    | error e => rw [ha] at h; simp [bind, Except.bind] at h
    | ok b =>
      rw [ha] at h
      cases ht : t.mapM F with
      | error e => rw [ht] at h; simp [bind, Except.bind] at h
      | ok r' =>
        rw [ht] at h
        simp only [bind, Except.bind, pure, Except.pure, Except.ok.injEq] at h
        subst h
        obtain ⟨i1, i2⟩ := ih ht
        constructor
        · intro b' hb'
          rcases List.mem_cons.1 hb' with rfl | hb'
          · exact ⟨a, List.mem_cons_self, ha⟩
          · obtain ⟨a', q1, q2⟩ := i1 b' hb'
            exact ⟨a', List.mem_cons_of_mem _ q1, q2⟩
        · intro a' ha'
          rcases List.mem_cons.1 ha' with rfl | ha'
          · exact ⟨b, List.mem_cons_self, ha⟩
          · obtain ⟨b', q1, q2⟩ := i2 a' ha'
            exact ⟨b', List.mem_cons_of_mem _ q1, q2⟩

/-- `keep` holds what the maps have, under the names of the slices. -/
theorem keepSlices_ok {repr : K → String} {maps keep : ODict (Val K)} {nslice : ℕ}
    (h : keepSlices repr maps = .ok (nslice, keep)) :
    (∃ n : ℤ, maps.get? "MYG" = some (.int n) ∧ nslice = n.toNat) ∧ keep.keys.Nodup ∧
    (∀ k v, keep.get? k = some v → maps.get? k = some v) := by
  unfold keepSlices at h
  cases hg : maps.getE "MYG" with
  | error e => rw [hg] at h; simp at h
  | ok v =>
    rw [hg] at h
    cases v with
    | int n =>
      simp only at h
      cases hl : (parOffsets n.toNat).mapM (fun o => ["R", "Z"].mapM fun k => do
          let nm ← parallelSliceFieldName repr k (.int o)
          let v ← maps.getE nm
          pure (nm, v)) with
      | error e => rw [hl] at h; simp [Except.map] at h
      | ok l =>
        rw [hl] at h
        simp only [Except.map, Except.ok.injEq, Prod.mk.injEq] at h
        obtain ⟨h1, h2⟩ := h
        subst h1 h2
        refine ⟨⟨n, getE_ok hg, rfl⟩, ODict.nodup_ofList _, ?_⟩
        refine get?_ofList_of (fun k => maps.get? k) _ ?_
        intro p hp
        obtain ⟨q, hq1, hq2⟩ := List.mem_flatten.1 hp
        obtain ⟨o, _, ho⟩ := (mapM_mem hl).1 q hq1
        obtain ⟨k, _, hk⟩ := (mapM_mem ho).1 p hq2
        cases h3 : parallelSliceFieldName repr k (.int o) with
        | error e => rw [h3] at hk; simp [bind, Except.bind] at hk
        | ok nm =>
          rw [h3] at hk
          simp only [bind, Except.bind] at hk
          cases h4 : maps.getE nm with
          | error e => rw [h4] at hk; simp at hk
          | ok v =>
            rw [h4] at hk
            simp only [pure, Except.pure, Except.ok.injEq] at hk
            subst hk
            exact getE_ok h4
    | _ => simp at h

/-- It succeeds if the number of slices is given and all of them are there. -/
theorem keepSlices_succeeds {repr : K → String} {maps : ODict (Val K)} {n : ℤ}
    (hn : maps.get? "MYG" = some (.int n)) (hnd : maps.keys.Nodup)
    (hs : ∀ o : ℤ, o ≠ 0 → o.natAbs ≤ n.toNat → HasSlice (f3s maps) repr o) :
    ∃ keep, keepSlices repr maps = .ok (n.toNat, keep) ∧
      ∀ o : ℤ, o ≠ 0 → o.natAbs ≤ n.toNat → HasSlice (f3s keep) repr o := by
  have hone : ∀ o : ℤ, o ≠ 0 → o.natAbs ≤ n.toNat → ∃ l : List (String × Val K), (["R", "Z"].mapM fun k => do
          let nm ← parallelSliceFieldName repr k (.int o)
          let v ← maps.getE nm
          pure (nm, v)) = Except.ok l := by
    intro o h1 h2
    obtain ⟨nR, hR, hR'⟩ := hs o h1 h2 "R" (by simp)
    obtain ⟨nZ, hZ, hZ'⟩ := hs o h1 h2 "Z" (by simp)
    rw [get?_f3s _ hnd] at hR' hZ'
    obtain ⟨R, hR'⟩ : ∃ R, maps.get? nR = some R := by
      cases h : maps.get? nR with
      | none => rw [h] at hR'; simp at hR'
      | some R => exact ⟨R, rfl⟩
    obtain ⟨Z, hZ'⟩ : ∃ Z, maps.get? nZ = some Z := by
      cases h : maps.get? nZ with
      | none => rw [h] at hZ'; simp at hZ'
      | some Z => exact ⟨Z, rfl⟩
    refine ⟨[(nR, R), (nZ, Z)], ?_⟩
    rw [List.mapM_cons, List.mapM_cons, hR, hZ]
    simp only [ok_bind, ODict.getE_of_get? hR', ODict.getE_of_get? hZ']
    rfl
  have hall : ∀ l : List ℤ, (∀ o ∈ l, o ≠ 0 ∧ o.natAbs ≤ n.toNat) →
      ∃ r : List (List (String × Val K)), l.mapM (fun o => ["R", "Z"].mapM fun k => do
          let nm ← parallelSliceFieldName repr k (.int o)
          let v ← maps.getE nm
          pure (nm, v)) = Except.ok r := by
    intro l
    induction l with
    | nil => intro _; exact ⟨[], rfl⟩
    | cons o t ih =>
      intro h
      obtain ⟨r, hr⟩ := ih fun o ho => h o (List.mem_cons_of_mem _ ho)
      obtain ⟨l, hl⟩ := hone o (h o List.mem_cons_self).1 (h o List.mem_cons_self).2
      refine ⟨l :: r, ?_⟩
      rw [List.mapM_cons, hl, hr]
      rfl
  obtain ⟨r, hr⟩ := hall (parOffsets n.toNat) fun o ho => mem_parOffsets.1 ho
  have hks : keepSlices repr maps = .ok (n.toNat, ODict.ofList r.flatten) := by
    unfold keepSlices
    rw [ODict.getE_of_get? hn]
    simp only [hr, Except.map]
  refine ⟨_, hks, ?_⟩
  obtain ⟨_, hkn, hkg⟩ := keepSlices_ok hks
  intro o h1 h2 k hk
  obtain ⟨s, hs1, hs2⟩ := hs o h1 h2 k hk
  refine ⟨s, hs1, ?_⟩
  obtain ⟨l, hl1, hl2⟩ := (mapM_mem hr).2 o (mem_parOffsets.2 ⟨h1, h2⟩)
  obtain ⟨p, hp1, hp2⟩ := (mapM_mem hl2).2 k hk
  rw [hs1] at hp2
  simp only [ok_bind] at hp2
  have hmem : s ∈ (ODict.ofList r.flatten).keys := by
    rw [ODict.mem_keys_ofList]
    refine List.mem_map.2 ⟨p, List.mem_flatten.2 ⟨l, hl1, hp1⟩, ?_⟩
    cases h4 : maps.getE s with
    | error e => rw [h4] at hp2; simp [bind, Except.bind] at hp2
    | ok v =>
      rw [h4] at hp2
      simp only [ok_bind, pure, Except.pure, Except.ok.injEq] at hp2
      rw [← hp2]
  obtain ⟨v, hv⟩ := Option.ne_none_iff_exists'.1 ((ODict.mem_keys_iff _ _).1 hmem)
  rw [get?_f3s _ hkn, hv]
  rw [get?_f3s _ hnd, hkg s v hv] at hs2
  exact hs2

/-- `write_maps` without exception: the writer when `add_maps` is called. -/
theorem writeMaps_ok {c : MwParams K} {g : Grid (PolGrid K) K} {cache : Option (Metric K)}
    {f : MagField K} {maps : ODict (Val K)} {id : String} {s : Mw K}
    (h : (writeMaps c g cache f maps id s).2 = none) :
    ∃ s1 : Mw K, s1.isOpen = true ∧ s1.grid = some g ∧ s1.cache = cache ∧ s1.field = some f ∧
      s1.nxyz = some [g.nx, g.ny, g.nz] ∧ s1.attrs = (if c.create then [] else s.attrs) ∧
      (∃ R Z, fieldOnGrid g (fun R _ _ => R) = .ok R ∧ fieldOnGrid g (fun _ Z _ => Z) = .ok Z ∧
        s1.file.get? "R" = some (.f3 R) ∧ s1.file.get? "Z" = some (.f3 Z) ∧
        ∀ k ∉ ["R", "Z"], s1.file.get? k = ODict.get? (if c.create then [] else s.file) k) ∧
      (s1.addMaps c maps id).2 = none ∧
      (writeMaps c g cache f maps id s).1 = (s1.addMaps c maps id).1.exit := by
  have he : ((s.enter c).addField f).isOpen = true ∧
      ((s.enter c).addField f).attrs = (if c.create then [] else s.attrs) ∧
      ((s.enter c).addField f).file = (if c.create then [] else s.file) ∧
      ((s.enter c).addField f).field = some f := by
    unfold Mw.enter Mw.addField
    cases c.create <;> exact ⟨rfl, rfl, rfl, rfl⟩
  obtain ⟨e1, e2, e3, e4⟩ := he
  unfold writeMaps at h ⊢
  simp only at h ⊢
  generalize (s.enter c).addField f = s0 at *
  unfold Mw.addGrid at h ⊢
  cases hR : fieldOnGrid g (fun R _ _ => R) with
  | error e => rw [hR] at h; simp at h
  | ok R =>
    cases hZ : fieldOnGrid g (fun _ Z _ => Z) with
    | error e => rw [hR, hZ] at h; simp at h
    | ok Z =>
      rw [hR, hZ] at h
      simp only [Mw.writeDict, e1, e2, e3, e4] at h ⊢
      cases hw : writeDict (valOps c.finite) true c.metric2d true [("R", Val.f3 R), ("Z", Val.f3 Z)]
          (if c.create then [] else s.file) with
      | mk file0 err =>
        rw [hw] at h
        cases err with
        | some e => simp at h
        | none =>
          simp only at h ⊢
          have hr := C38_read_back (valOps c.finite) c.metric2d [("R", Val.f3 R), ("Z", Val.f3 Z)]
            (if c.create then [] else s.file) (by simp [ODict.keys]) (by rw [hw])
          rw [hw] at hr
          refine ⟨_, rfl, rfl, rfl, rfl, rfl, rfl, ⟨R, Z, rfl, rfl, ?_, ?_, ?_⟩, h, rfl⟩
          · exact hr "R"
          · exact hr "Z"
          · intro k hk
            have := hr k
            rw [(ODict.get?_eq_none_iff [("R", Val.f3 R), ("Z", Val.f3 Z)] k).2 hk, Option.none_or] at this
            exact this

/-- Some later step of `write_maps` stores something else under the name of an entry of the
maps: a metric component, an attribute of the field, a metric component of a slice,
one of the sizes. -/
def Overwritten (repr : K → String) (f : MagField K) (nslice : ℕ) (k : String) : Prop :=
  k ∈ metricFileNames ∨ k ∈ f.attributes.map (·.1) ∨ k ∈ dimNames ∨
    ∃ n : ℤ, n ≠ 0 ∧ n.natAbs ≤ nslice ∧ ∃ m ∈ outNames, parallelSliceFieldName repr m (.int n) = .ok k

/-- What the grid file has to contain. -/
structure GridFile (c : MwParams K) (g : Grid (PolGrid K) K) (f : MagField K) (maps : ODict (Val K))
    (id : String) (file : ODict (Val K)) (attrs : ODict String) : Prop where
  /-- the size of the grid -/
  dims : DimsInFile g.nx g.ny g.nz file
  /-- the attributes that identify the file -/
  title : attrs.get? "title" = some "BOUT++ grid file"
  software : attrs.get? "software_name" = some "zoidberg"
  version : attrs.get? "software_version" = some c.version
  fileId : attrs.get? "id" = some id ∧ attrs.get? "grid_id" = some id
  /-- the metric, under its documented names -/
  metric : ∃ m b, getMetric c.sqrt g f none = .ok (m, b) ∧
    ∀ k k' a, MetricEntry m (f3s maps) k a → FileName c.newNames k k' → k' ∉ f.attributes.map (·.1) →
      file.get? k' = some (stored c.metric2d k a)
  /-- the metric of all slices, and the maps -/
  slices : ∃ n : ℤ, maps.get? "MYG" = some (.int n) ∧
    (∀ o : ℤ, o ≠ 0 → o.natAbs ≤ n.toNat → SliceInFile (c.conf true) c.mkPol f g.ycoords g.Ly g.yperiodic
      (f3s maps) c.repr o file) ∧
    (∀ k v, maps.get? k = some v → ¬ Overwritten c.repr f n.toNat k → file.get? k = some v) ∧
    /- the attributes of the field -/
    ∀ l ys, MetricGrid g l ys → ∀ k F, (k, F) ∈ f.attributes → k ∉ dimNames → ¬ SlicePrefix k →
      ∃ a, file.get? k = some (.f3 a) ∧
        ∀ x j z pol y, l[j]? = some pol → ys[j]? = some y → a (x, j, z) = F (pol.R x z) (pol.Z x z) y

theorem metricEntry_name {sqrt : K → K} {g : Grid (PolGrid K) K} {f : MagField K} {m : Metric K}
    {b : Cell → K} (h : getMetric sqrt g f none = .ok (m, b)) {maps : ODict (Cell → K)} {k : String}
    {a : Cell → K} (he : MetricEntry m maps k a) : k ∈ allMetricNames := by
  cases he with
  | other _ _ _ h' =>
    exact base_all ((getMetric_names h).2 k ((ODict.mem_keys_iff _ _).2 (by rw [h']; simp)))
  | length _ _ _ _ hk _ _ _ =>
    apply parallel_all
    simp only [List.mem_cons, List.not_mem_nil, or_false, Prod.mk.injEq] at hk
    rcases hk with ⟨rfl, _⟩ | ⟨rfl, _⟩ | ⟨rfl, _⟩ | ⟨rfl, _⟩ <;> decide
  | old _ _ _ => decide
  | noLength _ _ hk _ _ =>
    apply parallel_all
    simp only [List.mem_cons, List.not_mem_nil, or_false] at hk
    rcases hk with rfl | rfl | rfl <;> decide

theorem fileName_metric {nn : Bool} {k k' : String} (hk : k ∈ allMetricNames) (h : FileName nn k k') :
    k' ∈ metricFileNames := by
  unfold FileName at h
  split at h
  · rw [h]; exact List.mem_append_left _ hk
  · rcases h with h | ⟨rfl, _⟩
    · exact List.mem_append_right _ (List.mem_map.2 ⟨_, h, rfl⟩)
    · exact List.mem_append_left _ hk

theorem metric_not_slice : ∀ k ∈ metricFileNames, ¬ SlicePrefix k := by decide +kernel

theorem metricEntry_congr {m : Metric K} {maps maps' : ODict (Cell → K)}
    (h : ∀ k ≠ "Rxy", maps'.get? k = maps.get? k) {k : String} {a : Cell → K}
    (he : MetricEntry m maps k a) : MetricEntry m maps' k a := by
  cases he with
  | other _ _ hk h' => exact .other _ _ hk h'
  | length _ post a' dy hk hl ha hd =>
    refine .length _ post a' dy hk (by rw [h _ (by decide)]; exact hl) ?_ hd
    rw [h _ ?_]
    · exact ha
    · simp only [List.mem_cons, List.not_mem_nil, or_false, Prod.mk.injEq] at hk
      rcases hk with ⟨_, rfl⟩ | ⟨_, rfl⟩ | ⟨_, rfl⟩ | ⟨_, rfl⟩ <;> decide
  | old _ hl h' => exact .old _ (by rw [h _ (by decide)]; exact hl) h'
  | noLength _ _ hk hl h' => exact .noLength _ _ hk (by rw [h _ (by decide)]; exact hl) h'

theorem f3s_mono {d d' : ODict (Val K)} (hd : d.keys.Nodup) (hd' : d'.keys.Nodup)
    (h : ∀ k v, d.get? k = some v → d'.get? k = some v) (k : String) (a : Cell → K)
    (hk : (f3s d).get? k = some a) : (f3s d').get? k = some a := by
  rw [get?_f3s _ hd] at hk
  rw [get?_f3s _ hd']
  cases hv : d.get? k with
  | none => rw [hv] at hk; simp at hk
  | some v => rw [hv] at hk; rw [h k v hv]; exact hk

theorem sliceInFile_mono {c : MwConf K} {mkPol : (ℕ → ℕ → K) → (ℕ → ℕ → K) → PolGrid K} {f : MagField K}
    {ypar : List K} {Ly : K} {yperiodic : Bool} {maps maps' : ODict (Cell → K)} {repr : K → String}
    {n : ℤ} {file file' : ODict (Val K)} (hn : n ≠ 0)
    (hm : ∀ k a, SlicePrefix k → maps.get? k = some a → maps'.get? k = some a)
    (hf : ∀ k, SlicePrefix k → file'.get? k = file.get? k)
    (h : SliceInFile c mkPol f ypar Ly yperiodic maps repr n file) :
    SliceInFile c mkPol f ypar Ly yperiodic maps' repr n file' := by
  obtain ⟨g, m, b, ⟨g1, g2, g3, nR, nZ, R, Z, q1, q2, q3, q4, q5⟩, h2, h3⟩ := h
  refine ⟨g, m, b, ⟨g1, g2, g3, nR, nZ, R, Z, q1, q2, hm _ _ (slice_prefix repr hn q1) q3,
    hm _ _ (slice_prefix repr hn q2) q4, q5⟩, h2, ?_⟩
  intro k k' s a hk hkk hs
  rw [hf s (slice_prefix repr hn hs)]
  exact h3 k k' s a hk hkk hs

/-- **C105.** `write_maps` without exception: the file is a complete grid file and closed. -/
theorem C105_grid_file (c : MwParams K) (g : Grid (PolGrid K) K) (f : MagField K)
    (hattr : (f.attributes.map (·.1)).Nodup) (maps : ODict (Val K)) (hnd : maps.keys.Nodup) (id : String) (s : Mw K)
    (h : (writeMaps c g none f maps id s).2 = none) :
    (writeMaps c g none f maps id s).1.isOpen = false ∧
    GridFile c g f maps id (writeMaps c g none f maps id s).1.file
      (writeMaps c g none f maps id s).1.attrs := by
  obtain ⟨s1, o1, o2, o3, o4, o5, o6, _, ok, e⟩ := writeMaps_ok h
  obtain ⟨maps', nslice, keep, f', g', file1, nx, ny, nz, st⟩ := addMaps_ok ok
  have hff : f' = f := by have := st.field; rw [o4] at this; injection this with this; exact this.symm
  have hgg : g' = g := by have := st.grid; rw [o2] at this; injection this with this; exact this.symm
  subst hff hgg
  have hxyz := st.nxyz
  rw [o5] at hxyz
  simp only [Option.some.injEq, List.cons.injEq, and_true] at hxyz
  obtain ⟨rfl, rfl, rfl⟩ := hxyz
  obtain ⟨attrs, ha, ef⟩ := st.final
  obtain ⟨r1, r2, r3, r4⟩ := addRxy_get st.rxy
  have hnd' := r4 hnd
  obtain ⟨⟨n, hn, rfl⟩, k1, k2⟩ := keepSlices_ok st.slices
  rw [r1 "MYG" (by decide)] at hn
  have hw := st.write
  have hme := st.metric
  have hpa := st.par
  rw [o1] at hw hme hpa ef
  rw [o3] at hme hpa ef
  have hrb := C38_read_back (valOps c.finite) c.metric2d maps' s1.file hnd' (by rw [hw])
  rw [hw] at hrb
  simp only at hrb
  obtain ⟨m, b, hm, hmet⟩ := C98_metric_in_file (c.conf true) g' f' (f3s maps') file1 hattr hme
  obtain ⟨mf1, _⟩ := writeMetric_frame (c.conf true) g' f' (f3s maps') file1 none
  obtain ⟨p1, p2⟩ := C101_slices_in_file (c.conf true) c.mkPol f' g'.ycoords g'.Ly g'.yperiodic (f3s keep)
    c.repr n.toNat _ hpa
  have p3 := fun k hk => writeParMetric_frame (c.conf true) c.mkPol f' g'.ycoords g'.Ly g'.yperiodic (f3s keep)
    c.repr n.toNat (writeMetric (c.conf true) g' f' (f3s maps') file1 none).file k hk
  have hf3 : ∀ k ≠ "Rxy", (f3s maps').get? k = (f3s maps).get? k := by
    intro k hk
    rw [get?_f3s _ hnd', get?_f3s _ hnd, r1 k hk]
  have hslicedim : ∀ k, SlicePrefix k → k ∉ dimNames := fun k hk hc => dim_not_slice k hc hk
  have hsliceR : ¬ SlicePrefix "Rxy" := by decide
  have hat : ∀ k, attrs.get? k = ((newAttrs "BOUT++ grid file" "zoidberg" c.version id).get? k).or
      (s1.attrs.get? k) := by
    intro k
    unfold finalFile finalAttrs at ha
    simp only [Bool.false_eq_true, if_false, Option.map_some, Option.some.injEq] at ha
    rw [← ha]
    unfold writeAttrs
    rw [List.take_length]
    exact ODict.get?_foldl_set (newAttrs "BOUT++ grid file" "zoidberg" c.version id)
      (by simp [newAttrs, ODict.keys]) k _
  rw [e]
  refine ⟨rfl, ?_⟩
  simp only [Mw.exit, ef]
  generalize hP : (writeParMetric (c.conf true) c.mkPol f' g'.ycoords g'.Ly g'.yperiodic (f3s keep) c.repr
    n.toNat (writeMetric (c.conf true) g' f' (f3s maps') file1 none).file).1 = P at *
  refine ⟨final_dims _ _ _ _, by rw [hat]; rfl, by rw [hat]; rfl, by rw [hat]; rfl,
    ⟨by rw [hat]; rfl, by rw [hat]; rfl⟩, ⟨m, b, hm, ?_⟩, n, hn, ?_, ?_, ?_⟩
  · intro k k' a hka hkk hk'
    have hmem := fileName_metric (metricEntry_name hm hka) hkk
    rw [final_other _ _ _ _ k' (fun hc => dim_not_metric k' hc hmem), p3 k' (metric_not_slice k' hmem)]
    exact hmet k k' a (metricEntry_congr hf3 hka) hkk hk'
  · intro o h1 h2
    refine sliceInFile_mono h1 ?_ ?_ (p1 o h1 h2)
    · intro k a hk hka
      rw [← hf3 k (fun e => hsliceR (e ▸ hk))]
      exact f3s_mono k1 hnd' k2 k a hka
    · intro k hk
      exact final_other _ _ _ _ k (hslicedim k hk)
  · intro k v hk hov
    unfold Overwritten at hov
    simp only [not_or] at hov
    obtain ⟨v1, v2, v3, v4⟩ := hov
    rw [final_other _ _ _ _ k v3, p2 k (fun n h1 h2 m hm hc => v4 ⟨n, h1, h2, m, hm, hc⟩),
      mf1 k v1 (by simp [cacheKeys]) v2, hrb]
    by_cases hx : k = "Rxy"
    · subst hx
      rw [r2, hk]
      rfl
    · rw [r1 k hx, hk]
      rfl
  · intro l ys hmg k F hk h1 h2
    rw [final_other _ _ _ _ k h1, p3 k h2]
    exact C98_attributes_in_file (c.conf true) g' l ys hmg f' (f3s maps') file1 hattr hme k F hk

/-- **C105.** It does succeed, for a periodic grid with equally spaced planes and finite
arrays, if the maps have everything that is needed. -/
theorem addMaps_succeeds (c : MwParams K) (hfin : ∀ v, c.finite v = true)
    (hc : ∀ R Z, (c.mkPol R Z).Complete)
    (hJ : (∀ R Z, (c.mkPol R Z).ProvidesJ) ∨ (∀ R Z, ¬ (c.mkPol R Z).ProvidesJ))
    (g : Grid (PolGrid K) K) (l : List (PolGrid K)) (ys : List K) (hmg : MetricGrid g l ys)
    (hp : g.yperiodic = true) (hu : UniformY g.ycoords g.Ly) (hLy : 0 < g.Ly) (hny : 2 ≤ g.ycoords.length)
    (f : MagField K) (maps : ODict (Val K)) (hnd : maps.keys.Nodup)
    (hR : maps.get? "Rxy" ≠ none ∨ maps.get? "R" ≠ none)
    (n : ℤ) (hn : maps.get? "MYG" = some (.int n))
    (hs : ∀ o : ℤ, o ≠ 0 → o.natAbs ≤ n.toNat → HasSlice (f3s maps) c.repr o)
    (hl : (f3s maps).get? "Ly" = none ∨
      ((f3s maps).get? "Ly_cell_ylow" ≠ none ∧ (f3s maps).get? "Ly_cell_yhigh" ≠ none))
    (id : String) (s : Mw K) (ho : s.isOpen = true) (hf : s.field = some f) (hg : s.grid = some g)
    (hca : s.cache = none) (nx ny nz : ℕ) (hxyz : s.nxyz = some [nx, ny, nz]) :
    (s.addMaps c maps id).2 = none := by
  have hx : ∃ maps', addRxy maps = .ok maps' := by
    unfold addRxy
    split
    · exact ⟨_, rfl⟩
    · rename_i hx
      rcases hR with h | h
      · exact absurd hx h
      · obtain ⟨v, hv⟩ := Option.ne_none_iff_exists'.1 h
        rw [ODict.getE_of_get? hv]
        exact ⟨_, rfl⟩
  obtain ⟨maps', h1⟩ := hx
  obtain ⟨r1, r2, r3, r4⟩ := addRxy_get h1
  have hnd' := r4 hnd
  have hf3 : ∀ k ≠ "Rxy", (f3s maps').get? k = (f3s maps).get? k := by
    intro k hk
    rw [get?_f3s _ hnd', get?_f3s _ hnd, r1 k hk]
  have h2 : writeDict (valOps c.finite) s.isOpen c.metric2d true maps' s.file =
      ((writeDict (valOps c.finite) s.isOpen c.metric2d true maps' s.file).1, none) := by
    unfold writeDict
    rw [ho, if_neg (by simp), if_neg (by simp), writeEntries_ok (valOps c.finite) _ hfin]
  have hsliceR : ¬ SlicePrefix "Rxy" := by decide
  obtain ⟨keep, h3, h3'⟩ := keepSlices_succeeds (repr := c.repr) (maps := maps') (n := n)
    (by rw [r1 _ (by decide)]; exact hn) hnd' (by
      intro o a b k hk
      obtain ⟨nm, q1, q2⟩ := hs o a b k hk
      refine ⟨nm, q1, ?_⟩
      rw [hf3 nm (fun e => hsliceR (e ▸ slice_prefix c.repr a q1))]
      exact q2)
  refine addMaps_of_steps h1 h2 h3 hf hg ?_ ?_ hxyz
  · rw [ho, hca]
    refine C98_succeeds (c.conf true) rfl hfin g l ys hmg f (f3s maps') ?_ _
    rw [hf3 _ (by decide), hf3 _ (by decide), hf3 _ (by decide)]
    exact hl
  · intro file
    rw [ho, hp]
    exact C101_succeeds (c.conf true) rfl hfin c.mkPol hc hJ f g.ycoords g.Ly hu hLy hny (f3s keep) c.repr
      n.toNat h3' file

theorem C105_succeeds (c : MwParams K) (hfin : ∀ v, c.finite v = true)
    (hc : ∀ R Z, (c.mkPol R Z).Complete)
    (hJ : (∀ R Z, (c.mkPol R Z).ProvidesJ) ∨ (∀ R Z, ¬ (c.mkPol R Z).ProvidesJ))
    (g : Grid (PolGrid K) K) (l : List (PolGrid K)) (ys : List K) (hmg : MetricGrid g l ys)
    (hp : g.yperiodic = true) (hu : UniformY g.ycoords g.Ly) (hLy : 0 < g.Ly) (hny : 2 ≤ g.ycoords.length)
    (f : MagField K) (maps : ODict (Val K)) (hnd : maps.keys.Nodup)
    (hR : maps.get? "Rxy" ≠ none ∨ maps.get? "R" ≠ none)
    (n : ℤ) (hn : maps.get? "MYG" = some (.int n))
    (hs : ∀ o : ℤ, o ≠ 0 → o.natAbs ≤ n.toNat → HasSlice (f3s maps) c.repr o)
    (hl : (f3s maps).get? "Ly" = none ∨
      ((f3s maps).get? "Ly_cell_ylow" ≠ none ∧ (f3s maps).get? "Ly_cell_yhigh" ≠ none))
    (id : String) (s : Mw K) : (writeMaps c g none f maps id s).2 = none := by
  have hlen : g.polGrids.length = g.ycoords.length := by
    obtain ⟨rfl, rfl, hl, -⟩ := hmg.facts
    exact hl
  have hgrid : ∃ file0, ((s.enter c).addField f).addGrid c g none =
      ((⟨((s.enter c).addField f).isOpen, some g, none, ((s.enter c).addField f).field,
        some [g.nx, g.ny, g.nz], file0, ((s.enter c).addField f).attrs⟩ : Mw K), none) := by
    unfold Mw.addGrid
    rw [fieldOnGrid_eq g hlen, fieldOnGrid_eq g hlen]
    have ho : ((s.enter c).addField f).isOpen = true := by
      unfold Mw.enter Mw.addField
      cases c.create <;> rfl
    simp only [Mw.writeDict, ho]
    unfold writeDict
    rw [if_neg (by simp), if_neg (by simp), writeEntries_ok (valOps c.finite) _ hfin]
    exact ⟨_, rfl⟩
  obtain ⟨file0, hgrid⟩ := hgrid
  unfold writeMaps
  simp only [hgrid]
  refine addMaps_succeeds c hfin hc hJ g l ys hmg hp hu hLy hny f maps hnd hR n hn hs hl id _ ?_ ?_ rfl rfl
    g.nx g.ny g.nz rfl
  · unfold Mw.enter Mw.addField
    cases c.create <;> rfl
  · rfl

/-! ### A complete example -/

/-- Parameters of a writer. -/
def exParams (create : Bool) : MwParams ℚ :=
  ⟨create, false, true, fun _ => true, id, fun v => match v with | .f2 _ => [7, 8] | .f3 _ => [7, 8, 9] | _ => [],
    exMkPol, fun _ => "", "1.0"⟩

/-- Four equally spaced planes. -/
def exUniGrid : Grid (PolGrid ℚ) ℚ :=
  ⟨[exPol true, exPol true, exPol true, exPol true], [1, 2, 3, 4], 4, true, 2, 3⟩

theorem exUniGrid_ok : MetricGrid exUniGrid [exPol true, exPol true, exPol true, exPol true] [1, 2, 3, 4] :=
  ⟨⟨fun p => (p.nx, p.nz), 4, true, rfl⟩, by simp [exPol_complete], Or.inl (by simp [PolGrid.ProvidesJ, exPol])⟩

/-- Maps with one slice in each direction and without field line lengths. -/
def exMaps : ODict (Val ℚ) :=
  [("R", .f3 fun c => c.1), ("Z", .f3 fun c => c.2.2), ("MXG", .int 1), ("MYG", .int 1),
    ("forward_R", .f3 fun c => c.1), ("forward_Z", .f3 fun c => c.2.2),
    ("forward_xt_prime", .f3 fun c => c.1 + 1 / 2), ("backward_R", .f3 fun c => c.1 + 1),
    ("backward_Z", .f3 fun c => 2 * c.2.2)]

theorem exMaps_slices (n : ℤ) (h1 : n ≠ 0) (h2 : n.natAbs ≤ 1) : HasSlice (f3s exMaps) (fun _ => "") n := by
  intro k hk
  have hn : n = 1 ∨ n = -1 := by omega
  simp only [List.mem_cons, List.not_mem_nil, or_false] at hk
  rcases hn with rfl | rfl <;> rcases hk with rfl | rfl
  · exact ⟨"forward_R", by decide +kernel, by simp [f3s, exMaps, ODict.get?_cons]⟩
  · exact ⟨"forward_Z", by decide +kernel, by simp [f3s, exMaps, ODict.get?_cons]⟩
  · exact ⟨"backward_R", by decide +kernel, by simp [f3s, exMaps, ODict.get?_cons]⟩
  · exact ⟨"backward_Z", by decide +kernel, by simp [f3s, exMaps, ODict.get?_cons]⟩

theorem exMaps_nodup : exMaps.keys.Nodup := by unfold exMaps ODict.keys; decide

theorem exAddMaps_succeeds (create : Bool) (id : String) (s : Mw ℚ) (ho : s.isOpen = true)
    (hf : s.field = some exField) (hg : s.grid = some exUniGrid) (hca : s.cache = none) (nx ny nz : ℕ)
    (hxyz : s.nxyz = some [nx, ny, nz]) : (s.addMaps (exParams create) exMaps id).2 = none :=
  addMaps_succeeds (exParams create) (fun _ => rfl) exMkPol_complete (Or.inl exMkPol_J) exUniGrid _ _
    exUniGrid_ok rfl exUniform (by norm_num [exUniGrid]) (by decide) exField exMaps exMaps_nodup
    (Or.inr (by simp [exMaps, ODict.get?_cons])) 1 (by simp [exMaps, ODict.get?_cons]) exMaps_slices
    (Or.inl (by simp [f3s, exMaps, ODict.get?_cons])) id s ho hf hg hca nx ny nz hxyz

theorem exWriteMaps_succeeds (create : Bool) (s : Mw ℚ) :
    (writeMaps (exParams create) exUniGrid none exField exMaps "uuid" s).2 = none :=
  C105_succeeds (exParams create) (fun _ => rfl) exMkPol_complete (Or.inl exMkPol_J) exUniGrid _ _
    exUniGrid_ok rfl exUniform (by norm_num [exUniGrid]) (by decide) exField exMaps exMaps_nodup
    (Or.inr (by simp [exMaps, ODict.get?_cons])) 1 (by simp [exMaps, ODict.get?_cons]) exMaps_slices
    (Or.inl (by simp [f3s, exMaps, ODict.get?_cons])) "uuid" s

example (s : Mw ℚ) : GridFile (exParams true) exUniGrid exField exMaps "uuid"
    (writeMaps (exParams true) exUniGrid none exField exMaps "uuid" s).1.file
    (writeMaps (exParams true) exUniGrid none exField exMaps "uuid" s).1.attrs :=
  (C105_grid_file (exParams true) exUniGrid exField (by simp [exField]) exMaps exMaps_nodup
    "uuid" s (exWriteMaps_succeeds true s)).2

/-! ## C106 -/

/-- **C106**, the claim: whatever the calls on a new writer were, the sizes that a successful
`add_maps` stores are those of the grid. -/
def SizesOfGrid (c : MwParams K) (file : ODict (Val K)) (attrs : ODict String) (l : List (MwOp K)) : Prop :=
  ∀ maps id g, (((Mw.new file attrs).calls c l).addMaps c maps id).2 = none →
    ((Mw.new file attrs).calls c l).grid = some g →
    DimsInFile g.nx g.ny g.nz (((Mw.new file attrs).calls c l).addMaps c maps id).1.file

theorem nxyz_calls (c : MwParams K) (l : List (MwOp K)) (hl : c.create = true ∨ MwOp.enter ∉ l) (s : Mw K)
    (hs : ∀ g, s.grid = some g → s.nxyz = some [g.nx, g.ny, g.nz]) (g : Grid (PolGrid K) K)
    (hg : (s.calls c l).grid = some g) : (s.calls c l).nxyz = some [g.nx, g.ny, g.nz] := by
  induction l generalizing s with
  | nil => exact hs g hg
  | cons o t ih =>
    refine ih (hl.imp id fun h hc => h (List.mem_cons_of_mem _ hc)) (s.call c o).1 ?_ hg
    clear hg
    cases o with
    | enter =>
      rcases hl with hl | hl
      · intro g hg
        simp only [Mw.call, Mw.enter, hl, if_true] at hg ⊢
        exact hs g hg
      · exact absurd List.mem_cons_self hl
    | exit => exact hs
    | addGrid g' cache =>
      intro g hg
      have : (s.call c (.addGrid g' cache)).1.grid = some g' ∧
          (s.call c (.addGrid g' cache)).1.nxyz = some [g'.nx, g'.ny, g'.nz] := by
        simp only [Mw.call, Mw.addGrid]
        split <;> exact ⟨rfl, rfl⟩
      rw [this.1] at hg
      injection hg with hg
      subst hg
      exact this.2
    | addField f => exact hs
    | writeDict d a => exact hs
    | addMaps maps id =>
      have : (s.addMaps c maps id).1.grid = s.grid ∧ (s.addMaps c maps id).1.nxyz = s.nxyz := by
        unfold Mw.addMaps
        split
        · exact ⟨rfl, rfl⟩
        · simp only [Mw.writeDict]
          split
          · rename_i h; injection h with h1 h2; subst h1; exact ⟨rfl, rfl⟩
          · rename_i h; injection h with h1 h2; subst h1
            split
            · exact ⟨rfl, rfl⟩
            · split
              · exact ⟨rfl, rfl⟩
              · split
                · exact ⟨rfl, rfl⟩
                · unfold Mw.metrics
                  simp only
                  split
                  · exact ⟨rfl, rfl⟩
                  · split
                    · exact ⟨rfl, rfl⟩
                    · unfold Mw.final
                      split
                      · exact ⟨rfl, rfl⟩
                      · simp only
                        split <;> exact ⟨rfl, rfl⟩
      intro g hg
      simp only [Mw.call] at hg ⊢
      rw [this.1] at hg
      rw [this.2]
      exact hs g hg

theorem calls_append (c : MwParams K) (a b : List (MwOp K)) (s : Mw K) :
    s.calls c (a ++ b) = (s.calls c a).calls c b := List.foldl_append

/-- **C106** for writers with `create=True`, and for writers that are opened once, before the
grid is added.  Missing: writers with `create=False` that are closed and opened again,
for which `C106_fails` shows that it is false. -/
theorem C106_sizes_partial (c : MwParams K) (file : ODict (Val K)) (attrs : ODict String)
    (l : List (MwOp K)) (hl : c.create = true ∨ ∃ t, l = .enter :: t ∧ .enter ∉ t) :
    SizesOfGrid c file attrs l := by
  intro maps id g h hg
  obtain ⟨_, _, _, nx, ny, nz, h1, h2⟩ := C42_completed c maps id _ h
  have : ((Mw.new file attrs).calls c l).nxyz = some [g.nx, g.ny, g.nz] := by
    rcases hl with hl | ⟨t, rfl, ht⟩
    · exact nxyz_calls c l (Or.inl hl) _ (by simp [Mw.new]) g hg
    · refine nxyz_calls c t (Or.inr ht) ((Mw.new file attrs).enter c) ?_ g hg
      unfold Mw.enter
      split <;> simp [Mw.new]
  rw [this] at h1
  simp only [Option.some.injEq, List.cons.injEq, and_true] at h1
  obtain ⟨rfl, rfl, rfl⟩ := h1
  exact h2

/-- The writer of the example after `with mw: mw.add_grid_field(grid, field)`, opened again. -/
def exReopen : List (MwOp ℚ) := [.enter, .addField exField, .addGrid exUniGrid none, .exit, .enter]

theorem exReopen_state (B : Val ℚ) : ∃ file, (Mw.new [("B", B)] []).calls (exParams false) exReopen =
    ⟨true, some exUniGrid, none, some exField, some ((exParams false).shape B), file, []⟩ := by
  have hlen : exUniGrid.polGrids.length = exUniGrid.ycoords.length := rfl
  unfold exReopen Mw.calls
  simp only [List.foldl_cons, List.foldl_nil, Mw.call, Mw.addGrid, fieldOnGrid_eq exUniGrid hlen,
    Mw.writeDict, Mw.exit, Mw.addField]
  exact ⟨_, rfl⟩

/-- **C106** is false: reopening a file that has a `B` of another size replaces the size of the
grid by that size, which `add_maps` then stores without complaint: `nx` = 7 for a grid
with `nx` = 2. -/
theorem C106_fails : ∃ (c : MwParams ℚ) (file : ODict (Val ℚ)) (l : List (MwOp ℚ)),
    ¬ SizesOfGrid c file [] l := by
  refine ⟨exParams false, [("B", .f3 fun _ => 1)], exReopen, ?_⟩
  intro h
  obtain ⟨file, hst⟩ := exReopen_state (.f3 fun _ => 1)
  have hok := exAddMaps_succeeds false "uuid"
    ((Mw.new [("B", .f3 fun _ => 1)] []).calls (exParams false) exReopen) (by rw [hst]) (by rw [hst]) (by rw [hst]) (by rw [hst])
    7 8 9 (by rw [hst]; rfl)
  have h1 := (h exMaps "uuid" exUniGrid hok (by rw [hst])).x
  obtain ⟨_, _, _, nx, ny, nz, q1, q2⟩ := C42_completed _ _ _ _ hok
  rw [hst] at q1
  have q1 : some [7, 8, 9] = some [nx, ny, nz] := q1
  simp only [Option.some.injEq, List.cons.injEq, and_true] at q1
  obtain ⟨rfl, rfl, rfl⟩ := q1
  rw [q2.x] at h1
  simp [exUniGrid] at h1

/-- **C106.** With `metric2d` (the default of `write_maps`) the `B` in the file has two
dimensions, and opening the file again makes every later `add_maps` raise, until
`add_grid` is called again: nothing has written the sizes. -/
theorem C106_two_dimensional (c : MwParams K) (hc : c.create = false) (s : Mw K) (B : Val K)
    (hB : s.file.get? "B" = some B) (nx ny : ℕ) (h2 : c.shape B = [nx, ny]) (maps : ODict (Val K))
    (id : String) : ((s.enter c).addMaps c maps id).2 ≠ none := by
  intro h
  obtain ⟨_, _, _, nx', ny', nz', h1, _⟩ := C42_completed c maps id _ h
  unfold Mw.enter at h1
  rw [hc] at h1
  simp only [Bool.false_eq_true, if_false, hB, h2] at h1
  simp at h1

/-- A sequence without `add_grid`: nothing completes, nothing is stored. -/
example : ∀ k ∈ dimNames, ((Mw.new [] []).calls (exParams true) [.enter, .addField exField,
    .addMaps exMaps "uuid", .exit]).file.get? k = none := by
  refine C42_only_completed (exParams true) _ _ ⟨by simp [Mw.new, cacheKeys], by simp [Mw.new]⟩ ?_
    (by simp [Mw.new]) ?_
  · intro o ho
    simp only [List.mem_cons, List.not_mem_nil, or_false] at ho
    rcases ho with rfl | rfl | rfl | rfl
    · trivial
    · simp [MwOp.Harmless, exField, dimNames]
    · have : ∀ k ∈ dimNames, k ∉ exMaps.keys := by unfold exMaps ODict.keys; decide
      exact this
    · trivial
  · intro pre maps id post e hok
    obtain ⟨_, _, hg, _⟩ := C42_completed _ _ _ _ hok
    apply hg
    rcases pre with _ | ⟨a, _ | ⟨b, _ | ⟨d, _ | ⟨x, t⟩⟩⟩⟩ <;> simp at e
    obtain ⟨rfl, rfl, _⟩ := e
    rfl

/-- `C42_completed` applies to the example. -/
example (s : Mw ℚ) (ho : s.isOpen = true) (hf : s.field = some exField) (hg : s.grid = some exUniGrid)
    (hca : s.cache = none) (hxyz : s.nxyz = some [5, 6, 7]) :
    (s.addMaps (exParams true) exMaps "uuid").1.file.get? "nz" = some (.int 7) := by
  have hok := exAddMaps_succeeds true "uuid" s ho hf hg hca 5 6 7 hxyz
  obtain ⟨_, _, _, nx, ny, nz, q1, q2⟩ := C42_completed _ _ _ _ hok
  rw [hxyz] at q1
  simp only [Option.some.injEq, List.cons.injEq, and_true] at q1
  obtain ⟨rfl, rfl, rfl⟩ := q1
  exact q2.z

end Zoidberg
