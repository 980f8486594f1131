import Verif.Props.WriteDict
import Verif.Props.GetMetric

/-! # C98: the metric in the grid file -/

set_option linter.unusedSectionVars false

namespace Zoidberg

variable {K : Type} [Field K] [LinearOrder K] [IsStrictOrderedRing K] [FloorRing K]

/-- The names an entry has in the file: the documented new names, or with
`new_names=True` the names as they are. -/
def FileName (newNames : Bool) (k k' : String) : Prop :=
  if newNames then k' = k else NewName k k'

/-- What is stored of an array: all of it, or with `metric2d` the plane `z = 0`, and
one number for `dz`. -/
def stored (metric2d : Bool) (k : String) (a : Cell → K) : Val K :=
  if metric2d then (if k = "dz" then .num (a (0, 0, 0)) else .f2 fun x y => a (x, y, 0)) else .f3 a

/-- The entries derived from `g_yy`. -/
def parallelNames : List String :=
  ["g_yy", "g_yy_old", "g_yy_correct", "g_yy_cell_ylow", "g_yy_cell_yhigh"]

/-- The documented content, given the metric `m` of `get_metric` and the maps. -/
inductive MetricEntry (m : Metric K) (maps : ODict (Cell → K)) : String → (Cell → K) → Prop
  /-- Everything but the parallel component is as `get_metric` returns it. -/
  | other (k a) (hk : k ∉ parallelNames) (h : m.get? k = some a) : MetricEntry m maps k a
  /-- With `Ly` the parallel component is the length of the field line per `dy`. -/
  | length (k post a dy) (hk : (k, post) ∈ [("g_yy", ""), ("g_yy_correct", ""),
      ("g_yy_cell_ylow", "_cell_ylow"), ("g_yy_cell_yhigh", "_cell_yhigh")])
      (hl : maps.get? "Ly" ≠ none) (h : maps.get? ("Ly" ++ post) = some a)
      (hd : m.get? "dy" = some dy) : MetricEntry m maps k fun c => (a c / dy c) ^ 2
  /-- The value of `get_metric` is kept as `g_yy_old`. -/
  | old (a) (hl : maps.get? "Ly" ≠ none) (h : m.get? "g_yy" = some a) :
      MetricEntry m maps "g_yy_old" a
  /-- Without `Ly` the faces get the value of the centre. -/
  | noLength (k a) (hk : k ∈ ["g_yy", "g_yy_cell_ylow", "g_yy_cell_yhigh"])
      (hl : maps.get? "Ly" = none) (h : m.get? "g_yy" = some a) : MetricEntry m maps k a

theorem addLy_entry {m m' : Metric K} {maps : ODict (Cell → K)} (h : addLy m maps = (m', none))
    {k : String} {a : Cell → K} (he : MetricEntry m maps k a) : m'.get? k = some a := by
  obtain ⟨g, h1, ⟨ly, lo, hi, dy, p1, p2, p3, p4, rfl⟩ | ⟨p1, rfl⟩⟩ := addLy_ok h
  · cases he with
    | other k a hk h =>
      simp only [parallelNames, List.mem_cons, List.not_mem_nil, or_false, not_or] at hk
      obtain ⟨q1, q2, q3, q4, q5⟩ := hk
      rw [ODict.get?_set_ne _ _ q3, ODict.get?_set_ne _ _ q5, ODict.get?_set_ne _ _ q4,
        ODict.get?_set_ne _ _ q1, ODict.get?_set_ne _ _ q2, h]
    | length k post a dy' hk hl h hd =>
      rw [p4] at hd
      injection hd with hd
      subst hd
      simp only [List.mem_cons, List.not_mem_nil, or_false, Prod.mk.injEq] at hk
      rcases hk with ⟨rfl, rfl⟩ | ⟨rfl, rfl⟩ | ⟨rfl, rfl⟩ | ⟨rfl, rfl⟩
      · have h : maps.get? "Ly" = some a := h
        rw [p1] at h; injection h with h; subst h
        rw [ODict.get?_set_ne _ _ (by decide), ODict.get?_set_ne _ _ (by decide),
          ODict.get?_set_ne _ _ (by decide), ODict.get?_set_self]
        rfl
      · have h : maps.get? "Ly" = some a := h
        rw [p1] at h; injection h with h; subst h
        rw [ODict.get?_set_self]; rfl
      · have h : maps.get? "Ly_cell_ylow" = some a := h
        rw [p2] at h; injection h with h; subst h
        rw [ODict.get?_set_ne _ _ (by decide), ODict.get?_set_ne _ _ (by decide), ODict.get?_set_self]
        rfl
      · have h : maps.get? "Ly_cell_yhigh" = some a := h
        rw [p3] at h; injection h with h; subst h
        rw [ODict.get?_set_ne _ _ (by decide), ODict.get?_set_self]; rfl
    | old a hl h =>
      rw [h1] at h; injection h with h; subst h
      rw [ODict.get?_set_ne _ _ (by decide), ODict.get?_set_ne _ _ (by decide),
        ODict.get?_set_ne _ _ (by decide), ODict.get?_set_ne _ _ (by decide), ODict.get?_set_self]
    | noLength k a hk hl h => rw [p1] at hl; simp at hl
  · cases he with
    | other k a hk h =>
      simp only [parallelNames, List.mem_cons, List.not_mem_nil, or_false, not_or] at hk
      obtain ⟨q1, q2, q3, q4, q5⟩ := hk
      rw [ODict.get?_set_ne _ _ q5, ODict.get?_set_ne _ _ q4, h]
    | length k post a dy' hk hl h hd => exact absurd p1 hl
    | old a hl h => exact absurd p1 hl
    | noLength k a hk hl h =>
      rw [h1] at h; injection h with h; subst h
      simp only [List.mem_cons, List.not_mem_nil, or_false] at hk
      rcases hk with rfl | rfl | rfl
      · rw [ODict.get?_set_ne _ _ (by decide), ODict.get?_set_ne _ _ (by decide), h1]
      · rw [ODict.get?_set_ne _ _ (by decide), ODict.get?_set_self]
      · rw [ODict.get?_set_self]

/-- All names that can occur. -/
def allMetricNames : List String :=
  ["dx", "dy", "dz", "gyy", "g_yy", "gxx", "g_xx", "gxz", "g_xz", "gzz", "g_zz", "J", "Bxy", "B",
    "pressure"] ++ parallelNames

/-- The names in the result of `get_metric`. -/
def baseMetricNames : List String :=
  ["dx", "dy", "dz", "gyy", "g_yy", "gxx", "g_xx", "gxz", "g_xz", "gzz", "g_zz", "J", "Bxy", "B",
    "pressure"]

theorem getMetric_names {sqrt : K → K} {g : Grid (PolGrid K) K} {f : MagField K} {m : Metric K}
    {b : Cell → K} (h : getMetric sqrt g f none = .ok (m, b)) :
    (ODict.keys m).Nodup ∧ ∀ k ∈ ODict.keys m, k ∈ baseMetricNames := by
  obtain ⟨M, hM⟩ : ∃ M, g.metric none = .ok M := by
    unfold getMetric at h
    split at h
    · simp at h
    · exact ⟨_, by assumption⟩
  have hMk : ∃ t, (t = [] ∨ t = ["J"]) ∧ ODict.keys M = ["dx", "dy", "dz", "gyy", "g_yy", "gxx", "g_xx",
      "gxz", "g_xz", "gzz", "g_zz"] ++ t := by
    have hM' : g.computeMetric = .ok M := hM
    unfold Grid.computeMetric at hM'
    split at hM'
    · simp at hM'
    · split at hM'
      · simp at hM'
      · injection hM' with hM'
        subst hM'
        split
        · exact ⟨["J"], Or.inr rfl, rfl⟩
        · exact ⟨[], Or.inl rfl, rfl⟩
  obtain ⟨t, ht, hMk⟩ := hMk
  have kr := getMetric_keys hM (by rw [hMk]; simp) (by rw [hMk]; simp) h
  have nr : (ODict.keys m).Nodup := by
    rw [kr]
    exact ODict.nodup_set _ _ _ (ODict.nodup_set _ _ _ (ODict.nodup_set _ _ _ (computeMetric_nodup hM)))
  have hm : ∀ k ∈ ODict.keys m, k ∈ baseMetricNames := by
    intro k hk
    rw [kr] at hk
    simp only [mem_keys_set, hMk] at hk
    have hall : ∀ k ∈ ["pressure", "B", "Bxy", "dx", "dy", "dz", "gyy", "g_yy", "gxx", "g_xx",
      "gxz", "g_xz", "gzz", "g_zz", "J"], k ∈ baseMetricNames := by decide
    apply hall
    rcases ht with rfl | rfl
    · rcases hk with rfl | rfl | rfl | hk
      · decide
      · decide
      · decide
      · simp only [List.append_nil] at hk
        revert hk; revert k; decide
    · rcases hk with rfl | rfl | rfl | hk
      · decide
      · decide
      · decide
      · revert hk; revert k; decide
  exact ⟨nr, hm⟩

theorem metric_names {sqrt : K → K} {g : Grid (PolGrid K) K} {f : MagField K} {m : Metric K}
    {b : Cell → K} (h : getMetric sqrt g f none = .ok (m, b)) {maps : ODict (Cell → K)} {m' : Metric K}
    (h' : addLy m maps = (m', none)) :
    (ODict.keys m').Nodup ∧ ∀ k ∈ ODict.keys m', k ∈ allMetricNames := by
  obtain ⟨nr, hm0⟩ := getMetric_names h
  have hm : ∀ k ∈ ODict.keys m, k ∈ allMetricNames := by
    intro k hk
    have hsub : ∀ k ∈ baseMetricNames, k ∈ allMetricNames := by decide
    exact hsub k (hm0 k hk)
  obtain ⟨g, h1, ⟨ly, lo, hi, dy, p1, p2, p3, p4, rfl⟩ | ⟨p1, rfl⟩⟩ := addLy_ok h'
  · refine ⟨ODict.nodup_set _ _ _ (ODict.nodup_set _ _ _ (ODict.nodup_set _ _ _
      (ODict.nodup_set _ _ _ (ODict.nodup_set _ _ _ nr)))), ?_⟩
    intro k hk
    simp only [mem_keys_set] at hk
    rcases hk with rfl | rfl | rfl | rfl | rfl | hk
    · decide
    · decide
    · decide
    · decide
    · decide
    · exact hm k hk
  · refine ⟨ODict.nodup_set _ _ _ (ODict.nodup_set _ _ _ nr), ?_⟩
    intro k hk
    simp only [mem_keys_set] at hk
    rcases hk with rfl | rfl | hk
    · decide
    · decide
    · exact hm k hk

theorem all_noClash : ∀ p ∈ documentedNames, p.2 ∉ allMetricNames := by decide

theorem newName_dz {k k' : String} (h : NewName k k') : k' = "dz" ↔ k = "dz" := by
  have h1 : ∀ p ∈ documentedNames, p.1 ≠ "dz" ∧ p.2 ≠ "dz" := by decide
  rcases h with h | ⟨rfl, _⟩
  · have := h1 _ h
    exact ⟨fun e => absurd e this.2, fun e => absurd e this.1⟩
  · rfl

/-- Writing without the reduction to two dimensions. -/
theorem read_back_3d {V : Type} (o : Vals V) (d file : ODict V) (hd : d.keys.Nodup)
    (h : (writeDict o true false false d file).2 = none) (k : String) :
    (writeDict o true false false d file).1.get? k = (d.get? k).or (file.get? k) := by
  have : writeDict o true false false d file = writeDict o true false true d file := rfl
  rw [this] at h ⊢
  exact C38_read_back o false d file hd h k

theorem mapM_keys {A : Type} {l : List (String × A)} {F : A → Except Err (Cell → K)}
    {r : List (String × Val K)}
    (h : l.mapM (fun p => (F p.2).map fun a => (p.1, Val.f3 a)) = .ok r) :
    r.map (·.1) = l.map (·.1) := by
  induction l generalizing r with
  | nil => cases h; rfl
  | cons p t ih =>
    rw [List.mapM_cons] at h
    cases hp : F p.2 with
    | error e => rw [hp] at h; simp [Except.map, bind, Except.bind] at h
    | ok a =>
      rw [hp] at h
      cases ht : t.mapM (fun p => (F p.2).map fun a => (p.1, Val.f3 a)) with
      | error e => rw [ht] at h; simp [Except.map, bind, Except.bind] at h
      | ok r' =>
        rw [ht] at h
        simp only [Except.map, bind, Except.bind, pure, Except.pure, Except.ok.injEq] at h
        subst h
        simp [ih ht]

/-- **C98.** After a metric write that does not raise, the file has every entry of the
metric under its documented name: the parallel component and its face values come
from the length of the field lines if the maps have it, everything else is as
`get_metric` returns it.  (An attribute of the field that has the same name is
written later and replaces it.) -/
theorem C98_metric_in_file (c : MwConf K) (g : Grid (PolGrid K) K) (f : MagField K)
    (maps : ODict (Cell → K)) (file : ODict (Val K)) (hattr : (f.attributes.map (·.1)).Nodup)
    (h : (writeMetric c g f maps file none).err = none) :
    ∃ m b, getMetric c.sqrt g f none = .ok (m, b) ∧
      ∀ k k' a, MetricEntry m maps k a → FileName c.newNames k k' → k' ∉ f.attributes.map (·.1) →
        (writeMetric c g f maps file none).file.get? k' = some (stored c.metric2d k a) := by
  unfold writeMetric at h ⊢
  cases hg : getMetric c.sqrt g f none with
  | error e => rw [hg] at h; simp at h
  | ok mb =>
    obtain ⟨m, b⟩ := mb
    refine ⟨m, b, rfl, ?_⟩
    rw [hg] at h
    simp only at h ⊢
    cases ha : addLy m maps with
    | mk m' err =>
      rw [ha] at h
      cases err with
      | some e => simp at h
      | none =>
        simp only at h ⊢
        obtain ⟨hn, hall⟩ := metric_names hg ha
        have hout : ∃ out : Metric K, (if c.newNames then m' else updateMetricNames m') = out ∧
            (ODict.keys out).Nodup ∧ ∀ k k', k ∈ ODict.keys m' → FileName c.newNames k k' →
              out.get? k' = m'.get? k := by
          refine ⟨_, rfl, ?_, ?_⟩
          · split
            · exact hn
            · exact ODict.nodup_ofList _
          · intro k k' hk hkk
            unfold FileName at hkk
            split
            · rename_i hc; rw [if_pos hc] at hkk; rw [hkk]
            · rename_i hc
              rw [if_neg hc] at hkk
              refine (C37_renames m' hn ?_).2.2 k k' hk hkk
              intro p hp _ hp2
              exact all_noClash p hp (hall _ hp2)
        obtain ⟨out, ho, hno, hget⟩ := hout
        rw [ho] at h ⊢
        cases hw : writeDict (valOps c.finite) c.isOpen c.metric2d false (out.mapV .f3) file with
        | mk file1 err1 =>
          rw [hw] at h
          cases err1 with
          | some e => simp at h
          | none =>
            simp only at h ⊢
            cases hm : f.attributes.mapM fun p => (fieldOnGrid g p.2).map fun a => (p.1, Val.f3 a) with
            | error e => rw [hm] at h; simp at h
            | ok attrs =>
              rw [hm] at h
              simp only at h ⊢
              have hopen : c.isOpen = true := by
                cases hc : c.isOpen with
                | true => rfl
                | false => rw [hc] at h; simp [writeDict] at h
              rw [hopen] at h hw ⊢
              intro k k' a hka hkk hk'
              have hmk := addLy_entry ha hka
              have hkm : k ∈ ODict.keys m' := (ODict.mem_keys_iff _ _).2 (by rw [hmk]; simp)
              have hok : out.get? k' = some a := by rw [hget k k' hkm hkk, hmk]
              have hak : ODict.keys attrs = f.attributes.map (·.1) := mapM_keys hm
              rw [C38_read_back _ _ _ _ (by rw [hak]; exact hattr) h,
                (ODict.get?_eq_none_iff _ _).2 (by rw [hak]; exact hk'), Option.none_or]
              cases h2 : c.metric2d with
              | false =>
                rw [h2] at hw
                have hr := read_back_3d (valOps c.finite) (out.mapV .f3) file
                  (by rw [ODict.keys_mapV]; exact hno) (by rw [hw]) k'
                rw [hw, ODict.get?_mapV, hok] at hr
                rw [hr]
                rfl
              | true =>
                rw [h2] at hw
                have hr := C38_two_dimensional c.finite out file hno (by rw [hw]) k' a hok
                rw [hw] at hr
                rw [hr]
                unfold stored
                rw [if_pos rfl]
                have hdz : (k' = "dz") ↔ (k = "dz") := by
                  unfold FileName at hkk
                  split at hkk
                  · rw [hkk]
                  · exact newName_dz hkk
                simp only [hdz]

/-- **C98.** The attributes of the field are in the file too, evaluated at every grid
point. -/
theorem C98_attributes_in_file (c : MwConf K) (g : Grid (PolGrid K) K) (l : List (PolGrid K))
    (ys : List K) (hmg : MetricGrid g l ys) (f : MagField K)
    (maps : ODict (Cell → K)) (file : ODict (Val K)) (hattr : (f.attributes.map (·.1)).Nodup)
    (h : (writeMetric c g f maps file none).err = none) (k : String) (F : K → K → K → K)
    (hk : (k, F) ∈ f.attributes) :
    ∃ a, (writeMetric c g f maps file none).file.get? k = some (.f3 a) ∧
      ∀ x j z pol y, l[j]? = some pol → ys[j]? = some y → a (x, j, z) = F (pol.R x z) (pol.Z x z) y := by
  obtain ⟨rfl, rfl, hl, -⟩ := hmg.facts
  unfold writeMetric at h ⊢
  cases hg : getMetric c.sqrt g f none with
  | error e => rw [hg] at h; simp at h
  | ok mb =>
    obtain ⟨m, b⟩ := mb
    rw [hg] at h
    simp only at h ⊢
    cases ha : addLy m maps with
    | mk m' err =>
      rw [ha] at h
      cases err with
      | some e => simp at h
      | none =>
        simp only at h ⊢
        cases hw : writeDict (valOps c.finite) c.isOpen c.metric2d false
          ((if c.newNames = true then m' else updateMetricNames m').mapV .f3) file with
        | mk file1 err1 =>
          rw [hw] at h
          cases err1 with
          | some e => simp at h
          | none =>
            simp only at h ⊢
            have hm : ∀ at' : List (String × (K → K → K → K)),
                at'.mapM (fun p => (fieldOnGrid g p.2).map fun a => (p.1, Val.f3 a)) =
                Except.ok (at'.map fun p => (p.1, Val.f3 fun c => if c.2.1 < g.ycoords.length then
                  evalAt g.polGrids g.ycoords p.2 c else 0)) := by
              intro at'
              induction at' with
              | nil => rfl
              | cons p t ih =>
                rw [List.mapM_cons, ih, fieldOnGrid_eq g hl]
                rfl
            rw [hm] at h ⊢
            simp only at h ⊢
            have hopen : c.isOpen = true := by
              cases hc : c.isOpen with
              | true => rfl
              | false => rw [hc] at h; simp [writeDict] at h
            rw [hopen] at h ⊢
            have hnd : (ODict.keys (f.attributes.map fun p => (p.1, Val.f3 fun c : Cell =>
                if c.2.1 < g.ycoords.length then evalAt g.polGrids g.ycoords p.2 c else 0))).Nodup := by
              unfold ODict.keys
              rw [List.map_map]
              exact hattr
            refine ⟨fun c => if c.2.1 < g.ycoords.length then
              evalAt g.polGrids g.ycoords F c else 0, ?_, ?_⟩
            · rw [C38_read_back _ _ _ _ hnd h]
              rw [(ODict.get?_eq_some_iff _ hnd k (Val.f3 fun c : Cell =>
                if c.2.1 < g.ycoords.length then evalAt g.polGrids g.ycoords F c else 0)).2
                (List.mem_map.2 ⟨(k, F), hk, rfl⟩)]
              rfl
            · intro x j z pol y hp hy
              obtain ⟨hj, hy'⟩ := List.getElem?_eq_some_iff.1 hy
              simp only [hj, if_true, evalAt, hp]
              rw [List.getD_eq_getElem?_getD, hy]
              rfl

theorem cutDict_f3 (finite : Val K → Bool) (m : Metric K) :
    ∃ d, cutDict (valOps finite) (m.mapV Val.f3) = .ok d := by
  let cutM : ODict (Val K) := m.mapV fun a => Val.f2 fun x y => a (x, y, 0)
  have hcut : (m.mapV Val.f3).mapM (fun p => (cutEntry (valOps finite) p.2).map fun v => (p.1, v)) =
      Except.ok cutM := by
    induction m with
    | nil => rfl
    | cons p t ih =>
      obtain ⟨a, b⟩ := p
      change List.mapM _ ((a, Val.f3 b) :: ODict.mapV Val.f3 t) = _
      rw [List.mapM_cons, ih]
      rfl
  unfold cutDict
  rw [hcut]
  simp only [cutM, ODict.get?_mapV]
  cases m.get? "dz" with
  | none => exact ⟨_, rfl⟩
  | some a => exact ⟨_, rfl⟩

/-- **C98.** The metric write does succeed: the file is open, all arrays are finite and
the maps have the length of the field lines at all three positions, or at none. -/
theorem C98_succeeds (c : MwConf K) (ho : c.isOpen = true) (hfin : ∀ v, c.finite v = true)
    (g : Grid (PolGrid K) K) (l : List (PolGrid K)) (ys : List K) (hmg : MetricGrid g l ys)
    (f : MagField K) (maps : ODict (Cell → K))
    (hm : maps.get? "Ly" = none ∨
      (maps.get? "Ly_cell_ylow" ≠ none ∧ maps.get? "Ly_cell_yhigh" ≠ none)) (file : ODict (Val K)) :
    (writeMetric c g f maps file none).err = none := by
  obtain ⟨rfl, rfl, hl, M, xx, zz, xz, hM, M1, M2, hxx, hzz, hxz⟩ := hmg.facts
  have hdy := metric_has_dy hM
  obtain ⟨r, e, r1, r2, r3, r4, r5, r6⟩ := getMetric_eq c.sqrt g hl f none M hM _ _ xx zz xz M1 M2 hxx
    hzz hxz
  have hadd : ∃ m', addLy r maps = (m', none) := by
    unfold addLy
    cases hly : maps.get? "Ly" with
    | none => exact ⟨_, by simp only [ODict.getE_of_get? r1]; rfl⟩
    | some ly =>
      rw [hly] at hm
      simp only [reduceCtorEq, false_or] at hm
      obtain ⟨lo, hlo⟩ := Option.ne_none_iff_exists'.1 hm.1
      obtain ⟨hi, hhi⟩ := Option.ne_none_iff_exists'.1 hm.2
      obtain ⟨dy, hdy'⟩ := Option.ne_none_iff_exists'.1 hdy
      have h2 : ∀ a, ODict.getE (ODict.set r "g_yy_old" a) "dy" = .ok dy := fun a =>
        ODict.getE_of_get? (v := dy) (by
          rw [ODict.get?_set_ne _ _ (by decide), r6 "dy" (by decide), hdy'])
      simp only [ODict.getE_of_get? r1, h2, ODict.getE_of_get? hlo, ODict.getE_of_get? hhi]
      exact ⟨_, rfl⟩
  obtain ⟨m', hadd⟩ := hadd
  have hw : ∀ (d : Metric K) (file : ODict (Val K)),
      ∃ file', writeDict (valOps c.finite) c.isOpen c.metric2d false (d.mapV .f3) file = (file', none) := by
    intro d file
    unfold writeDict
    rw [ho, if_neg (by simp)]
    obtain ⟨d', hd'⟩ := cutDict_f3 c.finite d
    split
    · rw [hd']
      exact ⟨_, writeEntries_ok (valOps c.finite) d' hfin file⟩
    · exact ⟨_, writeEntries_ok (valOps c.finite) _ hfin file⟩
  unfold writeMetric
  rw [e]
  simp only [hadd]
  obtain ⟨file', hf'⟩ := hw (if c.newNames then m' else updateMetricNames m') file
  rw [hf']
  simp only
  have hm' : ∃ attrs, f.attributes.mapM (fun p => (fieldOnGrid g p.2).map fun a => (p.1, Val.f3 a)) =
      Except.ok attrs := by
    generalize f.attributes = at'
    induction at' with
    | nil => exact ⟨_, rfl⟩
    | cons p t ih =>
      obtain ⟨r, hr⟩ := ih
      rw [List.mapM_cons, hr, fieldOnGrid_eq g hl]
      exact ⟨_, rfl⟩
  obtain ⟨attrs, hat⟩ := hm'
  rw [hat]
  simp only
  unfold writeDict
  rw [ho, if_neg (by simp), if_neg (by simp), writeEntries_ok (valOps c.finite) _ hfin]

/-- A writer with the defaults, and maps with field lines twice as long as `dy`. -/
def exConf (newNames metric2d : Bool) : MwConf ℚ := ⟨newNames, metric2d, true, fun _ => true, id⟩

def exField : MagField ℚ :=
  ⟨none, fun _ _ _ => 5, fun _ _ _ => 0, fun _ _ _ => 4, [("psi", fun R Z _ => R + 2 * Z)]⟩

def exLy : ODict (Cell → ℚ) :=
  [("Ly", fun _ => 3), ("Ly_cell_ylow", fun _ => 1), ("Ly_cell_yhigh", fun _ => 2)]

theorem exMetric_succeeds (nn m2 : Bool) (file : ODict (Val ℚ)) :
    (writeMetric (exConf nn m2) exMetricGrid exField exLy file none).err = none :=
  C98_succeeds _ rfl (fun _ => rfl) _ _ _ exMetricGrid_ok _ _
    (Or.inr ⟨by simp [exLy, ODict.get?_cons], by simp [exLy, ODict.get?_cons]⟩) _

theorem exMetric_dy (sqrt : ℚ → ℚ) : ∃ m b dy, getMetric sqrt exMetricGrid exField none = .ok (m, b) ∧
    m.get? "dy" = some dy := by
  obtain ⟨f1, f2, hl, M, xx, zz, xz, hM, M1, M2, hxx, hzz, hxz⟩ := exMetricGrid_ok.facts
  obtain ⟨dy, hdy⟩ := Option.ne_none_iff_exists'.1 (metric_has_dy hM)
  obtain ⟨r, e, _, _, _, _, _, r6⟩ := getMetric_eq sqrt exMetricGrid (by rw [f1, f2]; exact hl) exField
    none M hM _ _ xx zz xz M1 M2 hxx hzz hxz
  exact ⟨r, _, dy, e, by rw [r6 "dy" (by decide), hdy]⟩

/-- With the documented names the value at the lower face is `g_22_cell_ylow`. -/
example (file : ODict (Val ℚ)) : ∃ dy : Cell → ℚ,
    (writeMetric (exConf false false) exMetricGrid exField exLy file none).file.get? "g_22_cell_ylow" =
      some (.f3 fun c => (1 / dy c) ^ 2) := by
  obtain ⟨m, b, h1, h2⟩ := C98_metric_in_file (exConf false false) exMetricGrid exField exLy file
    (by simp [exField]) (exMetric_succeeds _ _ _)
  obtain ⟨m', b', dy, e, hdy⟩ := exMetric_dy (exConf false false).sqrt
  rw [h1] at e
  injection e with e
  injection e with e _
  subst e
  refine ⟨dy, h2 "g_yy_cell_ylow" _ _ (.length _ "_cell_ylow" (fun _ => 1) dy (by simp) ?_ ?_ hdy) ?_ ?_⟩
  · simp [exLy, ODict.get?_cons]
  · simp [exLy, ODict.get?_cons]
  · unfold FileName NewName exConf
    decide
  · simp [exField]

/-- The attribute `psi` is in the file. -/
example (file : ODict (Val ℚ)) : ∃ a,
    (writeMetric (exConf false true) exMetricGrid exField exLy file none).file.get? "psi" = some (.f3 a) ∧
      ∀ x j z pol y, [exPol true, exPol true, exPol true][j]? = some pol →
        ([0, 1, 3] : List ℚ)[j]? = some y → a (x, j, z) = pol.R x z + 2 * pol.Z x z :=
  C98_attributes_in_file _ _ _ _ exMetricGrid_ok exField exLy file (by simp [exField])
    (exMetric_succeeds _ _ _) "psi" (fun R Z _ => R + 2 * Z) (by simp [exField])

/-! ## C99: reciprocal components in the file -/

/-- **C99**, the claim: in the file the covariant and the contravariant parallel
component are reciprocal wherever the field and the major radius do not vanish. -/
def ReciprocalInFile (l : List (PolGrid K)) (ys : List K) (f : MagField K)
    (file : ODict (Val K)) : Prop :=
  ∃ lo up, file.get? "g_22" = some (.f3 lo) ∧ file.get? "g22" = some (.f3 up) ∧
    ∀ c : Cell, c.2.1 < ys.length → evalAt l ys f.Byfunc c ≠ 0 →
      (∀ R, f.Rfunc = some R → evalAt l ys R c ≠ 0) → lo c * up c = 1

/-- **C99** holds if the maps have no field line lengths (slab fields).  Missing: all other
maps, for which it is false, see `C99_fails`. -/
theorem C99_no_length_partial (c : MwConf K) (hnn : c.newNames = false) (h2d : c.metric2d = false)
    (g : Grid (PolGrid K) K) (l : List (PolGrid K)) (ys : List K) (hmg : MetricGrid g l ys)
    (f : MagField K) (Bx Bz : K → K → K → K)
    (hB : ∀ x z y, f.Bmag x z y ^ 2 = Bx x z y ^ 2 + f.Byfunc x z y ^ 2 + Bz x z y ^ 2)
    (maps : ODict (Cell → K)) (hLy : maps.get? "Ly" = none) (file : ODict (Val K))
    (hattr : (f.attributes.map (·.1)).Nodup)
    (hat : "g_22" ∉ f.attributes.map (·.1) ∧ "g22" ∉ f.attributes.map (·.1))
    (h : (writeMetric c g f maps file none).err = none) :
    ReciprocalInFile l ys f (writeMetric c g f maps file none).file := by
  obtain ⟨m, b, h1, h2⟩ := C98_metric_in_file c g f maps file hattr h
  obtain ⟨m', b', lo, up, e, e1, e2, e3⟩ := C28_reciprocal_and_bounded c.sqrt g l ys hmg f Bx Bz hB
  rw [h1] at e
  injection e with e
  injection e with e _
  subst e
  have n1 : FileName c.newNames "g_yy" "g_22" := by
    rw [hnn]; unfold FileName NewName; decide
  have n2 : FileName c.newNames "gyy" "g22" := by
    rw [hnn]; unfold FileName NewName; decide
  refine ⟨lo, up, ?_, ?_, ?_⟩
  · rw [h2 "g_yy" "g_22" lo (.noLength _ _ (by simp) hLy e1) n1 hat.1, h2d]
    rfl
  · rw [h2 "gyy" "g22" up (.other _ _ (by decide) e2) n2 hat.2, h2d]
    rfl
  · intro p hp hBy hR
    obtain ⟨a, b⟩ := e3 p hp hBy
    cases hr : f.Rfunc with
    | none => exact (b hr).1
    | some R => exact (a R hr).1 (hR R hr)

/-- **C99** is false of the code: with `Ly` the component `g_22` is replaced, but `g22`
is not. -/
theorem C99_fails : ∃ maps : ODict (Cell → ℚ),
    (writeMetric (exConf false false) exMetricGrid exField maps [] none).err = none ∧
    ¬ ReciprocalInFile [exPol true, exPol true, exPol true] [0, 1, 3] exField
      (writeMetric (exConf false false) exMetricGrid exField maps [] none).file := by
  -- two different lengths cannot both give the reciprocal of the same `g22`
  let mp : ℚ → ODict (Cell → ℚ) := fun v =>
    [("Ly", fun _ => v), ("Ly_cell_ylow", fun _ => 1), ("Ly_cell_yhigh", fun _ => 2)]
  have ok : ∀ v, (writeMetric (exConf false false) exMetricGrid exField (mp v) [] none).err = none :=
    fun v => C98_succeeds _ rfl (fun _ => rfl) _ _ _ exMetricGrid_ok _ _
      (Or.inr ⟨by simp [mp, ODict.get?_cons], by simp [mp, ODict.get?_cons]⟩) _
  by_contra hall
  push Not at hall
  obtain ⟨m, b, dy, e, hdy⟩ := exMetric_dy (exConf false false).sqrt
  have key : ∀ v, ∃ up, m.get? "gyy" = some up ∧ (v / dy (0, 0, 0)) ^ 2 * up (0, 0, 0) = 1 := by
    intro v
    obtain ⟨lo, up, h1, h2, h3⟩ := hall (mp v) (ok v)
    obtain ⟨m', b', e1, e2⟩ := C98_metric_in_file (exConf false false) exMetricGrid exField (mp v) []
      (by simp [exField]) (ok v)
    rw [e] at e1
    injection e1 with e1
    injection e1 with e1 _
    subst e1
    have h4 := e2 "g_yy" "g_22" _ (.length _ "" (fun _ => v) dy (by simp)
      (by simp [mp, ODict.get?_cons]) (by simp [mp, ODict.get?_cons]) hdy)
      (by unfold FileName NewName exConf; decide) (by simp [exField])
    rw [h1] at h4
    injection h4 with h4
    injection h4 with h4
    obtain ⟨_, _, _, up', g1, _, g3, _⟩ := C28_reciprocal_and_bounded (exConf false false).sqrt
      exMetricGrid _ _ exMetricGrid_ok exField (fun _ _ _ => 3) (fun _ _ _ => 0)
      (by intro x z y; norm_num [exField])
    rw [e] at g1
    injection g1 with g1
    injection g1 with g1 _
    subst g1
    have h5 := e2 "gyy" "g22" up' (.other _ _ (by decide) g3)
      (by unfold FileName NewName exConf; decide) (by simp [exField])
    rw [h2] at h5
    injection h5 with h5
    injection h5 with h5
    subst h5
    refine ⟨up, g3, ?_⟩
    have := h3 (0, 0, 0) (by norm_num) (by norm_num [evalAt, exField]) (by simp [exField])
    rw [h4] at this
    exact this
  obtain ⟨u, hu, h3⟩ := key 3
  obtain ⟨u', hu', h6⟩ := key 6
  rw [hu] at hu'
  injection hu' with hu'
  subst hu'
  have : (6 / dy (0, 0, 0)) ^ 2 * u (0, 0, 0) = 4 * ((3 / dy (0, 0, 0)) ^ 2 * u (0, 0, 0)) := by ring
  rw [h6, h3] at this
  norm_num at this

end Zoidberg
