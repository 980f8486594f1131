import Verif.Model.Smooth
import Mathlib.Data.List.Chain
import Mathlib.Data.List.Dedup
import Mathlib.Data.List.GetD
import Mathlib.Data.List.Pairwise
import Mathlib.Data.List.Perm.Subperm
import Mathlib.Tactic.FieldSimp
import Mathlib.Tactic.Linarith
import Mathlib.Tactic.LinearCombination
import Mathlib.Tactic.NormNum

/-!
# C88, C162: the points to smooth
-/

set_option linter.unusedSectionVars false

namespace Zoidberg

/-! ### Splitting into runs -/

/-- The runs of a list: no run is empty, each consists of consecutive numbers, they follow each other with gaps and together are the list. -/
def GoodRuns (runs : List (List ℤ)) (l : List ℤ) : Prop :=
  runs.flatten = l ∧ (∀ m ∈ runs, m ≠ [] ∧ m.IsChain fun a b => a + 1 = b) ∧ runs.IsChain fun m n => ∀ x ∈ m.getLast?, ∀ y ∈ n.head?, x + 1 ≠ y

theorem goodRuns_grow (R : List (List ℤ)) (c l : List ℤ) (x p : ℤ) (h : GoodRuns (R ++ [c]) l) (hx : c.getLast? = some x) (hp : x + 1 = p) : GoodRuns (R ++ [c ++ [p]]) (l ++ [p]) := by
  obtain ⟨h1, h2, h3⟩ := h
  have hc : c ≠ [] := by rintro rfl; cases hx
  refine ⟨?_, fun m hm => ?_, ?_⟩
  · rw [← h1]; simp
  · rw [List.mem_append, List.mem_singleton] at hm
    rcases hm with hm | rfl
    · exact h2 m (by simp [hm])
    · refine ⟨by simp, ?_⟩
      rw [List.isChain_append]
      refine ⟨(h2 c (by simp)).2, List.isChain_singleton _, fun a ha b hb => ?_⟩
      rw [hx] at ha
      simp at ha hb
      omega
  · rw [List.isChain_append] at h3 ⊢
    refine ⟨h3.1, List.isChain_singleton _, fun a ha b hb => ?_⟩
    simp at hb
    subst hb
    intro u hu v hv
    refine h3.2.2 a ha c (by simp) u hu v ?_
    cases c with
    | nil => exact absurd rfl hc
    | cons d c => simpa using hv

theorem goodRuns_new (R : List (List ℤ)) (c l : List ℤ) (x p : ℤ) (h : GoodRuns (R ++ [c]) l) (hx : c.getLast? = some x) (hp : x + 1 ≠ p) : GoodRuns (R ++ [c] ++ [[p]]) (l ++ [p]) := by
  obtain ⟨h1, h2, h3⟩ := h
  refine ⟨?_, fun m hm => ?_, ?_⟩
  · rw [← h1]; simp
  · rw [List.mem_append, List.mem_singleton] at hm
    rcases hm with hm | rfl
    · exact h2 m hm
    · exact ⟨by simp, List.isChain_singleton _⟩
  · rw [List.isChain_append]
    refine ⟨h3, List.isChain_singleton _, fun a ha b hb => ?_⟩
    simp at ha hb
    subst ha; subst hb
    intro u hu v hv
    rw [hx] at hu
    simp at hu hv
    subst hu; subst hv
    exact hp

/-- The invariant of the loop after `k` steps. -/
def SplitInv (todel : List ℤ) (k : ℕ) (s : SplitState) : Prop :=
  s.first ≤ k ∧ GoodRuns (s.runs ++ [intSlice todel s.first (k + 1)]) (todel.take (k + 1)) ∧ (intSlice todel s.first (k + 1)).getLast? = some s.last

theorem take_next (todel : List ℤ) (k : ℕ) (p : ℤ) (suf : List ℤ) (h : todel.drop (k + 1) = p :: suf) : todel.take (k + 2) = todel.take (k + 1) ++ [p] ∧ todel.drop (k + 2) = suf ∧ k + 1 < todel.length := by
  have hl : k + 1 < todel.length := by
    by_contra hn
    rw [List.drop_eq_nil_of_le (by omega)] at h
    cases h
  have hg : todel[k + 1]? = some p := by
    have : (todel.drop (k + 1))[0]? = some p := by rw [h]; rfl
    simpa using this
  refine ⟨?_, ?_, hl⟩
  · rw [List.take_add_one, hg]; rfl
  · have : todel.drop (k + 1 + 1) = (todel.drop (k + 1)).drop 1 := by rw [List.drop_drop]
    rw [this, h]; rfl

theorem intSlice_next (todel : List ℤ) (f k : ℕ) (p : ℤ) (suf : List ℤ) (hf : f ≤ k + 1) (h : todel.drop (k + 1) = p :: suf) : intSlice todel f (k + 2) = intSlice todel f (k + 1) ++ [p] := by
  obtain ⟨h1, -, h3⟩ := take_next todel k p suf h
  unfold intSlice
  rw [h1, List.drop_append_of_le_length]
  rw [List.length_take]
  omega

theorem split_loop (todel : List ℤ) : ∀ (suf : List ℤ) (k : ℕ) (s : SplitState), todel.drop (k + 1) = suf → SplitInv todel k s →
    SplitInv todel (k + suf.length) ((suf.zipIdx k).foldl (splitStep todel) s)
  | [], k, s, _, h => h
  | p :: suf, k, s, hd, h => by
    obtain ⟨h1, h2, h3⟩ := h
    obtain ⟨e1, e2, e3⟩ := take_next todel k p suf hd
    rw [List.zipIdx_cons, List.foldl_cons, List.length_cons, show k + (suf.length + 1) = (k + 1) + suf.length by omega]
    refine split_loop todel suf (k + 1) _ e2 ?_
    unfold splitStep
    dsimp only
    by_cases hp : s.last + 1 = p
    · rw [if_neg (not_not.mpr hp)]
      refine ⟨by dsimp only; omega, ?_, ?_⟩
      · dsimp only
        rw [intSlice_next todel s.first k p suf (by omega) hd, e1]
        exact goodRuns_grow _ _ _ _ _ h2 h3 hp
      · dsimp only
        rw [intSlice_next todel s.first k p suf (by omega) hd]
        simp
    · rw [if_pos hp]
      have hs : intSlice todel (k + 1) (k + 2) = [p] := by
        rw [intSlice_next todel (k + 1) k p suf le_rfl hd]
        unfold intSlice
        rw [List.drop_eq_nil_of_le (by rw [List.length_take]; omega)]
        rfl
      refine ⟨by dsimp only; omega, ?_, ?_⟩
      · dsimp only
        rw [hs, e1]
        exact goodRuns_new _ _ _ _ _ h2 h3 hp
      · dsimp only
        rw [hs]
        rfl

/-- **C88.** The runs of any list. -/
theorem C88_split (todel : List ℤ) (h : todel ≠ []) : GoodRuns (splitRuns todel) todel := by
  match todel, h with
  | a :: l, _ =>
    have h0 : SplitInv (a :: l) 0 ⟨[], 0, a⟩ := by
      refine ⟨le_rfl, ⟨by simp [intSlice], fun m hm => ?_, by simp⟩, by simp [intSlice]⟩
      simp [intSlice] at hm
      subst hm
      exact ⟨by simp, List.isChain_singleton _⟩
    have := split_loop (a :: l) l 0 _ rfl h0
    obtain ⟨-, h2, -⟩ := this
    unfold splitRuns
    dsimp only [List.tail_cons, List.headD_cons]
    have e : ∀ f, intSlice (a :: l) f (0 + l.length + 1) = (a :: l).drop f := by
      intro f
      unfold intSlice
      rw [List.take_of_length_le (by simp)]
    rw [e, List.take_of_length_le (by simp)] at h2
    exact h2

/-! ### The set of points -/

theorem mem_window (b len : ℕ) (d x : ℤ) : x ∈ smoothWindow b len d ↔ d - b ≤ x ∧ x ≤ d + b ∧ x < len := by
  unfold smoothWindow
  rw [List.mem_filter, List.mem_map]
  constructor
  · rintro ⟨⟨i, hi, rfl⟩, h⟩
    rw [List.mem_range] at hi
    simp at h
    omega
  · rintro ⟨h1, h2, h3⟩
    refine ⟨⟨(x - (d - b)).toNat, List.mem_range.mpr (by omega), by omega⟩, by simpa using h3⟩

/-- **C88.** The points are the union of the windows around the outliers, below the length. -/
theorem C88_points (b len : ℕ) (outliers : List ℤ) (x : ℤ) : x ∈ smoothPoints b len outliers ↔ (∃ d ∈ outliers, d - b ≤ x ∧ x ≤ d + b) ∧ x < len := by
  unfold smoothPoints
  rw [List.mem_insertionSort, List.mem_dedup, List.mem_flatMap]
  simp only [mem_window]
  constructor
  · rintro ⟨d, hd, h1, h2, h3⟩; exact ⟨⟨d, hd, h1, h2⟩, h3⟩
  · rintro ⟨⟨d, hd, h1, h2⟩, h3⟩; exact ⟨d, hd, h1, h2, h3⟩

theorem points_sorted (b len : ℕ) (outliers : List ℤ) : (smoothPoints b len outliers).Pairwise (· < ·) := by
  unfold smoothPoints
  have h1 := List.pairwise_insertionSort (r := fun a b : ℤ => a ≤ b) (outliers.flatMap (smoothWindow b len)).dedup
  have h2 : ((outliers.flatMap (smoothWindow b len)).dedup.insertionSort (fun a b : ℤ => a ≤ b)).Nodup :=
    (List.perm_insertionSort _ _).nodup_iff.mpr (List.nodup_dedup _)
  exact (h1.and h2).imp fun h => lt_of_le_of_ne h.1 h.2

/-- **C88.** What `generate_points_tosmooth` returns: the runs, in order, of the union of the windows. -/
theorem C88_runs (b len : ℕ) (outliers : List ℤ) (runs : List (List ℤ)) (h : pointsToSmooth b outliers len = .ok runs) :
    runs.flatten.Pairwise (· < ·) ∧ GoodRuns runs runs.flatten ∧ ∀ x, x ∈ runs.flatten ↔ (∃ d ∈ outliers, d - b ≤ x ∧ x ≤ d + b) ∧ x < len := by
  unfold pointsToSmooth at h
  by_cases ho : outliers = []
  · rw [if_pos ho] at h
    cases h
    subst ho
    exact ⟨List.Pairwise.nil, ⟨rfl, ⟨fun m hm => absurd hm List.not_mem_nil, List.isChain_nil⟩⟩, fun x => by simp⟩
  · rw [if_neg ho] at h
    dsimp only at h
    by_cases ht : smoothPoints b len outliers = []
    · rw [if_pos ht] at h; cases h
    · rw [if_neg ht] at h
      cases h
      have hg := C88_split _ ht
      rw [hg.1]
      exact ⟨points_sorted b len outliers, hg, C88_points b len outliers⟩

/-- **C88.** It returns if there is an outlier that is the index of a point. -/
theorem C88_returns (b len : ℕ) (outliers : List ℤ) (h : ∀ d ∈ outliers, d < len) : ∃ runs, pointsToSmooth b outliers len = .ok runs := by
  unfold pointsToSmooth
  by_cases ho : outliers = []
  · rw [if_pos ho]; exact ⟨_, rfl⟩
  · rw [if_neg ho]
    dsimp only
    rw [if_neg]
    · exact ⟨_, rfl⟩
    · intro ht
      obtain ⟨d, hd⟩ := List.exists_mem_of_ne_nil _ ho
      have : d ∈ smoothPoints b len outliers := (C88_points b len outliers d).mpr ⟨⟨d, hd, by omega, by omega⟩, h d hd⟩
      rw [ht] at this
      cases this

/-- Neighbours are in the same run. -/
theorem run_next (runs : List (List ℤ)) (hs : runs.flatten.Pairwise (· < ·)) (hg : GoodRuns runs runs.flatten) (m : List ℤ) (hm : m ∈ runs) (y : ℤ) (hy : y ∈ m) (hy1 : y + 1 ∈ runs.flatten) : y + 1 ∈ m := by
  obtain ⟨A, B, rfl⟩ := List.append_of_mem hm
  obtain ⟨u, v, rfl⟩ := List.append_of_mem hy
  obtain ⟨-, h2, h3⟩ := hg
  have hA : ∀ a ∈ A.flatten, a < y := by
    intro a ha
    rw [List.flatten_append, List.pairwise_append] at hs
    exact hs.2.2 a ha y (by simp)
  rw [List.flatten_append, List.mem_append] at hy1
  rcases hy1 with h | h
  · exact absurd (hA _ h) (by omega)
  · rw [List.flatten_cons, List.mem_append] at h
    rcases h with h | h
    · exact h
    · exfalso
      have hchain := (h2 (u ++ y :: v) (by simp)).2
      cases v with
      | cons w v =>
        have hw : y + 1 = w := by
          rw [List.isChain_append] at hchain
          have := hchain.2.1
          rw [List.isChain_cons_cons] at this
          exact this.1
        rw [List.flatten_append, List.pairwise_append, List.flatten_cons, List.pairwise_append] at hs
        have := hs.2.1.2.2 w (by simp) (y + 1) h
        omega
      | nil =>
        cases B with
        | nil => simp at h
        | cons n B =>
          have hn : n ≠ [] := (h2 n (by simp)).1
          match n, hn with
          | c :: n, _ =>
            have hgap : y + 1 ≠ c := by
              rw [List.isChain_append] at h3
              have := h3.2.1
              rw [List.isChain_cons_cons] at this
              exact this.1 y (by simp) c (by simp)
            rw [List.flatten_append, List.pairwise_append, List.flatten_cons, List.pairwise_append] at hs
            have hc := hs.2.1.2.2 y (by simp) c (by simp)
            rw [List.flatten_cons, List.cons_append, List.mem_cons] at h
            rcases h with h | h
            · exact hgap h
            · have hs2 := hs.2.1.2.1
              rw [List.flatten_cons, List.cons_append, List.pairwise_cons] at hs2
              have := hs2.1 _ h
              omega

theorem run_unique (runs : List (List ℤ)) (hs : runs.flatten.Pairwise (· < ·)) (m n : List ℤ) (hm : m ∈ runs) (hn : n ∈ runs) (y : ℤ) (h1 : y ∈ m) (h2 : y ∈ n) : m = n := by
  have hd : runs.flatten.Nodup := hs.imp fun h => h.ne
  rw [List.nodup_flatten] at hd
  by_contra hne
  have : Std.Symm (List.Disjoint : List ℤ → List ℤ → Prop) := ⟨fun _ _ h => List.disjoint_comm.mp h⟩
  exact hd.2.forall hm hn hne h1 h2

theorem run_interval (runs : List (List ℤ)) (hs : runs.flatten.Pairwise (· < ·)) (hg : GoodRuns runs runs.flatten) (m : List ℤ) (hm : m ∈ runs) (lo hi x : ℤ) (hx : x ∈ m) (h1 : lo ≤ x) (h2 : x ≤ hi)
    (hall : ∀ y, lo ≤ y → y ≤ hi → y ∈ runs.flatten) : ∀ y, lo ≤ y → y ≤ hi → y ∈ m := by
  have up : ∀ k : ℕ, x + k ≤ hi → x + k ∈ m := by
    intro k
    induction k with
    | zero => intro _; simpa using hx
    | succ k ih =>
      intro hk
      have := run_next runs hs hg m hm (x + k) (ih (by push_cast at hk; omega)) (hall _ (by omega) (by push_cast at hk; omega))
      push_cast
      rw [← add_assoc]
      exact this
  have down : ∀ k : ℕ, lo ≤ x - k → x - k ∈ m := by
    intro k
    induction k with
    | zero => intro _; simpa using hx
    | succ k ih =>
      intro hk
      have hin := ih (by push_cast at hk; omega)
      have hl := hall (x - ((k : ℕ) + 1 : ℕ)) hk (by push_cast; omega)
      rw [List.mem_flatten] at hl
      obtain ⟨n, hn, hy⟩ := hl
      have hnx := run_next runs hs hg n hn _ hy (by
        have : x - ((k : ℕ) + 1 : ℕ) + 1 = x - k := by push_cast; omega
        rw [this]
        exact hall _ (by push_cast at hk; omega) (by omega))
      have e : x - ((k : ℕ) + 1 : ℕ) + 1 = x - k := by push_cast; omega
      rw [e] at hnx
      rw [run_unique runs hs m n hm hn _ hin hnx]
      exact hy
  intro y hy1 hy2
  rcases le_total x y with h | h
  · have := up (y - x).toNat (by omega)
    rwa [show x + ((y - x).toNat : ℤ) = y by omega] at this
  · have := down (x - y).toNat (by omega)
    rwa [show x - ((x - y).toNat : ℤ) = y by omega] at this

/-- **C88 (partial).** Each run has at least `bounds + 1` entries, if the outliers are below the length.  Missing: others (`C88_fails`), which `find_outliers` does not return (C162). -/
theorem C88_length_partial (b len : ℕ) (outliers : List ℤ) (ho : ∀ d ∈ outliers, d < len) (runs : List (List ℤ)) (h : pointsToSmooth b outliers len = .ok runs) (m : List ℤ) (hm : m ∈ runs) :
    b + 1 ≤ m.length := by
  obtain ⟨hs, hg, hmem⟩ := C88_runs b len outliers runs h
  obtain ⟨x, hx⟩ := List.exists_mem_of_ne_nil _ (hg.2.1 m hm).1
  obtain ⟨⟨d, hd, h1, h2⟩, h3⟩ := (hmem x).mp (List.mem_flatten.mpr ⟨m, hm, hx⟩)
  have hdl := ho d hd
  have hint := run_interval runs hs hg m hm (d - b) (min (d + b) (len - 1)) x hx h1 (by omega) fun y hy1 hy2 => (hmem y).mpr ⟨⟨d, hd, hy1, by omega⟩, by omega⟩
  have hsub : ((List.range (b + 1)).map fun i : ℕ => d - b + (i : ℤ)) ⊆ m := by
    intro y hy
    obtain ⟨i, hi, rfl⟩ := List.mem_map.mp hy
    rw [List.mem_range] at hi
    exact hint _ (by omega) (by omega)
  have hnd : ((List.range (b + 1)).map fun i : ℕ => d - b + (i : ℤ)).Nodup := List.nodup_range.map fun i j hij => by simpa using hij
  have := (hnd.subperm hsub).length_le
  simpa using this

/-- **C88 (refutation)** of the last part for arbitrary numbers. -/
theorem C88_fails : ¬ ∀ (b len : ℕ) (outliers : List ℤ) (runs : List (List ℤ)), pointsToSmooth b outliers len = .ok runs → ∀ m ∈ runs, b + 1 ≤ m.length := by
  intro h
  have h1 : (pointsToSmooth 1 [5] 5).toOption = some [[4]] := by decide +kernel
  cases hp : pointsToSmooth 1 [5] 5 with
  | error e => rw [hp] at h1; cases h1
  | ok r =>
    rw [hp] at h1
    cases h1
    have := h 1 5 [5] _ hp [4] (by simp)
    simp at this

variable {K : Type} [Field K] [LinearOrder K]

/-! ### C162 -/

theorem mapM_pairs {α β : Type} (f : α → Except Err β) : ∀ (l : List α) (out : List (α × β)), l.mapM (fun a => (f a).map fun b => (a, b)) = .ok out → out.map Prod.fst = l ∧ ∀ p ∈ out, f p.1 = .ok p.2
  | [], out, h => by
    cases h
    exact ⟨rfl, fun p hp => by cases hp⟩
  | a :: l, out, h => by
    rw [List.mapM_cons] at h
    cases ha : f a with
    | error e => rw [ha] at h; cases h
    | ok b =>
      rw [ha] at h
      change ((l.mapM fun a => (f a).map fun b => (a, b)) >>= fun bs => pure ((a, b) :: bs)) = .ok out at h
      cases hl : l.mapM fun a => (f a).map fun b => (a, b) with
      | error e => rw [hl] at h; cases h
      | ok o =>
        rw [hl] at h
        cases h
        obtain ⟨h1, h2⟩ := mapM_pairs f l o hl
        refine ⟨by simp [h1], fun p hp => ?_⟩
        rcases List.mem_cons.mp hp with rfl | hp
        · exact ha
        · exact h2 p hp

/-- **C162.** What `find_outliers` returns: the numbers `item - bounds` of the points between two directions with a cosine below the limit. -/
theorem C162_outliers (sqrt : K → K) (r z : List K) (cutoff : K) (bounds : ℕ) (out : List ℤ) (h : findOutliers sqrt r z cutoff bounds = .ok out) (d : ℤ) :
    d ∈ out ↔ ∃ item < z.length, d = (item : ℤ) - bounds ∧ outlierAt sqrt r z cutoff bounds item = .ok true := by
  unfold findOutliers at h
  cases hm : (List.range z.length).mapM fun item => (outlierAt sqrt r z cutoff bounds item).map fun b => (item, b) with
  | error e => rw [hm] at h; cases h
  | ok l =>
    rw [hm] at h
    cases h
    obtain ⟨h1, h2⟩ := mapM_pairs _ _ _ hm
    rw [List.mem_map]
    constructor
    · rintro ⟨p, hp, rfl⟩
      rw [List.mem_filter] at hp
      refine ⟨p.1, ?_, rfl, ?_⟩
      · have : p.1 ∈ l.map Prod.fst := List.mem_map.mpr ⟨p, hp.1, rfl⟩
        rw [h1] at this
        exact List.mem_range.mp this
      · rw [h2 p hp.1, hp.2]
    · rintro ⟨item, hi, rfl, ho⟩
      have : item ∈ l.map Prod.fst := by rw [h1]; exact List.mem_range.mpr hi
      obtain ⟨p, hp, rfl⟩ := List.mem_map.mp this
      refine ⟨p, List.mem_filter.mpr ⟨hp, ?_⟩, rfl⟩
      have := h2 p hp
      rw [ho] at this
      exact (Except.ok.inj this).symm

/-- **C162.** So they are indices of points, from `-bounds` on. -/
theorem C162_range (sqrt : K → K) (r z : List K) (cutoff : K) (bounds : ℕ) (out : List ℤ) (h : findOutliers sqrt r z cutoff bounds = .ok out) (d : ℤ) (hd : d ∈ out) :
    -(bounds : ℤ) ≤ d ∧ d < (z.length : ℤ) - bounds := by
  obtain ⟨item, hi, rfl, -⟩ := (C162_outliers sqrt r z cutoff bounds out h d).mp hd
  omega

theorem npGet_ok (a : List K) (i : ℤ) : (∃ v, npGet a i = .ok v) ↔ -(a.length : ℤ) ≤ i ∧ i < a.length := by
  unfold npGet pyIndex
  constructor
  · rintro ⟨v, h⟩
    split_ifs at h <;> simp at h <;> omega
  · rintro ⟨h1, h2⟩
    split_ifs
    · exact ⟨_, rfl⟩
    · exact ⟨_, rfl⟩

/-- **C162.** It returns exactly if the arrays have the same length and at least `2 bounds` points (or there are no points). -/
theorem C162_returns (sqrt : K → K) (r z : List K) (cutoff : K) (bounds : ℕ) (hl : r.length = z.length) : (∃ out, findOutliers sqrt r z cutoff bounds = .ok out) ↔ z = [] ∨ 2 * bounds ≤ z.length := by
  constructor
  · rintro ⟨out, h⟩
    by_contra hc
    push Not at hc
    unfold findOutliers at h
    match hz : z, hc with
    | a :: l, hc =>
      have e0 : outlierAt sqrt r (a :: l) cutoff bounds 0 = .error (.index "index is out of bounds") := by
        unfold outlierAt
        obtain ⟨v1, h1⟩ := (npGet_ok (a :: l) ((0 : ℕ) : ℤ)).mpr ⟨by simp, by simp⟩
        obtain ⟨v2, h2⟩ := (npGet_ok r ((0 : ℕ) : ℤ)).mpr ⟨by push_cast; omega, by rw [hl]; simp⟩
        rw [h1, h2]
        simp only [Except.bind]
        have hbad : ∀ (a : List K) (i : ℤ), i < -(a.length : ℤ) → npGet a i = .error (.index "index is out of bounds") := by
          intro a i hi
          unfold npGet pyIndex
          rw [if_neg (by omega), if_neg (by omega)]
        cases h3 : npGet (a :: l) (((0 : ℕ) : ℤ) - bounds) with
        | error e =>
          dsimp only
          unfold npGet at h3
          split at h3
          · cases h3
          · cases h3; rfl
        | ok v3 =>
          dsimp only
          have hb := (npGet_ok (a :: l) (((0 : ℕ) : ℤ) - bounds)).mp ⟨v3, h3⟩
          obtain ⟨v4, h4⟩ := (npGet_ok r (((0 : ℕ) : ℤ) - bounds)).mpr (by rw [hl]; exact hb)
          rw [h4]
          dsimp only
          rw [hbad (a :: l) _ (by have := hc.2; push_cast; omega)]
      rw [List.length_cons, List.range_succ_eq_map, List.mapM_cons, e0] at h
      cases h
  · rintro (rfl | h)
    · exact ⟨[], rfl⟩
    · have hgood : ∀ item ∈ List.range z.length, ∃ b, (outlierAt sqrt r z cutoff bounds item).map (fun b => (item, b)) = .ok b := by
        intro item hi
        rw [List.mem_range] at hi
        obtain ⟨v1, h1⟩ := (npGet_ok z (item : ℤ)).mpr ⟨by omega, by omega⟩
        obtain ⟨v2, h2⟩ := (npGet_ok r (item : ℤ)).mpr ⟨by omega, by omega⟩
        obtain ⟨v3, h3⟩ := (npGet_ok z ((item : ℤ) - bounds)).mpr ⟨by omega, by omega⟩
        obtain ⟨v4, h4⟩ := (npGet_ok r ((item : ℤ) - bounds)).mpr ⟨by omega, by omega⟩
        obtain ⟨v5, h5⟩ := (npGet_ok z ((item : ℤ) - bounds * 2)).mpr ⟨by omega, by omega⟩
        obtain ⟨v6, h6⟩ := (npGet_ok r ((item : ℤ) - bounds * 2)).mpr ⟨by omega, by omega⟩
        unfold outlierAt
        rw [h1, h2, h3, h4, h5, h6]
        exact ⟨_, rfl⟩
      have : ∀ (l : List ℕ), (∀ item ∈ l, ∃ b, (outlierAt sqrt r z cutoff bounds item).map (fun b => (item, b)) = .ok b) → ∃ o, (l.mapM fun item => (outlierAt sqrt r z cutoff bounds item).map fun b => (item, b)) = .ok o := by
        intro l
        induction l with
        | nil => intro _; exact ⟨[], rfl⟩
        | cons a l ih =>
          intro hl
          obtain ⟨b, hb⟩ := hl a (by simp)
          obtain ⟨o, ho⟩ := ih fun i hi => hl i (by simp [hi])
          rw [List.mapM_cons, hb, ho]
          exact ⟨_, rfl⟩
      obtain ⟨o, ho⟩ := this _ hgood
      unfold findOutliers
      rw [ho]
      exact ⟨_, rfl⟩

/-! ### Examples -/

example : (pointsToSmooth 2 [-1, 0, 9, 3] 10).toOption = some [[-3, -2, -1, 0, 1, 2, 3, 4, 5], [7, 8, 9]] := by decide +kernel

end Zoidberg
