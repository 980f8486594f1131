import Verif.Props.Grid
import Mathlib.Tactic.IntervalCases

/-! # C23-C26: the metric of a grid -/

set_option linter.unusedSectionVars false

namespace Zoidberg

variable {K : Type} [Field K] [LinearOrder K] [IsStrictOrderedRing K] [FloorRing K]

/-! ## C23 -/

/-- The slice provides the eight entries every poloidal grid has to provide. -/
def PolGrid.Complete (p : PolGrid K) : Prop :=
  ∀ n ∈ (["dx", "dz", "gxx", "gxz", "gzz", "g_xx", "g_xz", "g_zz"] : List String), p.metric n ≠ none

/-- The slice provides a Jacobian. -/
def PolGrid.ProvidesJ (p : PolGrid K) : Prop := p.metric "J" ≠ none

theorem copy_slices (pol : PolGrid K) (y : ℕ) : ∀ (names : List String), names.Nodup →
    (∀ n ∈ names, pol.metric n ≠ none) → ∀ arr : String → Cell → K,
    ∃ arr', names.foldlM (fun arr n => (pol.metric.get n).map fun v =>
        Function.update arr n (setSlice (arr n) y v)) arr = Except.ok arr' ∧
      (∀ n, n ∉ names → arr' n = arr n) ∧
      ∀ n ∈ names, ∃ v, pol.metric n = some v ∧ arr' n = setSlice (arr n) y v := by
  intro names
  induction names with
  | nil => intro _ _ arr; exact ⟨arr, rfl, fun _ _ => rfl, by simp⟩
  | cons a t ih =>
    intro hnd hall arr
    obtain ⟨hat, hnd⟩ := List.nodup_cons.1 hnd
    obtain ⟨v, hv⟩ := Option.ne_none_iff_exists'.1 (hall a (by simp))
    obtain ⟨arr', h1, h2, h3⟩ := ih hnd (fun n hn => hall n (by simp [hn]))
      (Function.update arr a (setSlice (arr a) y v))
    refine ⟨arr', ?_, ?_, ?_⟩
    · rw [List.foldlM_cons]
      simp only [Dict.get, hv, Except.map, bind, Except.bind]
      exact h1
    · intro n hn
      simp only [List.mem_cons, not_or] at hn
      rw [h2 n hn.2, Function.update_of_ne hn.1]
    · intro n hn
      rcases List.mem_cons.1 hn with rfl | hn'
      · exact ⟨v, hv, by rw [h2 n hat, Function.update_self]⟩
      · obtain ⟨w, hw, he⟩ := h3 n hn'
        refine ⟨w, hw, ?_⟩
        rw [he, Function.update_of_ne]
        rintro rfl; exact hat hn'

/-- State of the loop after the slices of `done`: copies of their entries. -/
def CopyOf (l : List (PolGrid K)) (k : ℕ) (arr : Cell → K) (n : String) : Prop :=
  ∀ i < k, ∃ p v, l[i]? = some p ∧ p.metric n = some v ∧ ∀ x z, arr (x, i, z) = v x z

theorem metricStep_eq (g : Grid (PolGrid K) K) (hl : g.polGrids.length = g.ycoords.length)
    (hc : ∀ p ∈ g.polGrids, p.Complete) (s : MetricState K) (k : ℕ) (p : PolGrid K)
    (hp : g.polGrids[k]? = some p)
    (hs : ∀ n ∈ sliceNames, CopyOf g.polGrids k (s.arr n) n) :
    ∃ arr', (∀ n ∈ sliceNames, CopyOf g.polGrids (k + 1) (arr' n) n) ∧
      (∀ J, p.metric "J" = some J → metricStep g s k =
        if s.hasJ + 1 > 0 then .ok ⟨arr', setSlice s.J k J, s.hasJ + 1⟩
        else .error (.assertion "J only in some slices!")) ∧
      (p.metric "J" = none → metricStep g s k =
        if s.hasJ - 1 < 0 then .ok ⟨arr', s.J, s.hasJ - 1⟩
        else .error (.assertion "J only in some slices!")) := by
  obtain ⟨hk, hpk⟩ := List.getElem?_eq_some_iff.1 hp
  have hk' : k < g.ycoords.length := by omega
  obtain ⟨arr', h1, _, h3⟩ := copy_slices p k sliceNames (by decide) (hc p (hpk ▸ List.getElem_mem hk))
    s.arr
  have hlook : g.getPoloidalGrid (k : K) = .ok (some p, g.ycoords[k]) := by
    have := Grid.getPoloidalGrid_int g (k : ℤ)
    push_cast at this
    rw [this]
    unfold Grid.getInt
    simp only [Grid.ny, pyInt_natCast]
    rw [if_pos ⟨Nat.cast_nonneg k, by exact_mod_cast hk'⟩, Grid.at_lt g hl k hk', hpk]
    rfl
  refine ⟨arr', ?_, ?_, ?_⟩
  · intro n hn i hi
    obtain ⟨v, hv, he⟩ := h3 n hn
    by_cases hik : i = k
    · subst hik
      exact ⟨p, v, hp, hv, fun x z => by rw [he]; simp [setSlice]⟩
    · obtain ⟨q, w, hq, hw, hx⟩ := hs n hn i (by omega)
      exact ⟨q, w, hq, hw, fun x z => by rw [he]; simp [setSlice, hik, hx]⟩
  · intro J hJ
    unfold metricStep
    simp only [hlook, h1, hJ]
  · intro hJ
    unfold metricStep
    simp only [hlook, h1, hJ]

theorem metric_loop (g : Grid (PolGrid K) K) (hl : g.polGrids.length = g.ycoords.length)
    (hc : ∀ p ∈ g.polGrids, p.Complete) (k : ℕ) (hk : k ≤ g.polGrids.length) :
    ((∀ p ∈ g.polGrids.take k, p.ProvidesJ) → ∃ s,
      (List.range k).foldlM (metricStep g) ⟨fun _ _ => 0, fun _ => 0, 0⟩ = .ok s ∧ s.hasJ = k ∧
        (∀ n ∈ sliceNames, CopyOf g.polGrids k (s.arr n) n) ∧ CopyOf g.polGrids k s.J "J") ∧
    ((∀ p ∈ g.polGrids.take k, ¬ p.ProvidesJ) → ∃ s,
      (List.range k).foldlM (metricStep g) ⟨fun _ _ => 0, fun _ => 0, 0⟩ = .ok s ∧ s.hasJ = -k ∧
        (∀ n ∈ sliceNames, CopyOf g.polGrids k (s.arr n) n)) ∧
    ((¬ ∀ p ∈ g.polGrids.take k, p.ProvidesJ) → (¬ ∀ p ∈ g.polGrids.take k, ¬ p.ProvidesJ) →
      (List.range k).foldlM (metricStep g) ⟨fun _ _ => 0, fun _ => 0, 0⟩ =
        .error (.assertion "J only in some slices!")) := by
  induction k with
  | zero =>
    refine ⟨fun _ => ⟨_, rfl, rfl, ?_, ?_⟩, fun _ => ⟨_, rfl, rfl, ?_⟩, fun h => ?_⟩
    · intro n _ i hi; omega
    · intro i hi; omega
    · intro n _ i hi; omega
    · simp at h
  | succ k ih =>
    obtain ⟨iA, iN, iM⟩ := ih (by omega)
    obtain ⟨p, hp⟩ : ∃ p, g.polGrids[k]? = some p := ⟨_, List.getElem?_eq_getElem (by omega)⟩
    have htake : g.polGrids.take (k + 1) = g.polGrids.take k ++ [p] := by
      rw [List.take_add_one, hp]; rfl
    have hfold : ∀ s0 : MetricState K, (List.range (k + 1)).foldlM (metricStep g) s0 =
        ((List.range k).foldlM (metricStep g) s0 >>= fun s => metricStep g s k) := by
      intro s0
      rw [List.range_succ, List.foldlM_append]
      congr 1
      funext s
      simp
    rw [htake]
    simp only [List.forall_mem_append, List.mem_singleton, forall_eq, hfold]
    refine ⟨?_, ?_, ?_⟩
    · rintro ⟨ha, hJ⟩
      obtain ⟨s, hs, hn, hcp, hJc⟩ := iA ha
      obtain ⟨arr', c1, c2, _⟩ := metricStep_eq g hl hc s k p hp hcp
      obtain ⟨J, hJ⟩ := Option.ne_none_iff_exists'.1 hJ
      rw [hs]
      refine ⟨⟨arr', setSlice s.J k J, s.hasJ + 1⟩, ?_, ?_, c1, ?_⟩
      · change metricStep g s k = _
        rw [c2 J hJ, if_pos (by omega)]
      · simp [hn]
      · intro i hi
        by_cases hik : i = k
        · subst hik
          exact ⟨p, J, hp, hJ, fun x z => by simp [setSlice]⟩
        · obtain ⟨q, w, hq, hw, hx⟩ := hJc i (by omega)
          exact ⟨q, w, hq, hw, fun x z => by simp [setSlice, hik, hx]⟩
    · rintro ⟨ha, hJ⟩
      obtain ⟨s, hs, hn, hcp⟩ := iN ha
      obtain ⟨arr', c1, _, c3⟩ := metricStep_eq g hl hc s k p hp hcp
      have hJ : p.metric "J" = none := not_not.1 hJ
      rw [hs]
      refine ⟨⟨arr', s.J, s.hasJ - 1⟩, ?_, ?_, c1⟩
      · change metricStep g s k = _
        rw [c3 hJ, if_pos (by omega)]
      · simp only [hn]; push_cast; ring
    · intro h1 h2
      by_cases hA : ∀ p ∈ g.polGrids.take k, p.ProvidesJ
      · have hJ : ¬ p.ProvidesJ := fun h => h1 ⟨hA, h⟩
        have hk0 : 0 < k := by
          rcases Nat.eq_zero_or_pos k with rfl | h
          · exact absurd ⟨by simp, hJ⟩ h2
          · exact h
        obtain ⟨s, hs, hn, hcp, _⟩ := iA hA
        obtain ⟨arr', _, _, c3⟩ := metricStep_eq g hl hc s k p hp hcp
        rw [hs]
        change metricStep g s k = _
        rw [c3 (not_not.1 hJ), if_neg (by omega)]
      · by_cases hN : ∀ p ∈ g.polGrids.take k, ¬ p.ProvidesJ
        · have hJ : p.ProvidesJ := by
            by_contra h; exact h2 ⟨hN, h⟩
          have hk0 : 0 < k := by
            rcases Nat.eq_zero_or_pos k with rfl | h
            · exact absurd (by simp) hA
            · exact h
          obtain ⟨s, hs, hn, hcp⟩ := iN hN
          obtain ⟨arr', _, c2, _⟩ := metricStep_eq g hl hc s k p hp hcp
          obtain ⟨J, hJ⟩ := Option.ne_none_iff_exists'.1 hJ
          rw [hs]
          change metricStep g s k = _
          rw [c2 J hJ, if_neg (by omega)]
        · rw [iM hA hN]
          rfl

/-! ### `dy` -/

theorem dy_middle {G : Type} (g : Grid G K) :
    ((g.ycoords.map (fun v => v - g.Ly) ++ g.ycoords ++ g.ycoords.map (fun v => v + g.Ly)).drop
      g.ycoords.length).take (2 * g.ycoords.length - g.ycoords.length) = g.ycoords := by
  have : 2 * g.ycoords.length - g.ycoords.length = g.ycoords.length := by omega
  rw [this, List.append_assoc, List.drop_append_of_le_length (by simp)]
  rw [List.drop_of_length_le (by simp), List.nil_append, List.take_append_of_le_length (le_refl _),
    List.take_length]

/-- `dy` in closed form. -/
theorem dy_eq {G : Type} (g : Grid G K) (h0 : 0 < g.ycoords.length) :
    ∃ dy, g.dy = .ok dy ∧ dy.length = g.ycoords.length ∧
      (g.ycoords.length = 1 → dy = [g.Ly]) ∧
      (2 ≤ g.ycoords.length →
        dy.getD 0 0 = g.ycoords.getD 1 0 - g.ycoords.getD 0 0 ∧
        dy.getD (g.ycoords.length - 1) 0 =
          g.ycoords.getD (g.ycoords.length - 1) 0 - g.ycoords.getD (g.ycoords.length - 2) 0 ∧
        ∀ i, 0 < i → i + 1 < g.ycoords.length →
          dy.getD i 0 = (g.ycoords.getD (i + 1) 0 - g.ycoords.getD (i - 1) 0) / 2) := by
  have hunf : g.dy = if g.ycoords.length = 1 then .ok [g.Ly] else npGradient g.ycoords := by
    have : g.dy = if g.ycoords.length = 1 then .ok [g.Ly] else npGradient
        (((g.ycoords.map (fun v => v - g.Ly) ++ g.ycoords ++ g.ycoords.map (fun v => v + g.Ly)).drop
          g.ycoords.length).take (2 * g.ycoords.length - g.ycoords.length)) := rfl
    rw [this, dy_middle]
  rw [hunf]
  rcases Nat.lt_or_ge g.ycoords.length 2 with h | h
  · have h1 : g.ycoords.length = 1 := by omega
    refine ⟨[g.Ly], by rw [if_pos h1], by simp [h1], fun _ => rfl, fun h2 => by omega⟩
  · rw [if_neg (by omega)]
    unfold npGradient
    rw [if_neg (by omega)]
    refine ⟨_, rfl, by simp, fun h1 => by omega, fun _ => ⟨?_, ?_, ?_⟩⟩
    · rw [List.getD_eq_getElem _ _ (by simp; omega)]
      simp
    · rw [List.getD_eq_getElem _ _ (by simp; omega)]
      have h1 : ¬ (g.ycoords.length - 1 = 0) := by omega
      have h2 : g.ycoords.length - 1 + 1 = g.ycoords.length := by omega
      simp only [List.getElem_map, List.getElem_range, h1, h2, if_true, if_false]
      rfl
    · intro i hi hi1
      rw [List.getD_eq_getElem _ _ (by simp; omega)]
      have h1 : ¬ (i = 0) := by omega
      have h2 : ¬ (i + 1 = g.ycoords.length) := by omega
      simp only [List.getElem_map, List.getElem_range, h1, h2, if_false]

/-- The result of `Grid.metric`, entry by entry. -/
theorem computeMetric_eq (g : Grid (PolGrid K) K) (s : MetricState K) (dy : List K)
    (hs : (List.range g.ny).foldlM (metricStep g) ⟨fun _ _ => 0, fun _ => 0, 0⟩ = .ok s)
    (hdy : g.dy = .ok dy) :
    ∃ m, g.computeMetric = .ok m ∧ (∀ n ∈ sliceNames, m.get? n = some (s.arr n)) ∧
      m.get? "dy" = some (fun c => dy.getD c.2.1 0) ∧ m.get? "gyy" = some (fun _ => 1) ∧
      m.get? "g_yy" = some (fun _ => 1) ∧
      (0 < s.hasJ → m.get? "J" = some s.J) ∧ (s.hasJ ≤ 0 → m.get? "J" = none) := by
  unfold Grid.computeMetric
  rw [hs, hdy]
  refine ⟨_, rfl, ?_, ?_, ?_, ?_, ?_, ?_⟩
  · intro n hn
    simp only [sliceNames, List.mem_cons, List.not_mem_nil, or_false] at hn
    rcases hn with rfl | rfl | rfl | rfl | rfl | rfl | rfl | rfl <;>
      simp [ODict.get?_cons]
  · simp [ODict.get?_cons]
  · simp [ODict.get?_cons]
  · simp [ODict.get?_cons]
  · intro h; simp [h, ODict.get?_cons]
  · intro h; simp [not_lt.2 h, ODict.get?_cons]

/-- C23: if every slice provides a Jacobian the metric has one, made of those of
the slices; if none does, it has none; in every other case the call fails with
the assertion. -/
theorem C23_jacobian (size : PolGrid K → ℕ × ℕ) (l : List (PolGrid K)) (ys : List K) (Ly : K)
    (per : Bool) (g : Grid (PolGrid K) K) (hg : Grid.init size (.many l) ys Ly per = .ok g)
    (hc : ∀ p ∈ l, p.Complete) :
    ((∀ p ∈ l, p.ProvidesJ) → ∃ m J, g.metric none = .ok m ∧ m.get? "J" = some J ∧
      CopyOf l l.length J "J") ∧
    ((∀ p ∈ l, ¬ p.ProvidesJ) → ∃ m, g.metric none = .ok m ∧ m.get? "J" = none) ∧
    ((∃ p ∈ l, p.ProvidesJ) → (∃ p ∈ l, ¬ p.ProvidesJ) →
      g.metric none = .error (.assertion "J only in some slices!")) := by
  obtain ⟨rfl, rfl, rfl, rfl, hl, h0⟩ := Grid.init_many hg
  obtain ⟨dy, hdy, _⟩ := dy_eq g h0
  obtain ⟨iA, iN, iM⟩ := metric_loop g hl hc g.polGrids.length (le_refl _)
  rw [List.take_length] at iA iN iM
  have hny : g.ny = g.polGrids.length := hl.symm
  refine ⟨?_, ?_, ?_⟩
  · intro h
    obtain ⟨s, hs, hn, _, hJ⟩ := iA h
    rw [← hny] at hs
    obtain ⟨m, hm, _, _, _, _, h1, _⟩ := computeMetric_eq g s dy hs hdy
    exact ⟨m, s.J, hm, h1 (by omega), hJ⟩
  · intro h
    obtain ⟨s, hs, hn, _⟩ := iN h
    rw [← hny] at hs
    obtain ⟨m, hm, _, _, _, _, _, h1⟩ := computeMetric_eq g s dy hs hdy
    exact ⟨m, hm, h1 (by omega)⟩
  · rintro ⟨p, hp, hJ⟩ ⟨q, hq, hJ'⟩
    have := iM (fun h => hJ' (h q hq)) (fun h => h p hp hJ)
    rw [← hny] at this
    change g.computeMetric = _
    unfold Grid.computeMetric
    rw [this]

/-- The assertion of C23 in its other form: the call succeeds exactly when all
slices or none provide a Jacobian. -/
theorem C23_succeeds_iff (size : PolGrid K → ℕ × ℕ) (l : List (PolGrid K)) (ys : List K) (Ly : K)
    (per : Bool) (g : Grid (PolGrid K) K) (hg : Grid.init size (.many l) ys Ly per = .ok g)
    (hc : ∀ p ∈ l, p.Complete) :
    (∃ m, g.metric none = .ok m) ↔ (∀ p ∈ l, p.ProvidesJ) ∨ (∀ p ∈ l, ¬ p.ProvidesJ) := by
  obtain ⟨a, b, c⟩ := C23_jacobian size l ys Ly per g hg hc
  constructor
  · rintro ⟨m, hm⟩
    by_contra h
    simp only [not_or, not_forall, not_not] at h
    obtain ⟨⟨p, hp, h1⟩, ⟨q, hq, h2⟩⟩ := h
    rw [c ⟨q, hq, h2⟩ ⟨p, hp, h1⟩] at hm
    simp at hm
  · rintro (h | h)
    · obtain ⟨m, _, hm, _⟩ := a h; exact ⟨m, hm⟩
    · obtain ⟨m, hm, _⟩ := b h; exact ⟨m, hm⟩

/-- The other entries of the metric: copies of the slices, and the fixed
parallel components. -/
theorem C23_components (size : PolGrid K → ℕ × ℕ) (l : List (PolGrid K)) (ys : List K) (Ly : K)
    (per : Bool) (g : Grid (PolGrid K) K) (hg : Grid.init size (.many l) ys Ly per = .ok g)
    (hc : ∀ p ∈ l, p.Complete) (m : Metric K) (hm : g.metric none = .ok m) :
    (∀ n ∈ (["dx", "dz", "gxx", "gxz", "gzz", "g_xx", "g_xz", "g_zz"] : List String),
      ∃ v, m.get? n = some v ∧ CopyOf l l.length v n) ∧
    m.get? "gyy" = some (fun _ => 1) ∧ m.get? "g_yy" = some (fun _ => 1) := by
  obtain ⟨rfl, rfl, rfl, rfl, hl, h0⟩ := Grid.init_many hg
  obtain ⟨dy, hdy, _⟩ := dy_eq g h0
  obtain ⟨iA, iN, iM⟩ := metric_loop g hl hc g.polGrids.length (le_refl _)
  rw [List.take_length] at iA iN iM
  have hny : g.ny = g.polGrids.length := hl.symm
  have key : ∀ s, (List.range g.polGrids.length).foldlM (metricStep g)
      ⟨fun _ _ => 0, fun _ => 0, 0⟩ = .ok s →
      (∀ n ∈ sliceNames, CopyOf g.polGrids g.polGrids.length (s.arr n) n) →
      (∀ n ∈ sliceNames, ∃ v, m.get? n = some v ∧ CopyOf g.polGrids g.polGrids.length v n) ∧
      m.get? "gyy" = some (fun _ => 1) ∧ m.get? "g_yy" = some (fun _ => 1) := by
    intro s hs hcp
    rw [← hny] at hs
    obtain ⟨m', hm', h1, _, h2, h3, _, _⟩ := computeMetric_eq g s dy hs hdy
    have : m = m' := by
      have := hm.symm.trans (show g.metric none = .ok m' from hm')
      injection this
    subst this
    exact ⟨fun n hn => ⟨_, h1 n hn, hcp n hn⟩, h2, h3⟩
  rcases (C23_succeeds_iff size _ _ _ _ g hg hc).1 ⟨m, hm⟩ with h | h
  · obtain ⟨s, hs, _, hcp, _⟩ := iA h; exact key s hs hcp
  · obtain ⟨s, hs, _, hcp⟩ := iN h; exact key s hs hcp

/-- A slice with a Jacobian and one without. -/
def exPol (withJ : Bool) : PolGrid ℚ :=
  ⟨2, 3, fun x _ => x, fun _ z => z, fun n => if n = "J" then (if withJ then some fun _ _ => 7 else none)
    else some fun x z => x + z⟩

theorem exPol_complete (b : Bool) : (exPol b).Complete := by
  intro n hn
  simp only [List.mem_cons, List.not_mem_nil, or_false] at hn
  rcases hn with rfl | rfl | rfl | rfl | rfl | rfl | rfl | rfl <;> simp [exPol]

example (g : Grid (PolGrid ℚ) ℚ)
    (hg : Grid.init (fun p => (p.nx, p.nz)) (.many [exPol true, exPol false]) [0, 1] 2 true = .ok g) :
    g.metric none = .error (.assertion "J only in some slices!") := by
  refine (C23_jacobian _ _ _ _ _ g hg ?_).2.2 ⟨exPol true, by simp, by simp [PolGrid.ProvidesJ, exPol]⟩
    ⟨exPol false, by simp, by simp [PolGrid.ProvidesJ, exPol]⟩
  intro p hp
  simp only [List.mem_cons, List.not_mem_nil, or_false] at hp
  rcases hp with rfl | rfl <;> exact exPol_complete _

example (g : Grid (PolGrid ℚ) ℚ)
    (hg : Grid.init (fun p => (p.nx, p.nz)) (.many [exPol true, exPol true]) [0, 1] 2 true = .ok g) :
    ∃ m, g.metric none = .ok m := by
  refine (C23_succeeds_iff _ _ _ _ _ g hg ?_).2 (Or.inl ?_) <;>
  · intro p hp
    simp only [List.mem_cons, List.not_mem_nil, or_false, or_self] at hp
    subst hp
    first | exact exPol_complete _ | simp [PolGrid.ProvidesJ, exPol]

/-! ## C24 -/

/-- The dy entry of the metric at y index `i`. -/
def DyIs (g : Grid (PolGrid K) K) (i : ℕ) (v : K) : Prop :=
  ∃ m d, g.metric none = .ok m ∧ m.get? "dy" = some d ∧ ∀ x z, d (x, i, z) = v

theorem dyIs_of (g : Grid (PolGrid K) K) (dy : List K) (hdy : g.dy = .ok dy) (m : Metric K)
    (hm : g.metric none = .ok m) (i : ℕ) : DyIs g i (dy.getD i 0) := by
  have hm' : g.computeMetric = .ok m := hm
  have : ∃ s, (List.range g.ny).foldlM (metricStep g) ⟨fun _ _ => 0, fun _ => 0, 0⟩ = .ok s := by
    unfold Grid.computeMetric at hm'
    split at hm'
    · simp at hm'
    · rename_i s hs; exact ⟨s, hs⟩
  obtain ⟨s, hs⟩ := this
  obtain ⟨m', h1, _, h2, _⟩ := computeMetric_eq g s dy hs hdy
  exact ⟨m', _, h1, h2, fun _ _ => rfl⟩

/-- C24: a single slice. -/
theorem C24_single_slice (size : PolGrid K → ℕ × ℕ) (p : PolGrid K) (y Ly : K) (per : Bool)
    (g : Grid (PolGrid K) K) (hg : Grid.init size (.many [p]) [y] Ly per = .ok g)
    (m : Metric K) (hm : g.metric none = .ok m) : DyIs g 0 Ly := by
  obtain ⟨_, h2, rfl, _, _, h0⟩ := Grid.init_many hg
  obtain ⟨dy, hdy, _, h1, _⟩ := dy_eq g (by rw [h2]; exact h0)
  have := dyIs_of g dy hdy m hm 0
  rwa [h1 (by rw [h2]; rfl)] at this

/-- C24: uniform coordinates. -/
theorem C24_uniform (size : PolGrid K → ℕ × ℕ) (l : List (PolGrid K)) (ys : List K) (Ly : K)
    (per : Bool) (g : Grid (PolGrid K) K) (hg : Grid.init size (.many l) ys Ly per = .ok g)
    (m : Metric K) (hm : g.metric none = .ok m) (y0 h : K) (h2 : 2 ≤ ys.length)
    (hu : ∀ i < ys.length, ys.getD i 0 = y0 + i * h) (i : ℕ) (hi : i < ys.length) :
    DyIs g i h := by
  obtain ⟨_, rfl, rfl, _, _, h0⟩ := Grid.init_many hg
  obtain ⟨dy, hdy, _, _, h3⟩ := dy_eq g h0
  obtain ⟨a, b, c⟩ := h3 h2
  have := dyIs_of g dy hdy m hm i
  have e : dy.getD i 0 = h := by
    rcases Nat.eq_zero_or_pos i with rfl | hpos
    · rw [a, hu 1 (by omega), hu 0 (by omega)]; push_cast; ring
    · by_cases hl : i + 1 < g.ycoords.length
      · rw [c i hpos hl, hu (i + 1) hl, hu (i - 1) (by omega)]
        obtain ⟨j, rfl⟩ : ∃ j, i = j + 1 := ⟨i - 1, by omega⟩
        simp only [Nat.add_sub_cancel]
        push_cast
        field_simp
        ring
      · have : i = g.ycoords.length - 1 := by omega
        subst this
        rw [b, hu _ (by omega), hu _ (by omega)]
        obtain ⟨j, hj⟩ : ∃ j, g.ycoords.length = j + 2 := ⟨g.ycoords.length - 2, by omega⟩
        rw [hj]
        simp only [Nat.add_sub_cancel, show j + 2 - 1 = j + 1 by omega]
        push_cast
        ring
  rwa [e] at this

/-- C24: strictly increasing coordinates. -/
theorem C24_increasing (size : PolGrid K → ℕ × ℕ) (l : List (PolGrid K)) (ys : List K) (Ly : K)
    (per : Bool) (g : Grid (PolGrid K) K) (hg : Grid.init size (.many l) ys Ly per = .ok g)
    (m : Metric K) (hm : g.metric none = .ok m) (h2 : 2 ≤ ys.length)
    (hi : ys.Pairwise (· < ·)) (i : ℕ) (hi' : i < ys.length) : ∃ v, 0 < v ∧ DyIs g i v := by
  obtain ⟨_, rfl, rfl, _, _, h0⟩ := Grid.init_many hg
  obtain ⟨dy, hdy, _, _, h3⟩ := dy_eq g h0
  obtain ⟨a, b, c⟩ := h3 h2
  have hlt : ∀ (a b : ℕ), a < b → b < g.ycoords.length → g.ycoords.getD a 0 < g.ycoords.getD b 0 := by
    intro a b hab hb
    rw [List.getD_eq_getElem _ _ (by omega), List.getD_eq_getElem _ _ hb]
    exact List.pairwise_iff_getElem.1 hi a b (by omega) hb hab
  refine ⟨_, ?_, dyIs_of g dy hdy m hm i⟩
  rcases Nat.eq_zero_or_pos i with rfl | hpos
  · rw [a]; linarith [hlt 0 1 (by omega) (by omega)]
  · by_cases hl : i + 1 < g.ycoords.length
    · rw [c i hpos hl]; linarith [hlt (i - 1) (i + 1) (by omega) hl]
    · have : i = g.ycoords.length - 1 := by omega
      subst this
      rw [b]
      linarith [hlt (g.ycoords.length - 2) (g.ycoords.length - 1) (by omega) (by omega)]

/-- A periodic grid with unequal spacing: y = 0, 1, 3 and Ly = 4. -/
def exMetricGrid : Grid (PolGrid ℚ) ℚ :=
  ⟨[exPol true, exPol true, exPol true], [0, 1, 3], 4, true, 2, 3⟩

theorem exMetricGrid_init : Grid.init (fun p => (p.nx, p.nz))
    (.many [exPol true, exPol true, exPol true]) [0, 1, 3] 4 true = .ok exMetricGrid := rfl

theorem exMetricGrid_metric : ∃ m, exMetricGrid.metric none = .ok m := by
  refine (C23_succeeds_iff _ _ _ _ _ _ exMetricGrid_init ?_).2 (Or.inl ?_) <;>
  · intro p hp
    simp only [List.mem_cons, List.not_mem_nil, or_false, or_self] at hp
    subst hp
    first | exact exPol_complete _ | simp [PolGrid.ProvidesJ, exPol]

example : ∃ m v, exMetricGrid.metric none = .ok m ∧ m.get? "g_xz" = some v ∧ v (1, 2, 2) = 3 := by
  obtain ⟨m, hm⟩ := exMetricGrid_metric
  obtain ⟨v, hv, hc⟩ := (C23_components _ _ _ _ _ _ exMetricGrid_init (by simp [exPol_complete]) m hm).1
    "g_xz" (by simp)
  obtain ⟨p, w, h1, h2, h3⟩ := hc 2 (by decide)
  refine ⟨m, v, hm, hv, ?_⟩
  have hp : p = exPol true := by simpa using h1.symm
  subst hp
  have hw : w = fun x z : ℕ => (x : ℚ) + z := by simpa [exPol] using h2.symm
  rw [h3, hw]; norm_num

example : ∃ g : Grid (PolGrid ℚ) ℚ, Grid.init (fun p => (p.nx, p.nz)) (.many [exPol true, exPol true,
    exPol true]) [1, 3, 5] 6 false = .ok g ∧ DyIs g 2 2 := by
  refine ⟨_, rfl, ?_⟩
  obtain ⟨m, hm⟩ := (C23_succeeds_iff (K := ℚ) (fun p => (p.nx, p.nz))
    [exPol true, exPol true, exPol true] [1, 3, 5] 6 false _ rfl (by simp [exPol_complete])).2
    (Or.inl (by simp [PolGrid.ProvidesJ, exPol]))
  refine C24_uniform (K := ℚ) (fun p => (p.nx, p.nz))
    [exPol true, exPol true, exPol true] [1, 3, 5] 6 false _ rfl m hm 1 2 (by decide) ?_ 2 (by decide)
  intro i hi
  have hi : i < 3 := hi
  interval_cases i <;> norm_num

example : ∃ g : Grid (PolGrid ℚ) ℚ, Grid.init (fun p => (p.nx, p.nz)) (.many [exPol true]) [1] 6 false
    = .ok g ∧ DyIs g 0 6 := by
  refine ⟨_, rfl, ?_⟩
  obtain ⟨m, hm⟩ := (C23_succeeds_iff (K := ℚ) (fun p => (p.nx, p.nz)) [exPol true] [1] 6 false _ rfl
    (by simp [exPol_complete])).2 (Or.inl (by simp [PolGrid.ProvidesJ, exPol]))
  exact C24_single_slice (K := ℚ) (fun p => (p.nx, p.nz)) (exPol true) 1 6 false _ rfl m hm

example : ∃ v, 0 < v ∧ DyIs exMetricGrid 1 v := by
  obtain ⟨m, hm⟩ := exMetricGrid_metric
  exact C24_increasing _ _ _ _ _ _ exMetricGrid_init m hm (by decide) (by norm_num) 1 (by decide)

/-! ## C25 -/

/-- C25 as claimed: at the first slice the central difference with the last slice
one period earlier, at the last slice with the first one a period later. -/
def C25Claim (g : Grid (PolGrid K) K) : Prop :=
  DyIs g 0 ((g.ycoords.getD 1 0 - (g.ycoords.getD (g.ycoords.length - 1) 0 - g.Ly)) / 2) ∧
  DyIs g (g.ycoords.length - 1)
    ((g.ycoords.getD 0 0 + g.Ly - g.ycoords.getD (g.ycoords.length - 2) 0) / 2)

theorem DyIs.unique {g : Grid (PolGrid K) K} {i : ℕ} {v w : K} (h : DyIs g i v) (h' : DyIs g i w) :
    v = w := by
  obtain ⟨m, d, a, b, c⟩ := h
  obtain ⟨m', d', a', b', c'⟩ := h'
  have : m = m' := by rw [a] at a'; injection a'
  subst this
  have : d = d' := by rw [b] at b'; injection b'
  subst this
  rw [← c 0 0, ← c' 0 0]

/-- C25, in part: it holds exactly when the gap across the period boundary equals
the first and the last spacing, as on every uniform grid.  Missing: all other
grids, for which it is false. -/
theorem C25_iff_uniform_ends_partial (size : PolGrid K → ℕ × ℕ) (l : List (PolGrid K))
    (ys : List K) (Ly : K) (g : Grid (PolGrid K) K)
    (hg : Grid.init size (.many l) ys Ly true = .ok g) (m : Metric K) (hm : g.metric none = .ok m)
    (h2 : 2 ≤ ys.length) :
    C25Claim g ↔ (ys.getD 0 0 + Ly - ys.getD (ys.length - 1) 0 = ys.getD 1 0 - ys.getD 0 0 ∧
      ys.getD 0 0 + Ly - ys.getD (ys.length - 1) 0 =
        ys.getD (ys.length - 1) 0 - ys.getD (ys.length - 2) 0) := by
  obtain ⟨_, rfl, rfl, _, _, h0⟩ := Grid.init_many hg
  obtain ⟨dy, hdy, _, _, h3⟩ := dy_eq g h0
  obtain ⟨a, b, c⟩ := h3 h2
  have d0 := dyIs_of g dy hdy m hm 0
  have d1 := dyIs_of g dy hdy m hm (g.ycoords.length - 1)
  rw [a] at d0
  rw [b] at d1
  unfold C25Claim
  constructor
  · rintro ⟨e0, e1⟩
    have e0 := d0.unique e0
    have e1 := d1.unique e1
    constructor
    · linear_combination -2 * e0
    · linear_combination -2 * e1
  · rintro ⟨e0, e1⟩
    constructor
    · convert d0 using 1; linear_combination e0 / 2
    · convert d1 using 1; linear_combination e1 / 2

/-- C25 is false for the grid y = 0, 1, 3 with period 4. -/
theorem C25_fails : ∃ g : Grid (PolGrid ℚ) ℚ, (∃ size a,
    Grid.init size a [0, 1, 3] 4 true = .ok g) ∧ (∃ m, g.metric none = .ok m) ∧ ¬ C25Claim g := by
  obtain ⟨m, hm⟩ := exMetricGrid_metric
  refine ⟨exMetricGrid, ⟨_, _, exMetricGrid_init⟩, ⟨m, hm⟩, ?_⟩
  rw [C25_iff_uniform_ends_partial _ _ _ _ _ exMetricGrid_init m hm (by decide)]
  norm_num

/-! ## C26 -/

theorem rectangularY_length (ny : ℕ) (Ly : K) (per : Bool) :
    (rectangularY ny Ly per).length = ny := by
  unfold rectangularY linspaceOpen
  cases per <;> simp

theorem rectangularY_getD (ny : ℕ) (Ly : K) (per : Bool) (i : ℕ) (hi : i < ny) :
    (rectangularY ny Ly per).getD i 0 =
      (if per then 0 else Ly / (2 * ny)) + i * (Ly / ny) := by
  have hn : (ny : K) ≠ 0 := by exact_mod_cast (by omega : ny ≠ 0)
  rw [List.getD_eq_getElem _ _ (by rw [rectangularY_length]; exact hi)]
  unfold rectangularY linspaceOpen
  cases per
  · simp; field_simp; ring
  · simp

/-- A single poloidal grid is repeated for every y. -/
theorem rectangularGrid_many {G : Type} (size : G → ℕ × ℕ) (pol : G) (ny : ℕ) (Ly : K) (per : Bool)
    (g : Grid G K) (hg : rectangularGrid size pol ny Ly per = .ok g) :
    Grid.init size (.many (List.replicate ny pol)) (rectangularY ny Ly per) Ly per = .ok g := by
  unfold rectangularGrid Grid.init at hg
  unfold Grid.init
  have : (rectangularY ny Ly per).map (fun _ => pol) = List.replicate ny pol := by
    rw [List.map_const', rectangularY_length]
  simp only [this] at hg
  exact hg

/-- C26: uniform coordinates of spacing `Ly/ny` inside `[0, Ly]`. -/
theorem C26_uniform {G : Type} (size : G → ℕ × ℕ) (pol : G) (ny : ℕ) (Ly : K) (hLy : 0 ≤ Ly)
    (per : Bool) (g : Grid G K) (hg : rectangularGrid size pol ny Ly per = .ok g) :
    (∀ i : ℕ, i < ny → ∃ y, g.getPoloidalGrid (i : K) = .ok (some pol, y) ∧ 0 ≤ y ∧ y ≤ Ly ∧
      y = (if per then 0 else Ly / (2 * ny)) + i * (Ly / ny)) := by
  have hg' := rectangularGrid_many size pol ny Ly per g hg
  intro i hi
  have hlen := rectangularY_length ny Ly per
  have hv := rectangularY_getD ny Ly per i hi
  have hny : (0 : K) < ny := by exact_mod_cast (by omega : 0 < ny)
  have hi' : (i : K) + 1 ≤ ny := by exact_mod_cast hi
  refine ⟨_, ?_, ?_, ?_, hv⟩
  · cases per with
    | true =>
      obtain ⟨p, h1, h2⟩ := C19_periodic_lookup size _ _ Ly g hg' i (by omega) 0
      have : p = pol := by
        rw [List.getElem?_replicate, if_pos hi] at h1; exact (Option.some.inj h1).symm
      subst this
      simpa using h2
    | false =>
      obtain ⟨p, h1, h2⟩ := (C21_ends size _ _ Ly g hg').1 i (by omega)
      have : p = pol := by
        rw [List.getElem?_replicate, if_pos hi] at h1; exact (Option.some.inj h1).symm
      subst this
      exact h2
  · rw [hv]
    split <;> positivity
  · rw [hv]
    have e : Ly = Ly / ny * ny := by field_simp
    have hq : 0 ≤ Ly / ny := by positivity
    split
    · nlinarith
    · have e2 : Ly / (2 * ny) = Ly / ny / 2 := by field_simp
      rw [e2]
      nlinarith

/-- C26: consecutive lookups differ by `Ly/ny` everywhere when periodic. -/
theorem C26_periodic_steps {G : Type} (size : G → ℕ × ℕ) (pol : G) (ny : ℕ) (Ly : K)
    (g : Grid G K) (hg : rectangularGrid size pol ny Ly true = .ok g) (i : ℤ) :
    ∃ y, g.getPoloidalGrid (i : K) = .ok (some pol, y) ∧
      g.getPoloidalGrid ((i : K) + 1) = .ok (some pol, y + Ly / ny) := by
  have hg' := rectangularGrid_many size pol ny Ly true g hg
  have hlen := rectangularY_length ny Ly true
  obtain ⟨_, _, _, _, _, h0⟩ := Grid.init_many hg'
  rw [hlen] at h0
  have hny : (ny : K) ≠ 0 := by exact_mod_cast (by omega : ny ≠ 0)
  have val : ∀ j : ℤ, g.getPoloidalGrid (j : K) = .ok (some pol, (j : K) * (Ly / ny)) := by
    intro j
    have hn : (0 : ℤ) < (ny : ℤ) := by exact_mod_cast h0
    obtain ⟨r, hr⟩ := Int.eq_ofNat_of_zero_le (Int.emod_nonneg j hn.ne')
    have hm1 := Int.emod_lt_of_pos j hn
    have hj : j = (r : ℤ) + (j / (ny : ℤ)) * (ny : ℤ) := by
      have := Int.emod_add_mul_ediv j (ny : ℤ)
      rw [hr] at this
      rw [mul_comm (j / _)]; exact this.symm
    have hrl : r < ny := by omega
    obtain ⟨p, h1, h2⟩ := C19_periodic_lookup size _ _ Ly g hg' r (by omega) (j / (ny : ℤ))
    have : p = pol := by
      rw [List.getElem?_replicate, if_pos hrl] at h1; exact (Option.some.inj h1).symm
    subst this
    have hjK : (j : K) = (r : K) + ((j / (ny : ℤ) : ℤ) : K) * (ny : K) := by
      exact_mod_cast congrArg (Int.cast (R := K)) hj
    rw [hlen, ← hjK, rectangularY_getD ny Ly true r hrl] at h2
    rw [h2]
    congr 2
    rw [hjK]
    simp
    field_simp
  refine ⟨_, val i, ?_⟩
  have := val (i + 1)
  push_cast at this
  rw [this]
  congr 2
  ring

example : ∃ g : Grid String ℚ, rectangularGrid (fun _ => (4, 5)) "pol" 4 10 true = .ok g ∧
    ∃ y, g.getPoloidalGrid (((-1 : ℤ) : ℚ)) = .ok (some "pol", y) ∧
      g.getPoloidalGrid (((-1 : ℤ) : ℚ) + 1) = .ok (some "pol", y + 10 / (4 : ℕ)) := by
  refine ⟨_, rfl, ?_⟩
  exact C26_periodic_steps (fun _ => (4, 5)) "pol" 4 10 _ rfl (-1)

example : ∃ g : Grid String ℚ, rectangularGrid (fun _ => (4, 5)) "pol" 4 10 false = .ok g ∧
    g.getPoloidalGrid ((3 : ℕ) : ℚ) = .ok (some "pol", 35 / 4) := by
  refine ⟨_, rfl, ?_⟩
  obtain ⟨y, h, _, _, hy⟩ := C26_uniform (K := ℚ) (fun _ => (4, 5)) "pol" 4 10 (by norm_num) false _ rfl 3
    (by decide)
  rw [h, hy]; norm_num

end Zoidberg
