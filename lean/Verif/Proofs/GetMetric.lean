import Verif.Model.GetMetric
import Verif.Props.GridMetric

/-! # Closed form of `get_metric` -/

set_option linter.unusedSectionVars false

namespace Zoidberg

variable {K : Type} [Field K] [LinearOrder K] [IsStrictOrderedRing K] [FloorRing K]

/-- A function of `(R, Z, y)` at a cell of the grid made of slices `l` at `ys`. -/
def evalAt (l : List (PolGrid K)) (ys : List K) (F : K → K → K → K) (c : Cell) : K :=
  match l[c.2.1]? with
  | some p => F (p.R c.1 c.2.2) (p.Z c.1 c.2.2) (ys.getD c.2.1 0)
  | none => 0

theorem sliceOf_eq (g : Grid (PolGrid K) K) (hl : g.polGrids.length = g.ycoords.length) (k : ℕ)
    (hk : k < g.ycoords.length) :
    ∃ p, g.polGrids[k]? = some p ∧ sliceOf g k = .ok (p, g.ycoords.getD k 0) := by
  refine ⟨g.polGrids[k]'(by omega), List.getElem?_eq_getElem _, ?_⟩
  have hlook : g.getPoloidalGrid (k : K) = .ok (some (g.polGrids[k]'(by omega)), g.ycoords[k]) := by
    have := Grid.getPoloidalGrid_int g (k : ℤ)
    push_cast at this
    rw [this]
    unfold Grid.getInt
    simp only [Grid.ny, pyInt_natCast]
    rw [if_pos ⟨Nat.cast_nonneg k, by exact_mod_cast hk⟩, Grid.at_lt g hl k hk]
    rfl
  unfold sliceOf
  rw [hlook]
  simp only
  rw [List.getD_eq_getElem _ _ hk]

theorem fieldOnGrid_prefix (g : Grid (PolGrid K) K) (hl : g.polGrids.length = g.ycoords.length)
    (F : K → K → K → K) (k : ℕ) (hk : k ≤ g.ycoords.length) :
    (List.range k).foldlM (fun a y => (sliceOf g y).map fun p => setSlice a y (onSlice F p.1 p.2))
      (fun _ => 0) = .ok fun c => if c.2.1 < k then evalAt g.polGrids g.ycoords F c else 0 := by
  induction k with
  | zero => simp; rfl
  | succ k ih =>
    rw [List.range_succ, List.foldlM_append, ih (by omega)]
    obtain ⟨p, hp, hs⟩ := sliceOf_eq g hl k (by omega)
    simp only [List.foldlM_cons, List.foldlM_nil, bind, Except.bind, hs, Except.map, pure, Except.pure]
    congr 1
    funext c
    unfold setSlice
    by_cases h : c.2.1 = k
    · rw [if_pos h, if_pos (by omega)]
      unfold evalAt onSlice
      rw [h, hp]
    · rw [if_neg h]
      beta_reduce
      by_cases h' : c.2.1 < k
      · rw [if_pos h', if_pos (by omega)]
      · rw [if_neg h', if_neg (by omega)]

theorem fieldOnGrid_eq (g : Grid (PolGrid K) K) (hl : g.polGrids.length = g.ycoords.length)
    (F : K → K → K → K) :
    fieldOnGrid g F =
      .ok fun c => if c.2.1 < g.ycoords.length then evalAt g.polGrids g.ycoords F c else 0 :=
  fieldOnGrid_prefix g hl F g.ycoords.length (le_refl _)

/-- One factor of `get_metric` applied to the first `k` slices. -/
def scaled (k : ℕ) (q : Cell → K) (a : Cell → K) : Cell → K :=
  fun c => if c.2.1 < k then a c * q c else a c

theorem gm_loop (g : Grid (PolGrid K) K) (hl : g.polGrids.length = g.ycoords.length)
    (f : MagField K) (m : Metric K) (a b : Cell → K) (ha : m.get? "g_yy" = some a)
    (hb : m.get? "gyy" = some b) (k : ℕ) (hk : k ≤ g.ycoords.length) :
    ∃ s, (List.range k).foldlM (gmStep g f) ⟨m, fun _ => 0, fun _ => 0⟩ = .ok s ∧
      s.metric.get? "g_yy" = some (scaled k (fun c => (evalAt g.polGrids g.ycoords f.Bmag c /
        evalAt g.polGrids g.ycoords f.Byfunc c) ^ 2) a) ∧
      s.metric.get? "gyy" = some (scaled k (fun c => (evalAt g.polGrids g.ycoords f.Byfunc c /
        evalAt g.polGrids g.ycoords f.Bmag c) ^ 2) b) ∧
      (∀ n, n ≠ "g_yy" → n ≠ "gyy" → s.metric.get? n = m.get? n) ∧
      (s.Bmag = fun c => if c.2.1 < k then evalAt g.polGrids g.ycoords f.Bmag c else 0) ∧
      (s.pressure = fun c => if c.2.1 < k then evalAt g.polGrids g.ycoords f.pressure c else 0) := by
  induction k with
  | zero =>
    refine ⟨_, rfl, ?_, ?_, fun _ _ _ => rfl, ?_, ?_⟩
    · rw [ha]; rfl
    · rw [hb]; rfl
    · simp
    · simp
  | succ k ih =>
    obtain ⟨s, hs, h1, h2, h3, h4, h5⟩ := ih (by omega)
    obtain ⟨p, hp, hsl⟩ := sliceOf_eq g hl k (by omega)
    have hset : ∀ (a : Cell → K) (F : K → K → K → K),
        (a = fun c => if c.2.1 < k then evalAt g.polGrids g.ycoords F c else 0) →
        setSlice a k (onSlice F p (g.ycoords.getD k 0)) =
          fun c => if c.2.1 < k + 1 then evalAt g.polGrids g.ycoords F c else 0 := by
      intro a F haF
      subst haF
      funext c
      unfold setSlice
      by_cases h : c.2.1 = k
      · rw [if_pos h, if_pos (by omega)]
        unfold evalAt onSlice
        rw [h, hp]
      · rw [if_neg h]
        beta_reduce
        by_cases h' : c.2.1 < k
        · rw [if_pos h', if_pos (by omega)]
        · rw [if_neg h', if_neg (by omega)]
    have hB := hset s.Bmag f.Bmag h4
    have hP := hset s.pressure f.pressure h5
    have hBy : ∀ x z, onSlice f.Byfunc p (g.ycoords.getD k 0) x z =
        evalAt g.polGrids g.ycoords f.Byfunc (x, k, z) := by
      intro x z; unfold evalAt onSlice; rw [hp]
    have hmul : ∀ (q : Cell → K) (a : Cell → K) (v : ℕ → ℕ → K), (∀ x z, v x z = q (x, k, z)) →
        mulSlice (scaled k q a) k v = scaled (k + 1) q a := by
      intro q a v hv
      funext c
      obtain ⟨x, y, z⟩ := c
      simp only [mulSlice, scaled]
      by_cases h : y = k
      · subst h; simp [hv]
      · rw [if_neg h]
        by_cases h' : y < k
        · rw [if_pos h', if_pos (by omega)]
        · rw [if_neg h', if_neg (by omega)]
    have hstep : gmStep g f s k = .ok ⟨(s.metric.set "g_yy"
        (scaled (k + 1) (fun c => (evalAt g.polGrids g.ycoords f.Bmag c /
          evalAt g.polGrids g.ycoords f.Byfunc c) ^ 2) a)).set "gyy"
        (scaled (k + 1) (fun c => (evalAt g.polGrids g.ycoords f.Byfunc c /
          evalAt g.polGrids g.ycoords f.Bmag c) ^ 2) b),
        fun c => if c.2.1 < k + 1 then evalAt g.polGrids g.ycoords f.Bmag c else 0,
        fun c => if c.2.1 < k + 1 then evalAt g.polGrids g.ycoords f.pressure c else 0⟩ := by
      unfold gmStep
      simp only [hsl, hB, hP]
      have e1 : s.metric.getE "g_yy" = .ok (scaled k (fun c => (evalAt g.polGrids g.ycoords f.Bmag c /
        evalAt g.polGrids g.ycoords f.Byfunc c) ^ 2) a) := by
        unfold ODict.getE; rw [h1]
      simp only [e1]
      rw [hmul _ _ _ (fun x z => by rw [hBy]; simp)]
      have e2 : ∀ w, ODict.getE (s.metric.set "g_yy" w) "gyy" = .ok (scaled k
        (fun c => (evalAt g.polGrids g.ycoords f.Byfunc c /
        evalAt g.polGrids g.ycoords f.Bmag c) ^ 2) b) := by
        intro w
        unfold ODict.getE; rw [ODict.get?_set_ne _ _ (by decide), h2]
      rw [e2]
      simp only
      rw [hmul _ _ _ (fun x z => by rw [hBy]; simp)]
    have hfold : (List.range (k + 1)).foldlM (gmStep g f) ⟨m, fun _ => 0, fun _ => 0⟩ =
        gmStep g f s k := by
      rw [List.range_succ, List.foldlM_append, hs]
      simp only [List.foldlM_cons, List.foldlM_nil, bind, Except.bind, hstep]
      rfl
    refine ⟨_, hfold.trans hstep, ?_, ?_, ?_, rfl, rfl⟩
    · simp only
      rw [ODict.get?_set_ne _ _ (by decide), ODict.get?_set_self]
    · simp
    · intro n hn hn'
      simp only
      rw [ODict.get?_set_ne _ _ hn', ODict.get?_set_ne _ _ hn, h3 n hn hn']

/-- The base value of `g_yy` before the loop. -/
def baseLow (g : Grid (PolGrid K) K) (f : MagField K) (a : Cell → K) : Cell → K :=
  match f.Rfunc with
  | none => a
  | some R => fun c => (if c.2.1 < g.ycoords.length then evalAt g.polGrids g.ycoords R c else 0) ^ 2

/-- The base value of `gyy` before the loop. -/
def baseUp (g : Grid (PolGrid K) K) (f : MagField K) (b : Cell → K) : Cell → K :=
  match f.Rfunc with
  | none => b
  | some R => fun c =>
    1 / (if c.2.1 < g.ycoords.length then evalAt g.polGrids g.ycoords R c else 0) ^ 2

theorem cylindrical_eq (g : Grid (PolGrid K) K) (hl : g.polGrids.length = g.ycoords.length)
    (f : MagField K) (m : Metric K) (a b : Cell → K) (ha : m.get? "g_yy" = some a)
    (hb : m.get? "gyy" = some b) :
    ∃ m', cylindrical g f m = .ok m' ∧ m'.get? "g_yy" = some (baseLow g f a) ∧
      m'.get? "gyy" = some (baseUp g f b) ∧
      (∀ n, n ≠ "g_yy" → n ≠ "gyy" → m'.get? n = m.get? n) := by
  unfold cylindrical baseLow baseUp
  cases f.Rfunc with
  | none => exact ⟨m, rfl, ha, hb, fun _ _ _ => rfl⟩
  | some R =>
    simp only [fieldOnGrid_eq g hl, Except.map]
    refine ⟨_, rfl, ?_, ?_, ?_⟩
    · simp
    · rw [ODict.get?_set_ne _ _ (by decide), ODict.get?_set_self]
    · intro n h1 h2
      rw [ODict.get?_set_ne _ _ h1, ODict.get?_set_ne _ _ h2]

theorem getMetric_eq (sqrt : K → K) (g : Grid (PolGrid K) K)
    (hl : g.polGrids.length = g.ycoords.length) (f : MagField K) (cache : Option (Metric K))
    (m : Metric K) (hm : g.metric cache = .ok m) (a b gxx gzz gxz : Cell → K)
    (ha : m.get? "g_yy" = some a) (hb : m.get? "gyy" = some b) (hxx : m.get? "g_xx" = some gxx)
    (hzz : m.get? "g_zz" = some gzz) (hxz : m.get? "g_xz" = some gxz) :
    ∃ r, getMetric sqrt g f cache = .ok (r, fun c =>
        (if c.2.1 < g.ycoords.length then evalAt g.polGrids g.ycoords f.Bmag c else 0) *
          sqrt (gxx c * gzz c - gxz c ^ 2)) ∧
      r.get? "g_yy" = some (scaled g.ycoords.length (fun c => (evalAt g.polGrids g.ycoords f.Bmag c /
        evalAt g.polGrids g.ycoords f.Byfunc c) ^ 2) (baseLow g f a)) ∧
      r.get? "gyy" = some (scaled g.ycoords.length
        (fun c => (evalAt g.polGrids g.ycoords f.Byfunc c /
        evalAt g.polGrids g.ycoords f.Bmag c) ^ 2) (baseUp g f b)) ∧
      r.get? "Bxy" = some (fun c => if c.2.1 < g.ycoords.length then
        evalAt g.polGrids g.ycoords f.Bmag c else 0) ∧
      r.get? "B" = some (fun c => if c.2.1 < g.ycoords.length then
        evalAt g.polGrids g.ycoords f.Bmag c else 0) ∧
      r.get? "pressure" = some (fun c => if c.2.1 < g.ycoords.length then
        evalAt g.polGrids g.ycoords f.pressure c else 0) ∧
      (∀ n ∉ (["g_yy", "gyy", "Bxy", "B", "pressure"] : List String), r.get? n = m.get? n) := by
  obtain ⟨m1, c0, c1, c2, c3⟩ := cylindrical_eq g hl f m a b ha hb
  obtain ⟨s, s0, s1, s2, s3, s4, s5⟩ := gm_loop g hl f m1 _ _ c1 c2 g.ycoords.length (le_refl _)
  unfold getMetric
  rw [hm]
  simp only [c0]
  have s0' : (List.range g.ny).foldlM (gmStep g f) ⟨m1, fun _ => 0, fun _ => 0⟩ = .ok s := s0
  simp only [s0']
  have get : ∀ n, n ≠ "g_yy" → n ≠ "gyy" → n ≠ "Bxy" → n ≠ "B" → n ≠ "pressure" →
      ODict.get? (((s.metric.set "Bxy" s.Bmag).set "B" s.Bmag).set "pressure" s.pressure) n =
        m.get? n := by
    intro n h1 h2 h3 h4 h5
    rw [ODict.get?_set_ne _ _ h5, ODict.get?_set_ne _ _ h4, ODict.get?_set_ne _ _ h3, s3 n h1 h2,
      c3 n h1 h2]
  have e1 : ODict.getE (((s.metric.set "Bxy" s.Bmag).set "B" s.Bmag).set "pressure" s.pressure)
      "g_xx" = .ok gxx := by
    unfold ODict.getE; rw [get _ (by decide) (by decide) (by decide) (by decide) (by decide), hxx]
  have e2 : ODict.getE (((s.metric.set "Bxy" s.Bmag).set "B" s.Bmag).set "pressure" s.pressure)
      "g_zz" = .ok gzz := by
    unfold ODict.getE; rw [get _ (by decide) (by decide) (by decide) (by decide) (by decide), hzz]
  have e3 : ODict.getE (((s.metric.set "Bxy" s.Bmag).set "B" s.Bmag).set "pressure" s.pressure)
      "g_xz" = .ok gxz := by
    unfold ODict.getE; rw [get _ (by decide) (by decide) (by decide) (by decide) (by decide), hxz]
  simp only [e1, e2, e3]
  refine ⟨_, by rw [s4], ?_, ?_, ?_, ?_, ?_, ?_⟩
  · rw [ODict.get?_set_ne _ _ (by decide), ODict.get?_set_ne _ _ (by decide),
      ODict.get?_set_ne _ _ (by decide), s1]
  · rw [ODict.get?_set_ne _ _ (by decide), ODict.get?_set_ne _ _ (by decide),
      ODict.get?_set_ne _ _ (by decide), s2]
  · rw [ODict.get?_set_ne _ _ (by decide), ODict.get?_set_ne _ _ (by decide), ODict.get?_set_self]
  · rw [ODict.get?_set_ne _ _ (by decide), ODict.get?_set_self]
  · rw [ODict.get?_set_self, s5]
  · intro n hn
    simp only [List.mem_cons, List.not_mem_nil, or_false, not_or] at hn
    have := get n hn.1 hn.2.1 hn.2.2.1 hn.2.2.2.1 hn.2.2.2.2
    rwa [s4] at this

/-! ## The keys -/

theorem cylindrical_keys {g : Grid (PolGrid K) K} {f : MagField K} {m m' : Metric K}
    (h : cylindrical g f m = .ok m') (h1 : "g_yy" ∈ ODict.keys m) (h2 : "gyy" ∈ ODict.keys m) :
    ODict.keys m' = ODict.keys m := by
  unfold cylindrical at h
  split at h
  · injection h with h; rw [h]
  · rename_i R hR
    cases hF : fieldOnGrid g R with
    | error e => rw [hF] at h; simp [Except.map] at h
    | ok Rm =>
      rw [hF] at h
      simp only [Except.map] at h
      injection h with h
      subst h
      rw [ODict.keys_set_of_mem _ _ _ (by rw [ODict.keys_set_of_mem _ _ _ h2]; exact h1),
        ODict.keys_set_of_mem _ _ _ h2]

theorem gmStep_keys {g : Grid (PolGrid K) K} {f : MagField K} {s s' : GmState K} {y : ℕ}
    (h : gmStep g f s y = .ok s') : s'.metric.keys = s.metric.keys := by
  unfold gmStep at h
  split at h
  · simp at h
  · simp only at h
    split at h
    · simp at h
    · rename_i a ha
      split at h
      · simp at h
      · rename_i b hb
        injection h with h
        subst h
        simp only
        rw [ODict.keys_set_of_mem _ _ _ (ODict.mem_keys_of_getE hb),
          ODict.keys_set_of_mem _ _ _ (ODict.mem_keys_of_getE ha)]

theorem gmLoop_keys {g : Grid (PolGrid K) K} {f : MagField K} (l : List ℕ) :
    ∀ {s s' : GmState K}, l.foldlM (gmStep g f) s = .ok s' → s'.metric.keys = s.metric.keys := by
  induction l with
  | nil =>
    intro s s' h
    simp only [List.foldlM_nil, pure, Except.pure] at h
    injection h with h; rw [h]
  | cons y t ih =>
    intro s s' h
    rw [List.foldlM_cons] at h
    cases hs : gmStep g f s y with
    | error e => rw [hs] at h; simp [bind, Except.bind] at h
    | ok s1 =>
      rw [hs] at h
      rw [ih h, gmStep_keys hs]

theorem getMetric_keys {sqrt : K → K} {g : Grid (PolGrid K) K} {f : MagField K}
    {cache : Option (Metric K)} {m r : Metric K} {b : Cell → K} (hm : g.metric cache = .ok m)
    (h1 : "g_yy" ∈ ODict.keys m) (h2 : "gyy" ∈ ODict.keys m)
    (h : getMetric sqrt g f cache = .ok (r, b)) :
    ODict.keys r = ODict.keys (((m.set "Bxy" b).set "B" b).set "pressure" b) := by
  unfold getMetric at h
  rw [hm] at h
  simp only at h
  split at h
  · simp at h
  · rename_i m1 hc
    split at h
    · simp at h
    · rename_i s hs
      have k1 := cylindrical_keys hc h1 h2
      have k2 := gmLoop_keys _ hs
      simp only at k2
      split at h
      · injection h with h
        injection h with h _
        subst h
        rw [ODict.keys_set, ODict.keys_set, ODict.keys_set, ODict.keys_set, ODict.keys_set,
          ODict.keys_set, k2, k1]
      all_goals simp at h

theorem computeMetric_nodup {g : Grid (PolGrid K) K} {m : Metric K} (h : g.computeMetric = .ok m) :
    (ODict.keys m).Nodup := by
  unfold Grid.computeMetric at h
  split at h
  · simp at h
  · split at h
    · simp at h
    · injection h with h
      subst h
      split <;> simp [ODict.keys]

end Zoidberg
