import Verif.Props.Grid
import Verif.Props.GridGen
import Verif.Props.AddDagp
import Verif.Props.Final
import Verif.Props.MetricFile
import Verif.Props.FindIndex
import Verif.Props.Progress

/-! # Exact conditions for C22, C53, C99, C103, C104, C110 and C157 -/

set_option linter.unusedSectionVars false

namespace Zoidberg

section
variable {K : Type} [Field K] [LinearOrder K] [IsStrictOrderedRing K] [FloorRing K]

/-- **C22**, exactly: between two slices the linear interpolation is returned half way, or if both
have the same y, and never else. -/
theorem C22_iff {G : Type} (g : Grid G K) (i : ℤ) (f a b : K) (h1 : 1 / 10 ^ 6 < f)
    (h2 : f < 1 - 1 / 10 ^ 6) (ha : g.HasY i a) (hb : g.HasY (i + 1) b) :
    C22Claim g i f ↔ f = 1 / 2 ∨ a = b := by
  constructor
  · intro h
    by_contra hc
    push Not at hc
    exact C22_fails_elsewhere g i f a b h1 h2 ha hb hc.2 hc.1 h
  · intro h a' b' ha' hb'
    have ea : a' = a := by
      obtain ⟨p, e⟩ := ha
      obtain ⟨q, e'⟩ := ha'
      rw [e] at e'
      injection e' with e'
      injection e' with _ e'
      exact e'.symm
    have eb : b' = b := by
      obtain ⟨p, e⟩ := hb
      obtain ⟨q, e'⟩ := hb'
      rw [e] at e'
      injection e' with e'
      injection e' with _ e'
      exact e'.symm
    subst ea eb
    rw [fractional_lookup g i f a' b' h1 h2 ha hb]
    rcases h with rfl | rfl
    · congr 2; ring
    · congr 2; ring

example : C22Claim exGrid 0 (1 / 2) ∧ ¬ C22Claim exGrid 0 (1 / 3) := by
  constructor
  · rw [C22_iff exGrid 0 _ 0 1 (by norm_num) (by norm_num) exGrid_0 exGrid_1]
    exact Or.inl rfl
  · rw [C22_iff exGrid 0 _ 0 1 (by norm_num) (by norm_num) exGrid_0 exGrid_1]
    norm_num

end

/-- **C53**, exactly: the sizes stay at least two and come down to `restrict_size` for every grid
if and only if `2 restrict_factor ≤ restrict_size + 1`. -/
theorem C53_iff (s f : ℕ) (hf : 2 ≤ f) : SizesOk s f ↔ 2 * f ≤ s + 1 := by
  refine ⟨fun h => ?_, C53_sizes_partial s f hf⟩
  by_contra hc
  have key : ∀ n, 2 ≤ n → s < n → n < 2 * f → False := by
    intro n h2 hn hlt
    obtain ⟨k, -, hk⟩ := h n h2
    have := hk 1
    rw [Function.iterate_one] at this
    unfold ellCoarse at this
    rw [if_pos hn, Nat.le_div_iff_mul_le (by omega)] at this
    omega
  by_cases hs : s = 0
  · exact key 2 (by omega) (by omega) (by omega)
  · exact key (s + 1) (by omega) (by omega) (by omega)

example : SizesOk 20 10 ∧ ¬ SizesOk 20 11 := by
  rw [C53_iff _ _ (by norm_num), C53_iff _ _ (by norm_num)]
  omega

section
variable {P V : Type}

/-- A run leaves the planes alone that the file says are finished. -/
def KeepsDone (s : DagpFile V) (r : DagpRun V) : Prop :=
  s.progVal ≤ r.file.progVal ∧ ∀ k i, i < s.progVal → r.file.at k i = s.at k i

theorem KeepsDone.op_create {s : DagpFile V} {r : DagpRun V} (h : KeepsDone s r) (k : String)
    (hk : r.file.vars k = none) : KeepsDone s (r.op (.create k)) := by
  unfold DagpRun.op
  have h' : KeepsDone s ⟨r.file.apply (.create k), r.budget, r.dead⟩ :=
    ⟨h.1, fun k' i hi => by rw [at_create _ _ hk]; exact h.2 k' i hi⟩
  split_ifs
  · exact h
  · split
    · exact h'
    · exact h
    · exact ⟨h'.1, h'.2⟩

theorem KeepsDone.op_write {s : DagpFile V} {r : DagpRun V} (h : KeepsDone s r) (k : String) (ind : ℕ)
    (hi : s.progVal ≤ ind) (v : V) : KeepsDone s (r.op (.write k ind v)) := by
  unfold DagpRun.op
  have h' : KeepsDone s ⟨r.file.apply (.write k ind v), r.budget, r.dead⟩ :=
    ⟨h.1, fun k' i hi' => by
      rw [at_write, if_neg (by rintro ⟨-, rfl, -⟩; omega)]
      exact h.2 k' i hi'⟩
  split_ifs
  · exact h
  · split
    · exact h'
    · exact h
    · exact ⟨h'.1, h'.2⟩

theorem KeepsDone.op_setProg {s : DagpFile V} {r : DagpRun V} (h : KeepsDone s r) (n : ℕ)
    (hn : s.progVal ≤ n) : KeepsDone s (r.op (.setProg n)) := by
  unfold DagpRun.op
  have h' : KeepsDone s ⟨r.file.apply (.setProg n), r.budget, r.dead⟩ := ⟨hn, h.2⟩
  split_ifs
  · exact h
  · split
    · exact h'
    · exact h
    · exact ⟨h'.1, h'.2⟩

theorem KeepsDone.plane {s : DagpFile V} (ind : ℕ) (hi : s.progVal ≤ ind) (l : List (String × V)) :
    ∀ r : DagpRun V, KeepsDone s r → KeepsDone s (r.plane ind l) := by
  induction l with
  | nil => intro r h; exact h
  | cons p t ih =>
    intro r h
    have e : r.plane ind (p :: t) = ((r.getHandle p.1).op (.write p.1 ind p.2)).plane ind t := rfl
    rw [e]
    apply ih
    apply KeepsDone.op_write _ _ _ hi
    unfold DagpRun.getHandle
    split
    · exact h
    · exact h.op_create _ (by assumption)

/-- Planes that are finished according to the file are not touched by a run. -/
theorem addDagp_keeps (doit : P → List (String × V)) (planes : List P) (s : DagpFile V) (o : Option ℕ)
    (k : String) (i : ℕ) (hi : i < s.progVal) : (dagpFile doit planes s o).at k i = s.at k i := by
  unfold dagpFile DagpRun.addDagp
  have h0 : KeepsDone s (DagpRun.getProg ⟨s, o, false⟩) := by
    unfold DagpRun.getProg
    split
    · exact ⟨le_refl _, fun _ _ _ => rfl⟩
    · rename_i hn
      have : s.progVal = 0 := by unfold DagpFile.progVal; rw [hn]
      omega
  suffices h : ∀ (l : List ℕ) (r : DagpRun V), KeepsDone s r → KeepsDone s (l.foldl (fun r ind =>
      match planes[ind]? with
      | none => r
      | some pol =>
        if r.file.skips ind then r else (r.plane ind (doit pol)).op (.setProg (ind + 1))) r) from
    (h _ _ h0).2 k i hi
  intro l
  induction l with
  | nil => intro r h; exact h
  | cons a t ih =>
    intro r h
    rw [List.foldl_cons]
    apply ih
    split
    · exact h
    · rw [skips_eq]
      split_ifs with hs
      · exact h
      · rw [decide_eq_true_eq, not_lt] at hs
        have : s.progVal ≤ a := h.1.trans hs
        exact (h.plane a this _).op_setProg _ (by omega)

/-- **C103**, exactly: the file has the coefficients of the current grid after `add_dagp` if and only
if it had them before for the planes that it counts as finished. -/
theorem C103_iff (doit : P → List (String × V)) (planes : List P)
    (hnd : ∀ p ∈ planes, ((doit p).map (·.1)).Nodup) (s : DagpFile V) :
    DagpUpToDate doit planes s ↔
      ∀ i k v, i < s.progVal → Coeff doit planes i k v → s.at k i = some v := by
  constructor
  · intro h i k v hi hc
    rw [← addDagp_keeps doit planes s none k i hi]
    exact h i k v hc
  · intro h i k v hc
    by_cases hi : i < s.progVal
    · rw [addDagp_keeps doit planes s none k i hi]
      exact h i k v hi hc
    · have hlen : i < planes.length := by
        obtain ⟨pol, hp, _⟩ := hc
        exact (List.getElem?_eq_some_iff.1 hp).1
      have hinv : DagpInv doit planes s s s.progVal :=
        ⟨by omega, fun _ h => h, fun i hi k v hc => h i k v hi hc, fun _ _ => Or.inl rfl,
          fun _ h => Or.inl h⟩
      have st := addDagp_state hnd (r := ⟨s, none, false⟩) hinv
      have hp := st.prog (addDagp_alive doit planes s)
      exact st.inv.done i (by omega) k v hc

/-- A file with one finished plane: it is up to date exactly if that plane is. -/
example (v : ℕ) : DagpUpToDate (fun p : ℕ => [("dagp_fv_XX", p)]) [1, 2]
    ⟨some (some 1), fun k => if k = "dagp_fv_XX" then some fun i => if i = 0 then some v else none else none⟩ ↔
      v = 1 := by
  rw [C103_iff _ _ (by simp)]
  constructor
  · intro h
    have := h 0 "dagp_fv_XX" 1 (by simp [DagpFile.progVal]) ⟨1, rfl, by simp⟩
    simpa [DagpFile.at] using this
  · rintro rfl i k v hi ⟨pol, hp, hm⟩
    have : i = 0 := by simpa [DagpFile.progVal] using hi
    subst this
    simp only [List.getElem?_cons_zero, Option.some.injEq] at hp
    subst hp
    simp only [List.mem_singleton, Prod.mk.injEq] at hm
    obtain ⟨rfl, rfl⟩ := hm
    simp [DagpFile.at]

end

section
variable {A : Type}

theorem set_take (a b : ODict A) (k : String) (v : A) (hk : k ∉ a.keys) :
    ∃ b', ODict.set (a ++ b) k v = a ++ b' := by
  induction a with
  | nil => exact ⟨ODict.set b k v, rfl⟩
  | cons p t ih =>
    obtain ⟨k1, v1⟩ := p
    have h1 : k1 ≠ k := by
      rintro rfl
      exact hk (by simp [ODict.keys])
    obtain ⟨b', hb⟩ := ih (by
      intro h
      exact hk (by simp only [ODict.keys, List.map_cons, List.mem_cons]; exact Or.inr h))
    refine ⟨b', ?_⟩
    rw [List.cons_append, List.cons_append, ← hb]
    simp [ODict.set, h1]

/-- The new attributes come first. -/
theorem updateAttrs_append (title software version id : A) (file a : ODict A)
    (h : updateAttrs (newAttrs title software version id) file = some a) :
    ∃ b, a = newAttrs title software version id ++ b := by
  unfold updateAttrs at h
  have hk : (newAttrs title software version id).keys = attrNames := rfl
  generalize (newAttrs title software version id).keys = l at h
  suffices H : ∀ (l : List String) (b : ODict A), l.foldlM (fun a k =>
      match file.get? k with
      | none => some a
      | some v => (freshName file.keys k (file.keys.length + 1) 0).map fun n => a.set n v)
        (newAttrs title software version id ++ b) = some a →
      ∃ b', a = newAttrs title software version id ++ b' from
    H l [] (by rw [List.append_nil]; exact h)
  clear h
  intro l
  induction l with
  | nil => intro b h; injection h with h; exact ⟨b, h.symm⟩
  | cons k t ih =>
    intro b h
    rw [List.foldlM_cons] at h
    cases hf : file.get? k with
    | none => rw [hf] at h; exact ih b h
    | some v =>
      rw [hf] at h
      obtain ⟨i, hi, hi2⟩ := freshName_ends file.keys k
      rw [hi] at h
      obtain ⟨b', hb⟩ := set_take (newAttrs title software version id) b (oldName k i) v
        (by rw [hk]; exact oldName_not_attr k i)
      have h' : t.foldlM (fun a k =>
          match file.get? k with
          | none => some a
          | some v => (freshName file.keys k (file.keys.length + 1) 0).map fun n => a.set n v)
            (ODict.set (newAttrs title software version id ++ b) (oldName k i) v) = some a := h
      rw [hb] at h'
      exact ih b' h'

/-- **C104**, exactly: if no value of the written attributes occurs elsewhere, a crash cannot lose a
value if and only if the file had none of these attributes. -/
theorem C104_iff (title software version id : A) (file : ODict A)
    (hnew : ∀ k ∈ attrNames, ∀ v, file.get? k = some v → v ∉ [title, software, version, id])
    (huniq : ∀ k ∈ attrNames, ∀ v, file.get? k = some v → ∀ k', file.get? k' = some v → k' ∈ attrNames) :
    CrashSafe (newAttrs title software version id) file ↔ ∀ k ∈ attrNames, file.get? k = none := by
  have hkeys : (newAttrs title software version id).keys = attrNames := rfl
  constructor
  · intro h k hk
    by_contra hc
    obtain ⟨v, hv⟩ := Option.ne_none_iff_exists'.1 hc
    obtain ⟨a, h1, h2⟩ := collected title software version id file
    obtain ⟨b, hb⟩ := updateAttrs_append title software version id file a h1
    obtain ⟨k', hk'⟩ := h a (by unfold finalAttrs; rw [if_pos rfl]; exact h1) 5 k v hv
    have e : writeAttrs a file 5 = writeAttrs (newAttrs title software version id) file
        (newAttrs title software version id).length := by
      rw [hb]; rfl
    rw [e, writeAttrs_all _ _ (by rw [hkeys]; decide)] at hk'
    by_cases hm : k' ∈ attrNames
    · obtain ⟨w, hw⟩ := Option.ne_none_iff_exists'.1
        ((ODict.mem_keys_iff (newAttrs title software version id) k').1 (by rw [hkeys]; exact hm))
      rw [hw] at hk'
      have hk' : w = v := by simpa using hk'
      subst hk'
      apply hnew k hk w hv
      simp only [attrNames, List.mem_cons, List.not_mem_nil, or_false] at hm
      rcases hm with rfl | rfl | rfl | rfl | rfl <;>
        simp [newAttrs, ODict.get?_cons] at hw <;> simp [hw]
    · rw [(ODict.get?_eq_none_iff _ _).2 (by rw [hkeys]; exact hm), Option.none_or] at hk'
      exact hm (huniq k hk v hv k' hk')
  · intro h a ha n k v hv
    have hk : k ∉ attrNames := by
      intro hc
      rw [h k hc] at hv
      simp at hv
    have hae : a = newAttrs title software version id := by
      unfold finalAttrs at ha
      rw [if_pos rfl] at ha
      unfold updateAttrs at ha
      rw [hkeys] at ha
      have : ∀ l : List String, (∀ k ∈ l, file.get? k = none) → ∀ a0 : ODict A, l.foldlM (fun a k =>
          match file.get? k with
          | none => some a
          | some v => (freshName file.keys k (file.keys.length + 1) 0).map fun n => a.set n v) a0 =
            some a0 := by
        intro l
        induction l with
        | nil => intro _ a0; rfl
        | cons q t ih =>
          intro hl a0
          rw [List.foldlM_cons, hl q (by simp)]
          exact ih (fun k hk => hl k (List.mem_cons_of_mem _ hk)) a0
      have e := (this attrNames h (newAttrs title software version id)).symm.trans ha
      injection e with e
      exact e.symm
    refine ⟨k, ?_⟩
    unfold writeAttrs
    have : ∀ (l : ODict A), (∀ p ∈ l, p.1 ≠ k) → ∀ f : ODict A,
        (l.foldl (fun f p => f.set p.1 p.2) f).get? k = f.get? k := by
      intro l
      induction l with
      | nil => intro _ f; rfl
      | cons p t ih =>
        intro hl f
        rw [List.foldl_cons, ih (fun q hq => hl q (List.mem_cons_of_mem _ hq)),
          ODict.get?_set_ne _ _ (fun hc => hl p (by simp) hc.symm)]
    rw [this _ _ file, hv]
    intro p hp hc
    apply hk
    rw [← hkeys, ← hae, ← hc]
    exact List.mem_map.2 ⟨p, List.mem_of_mem_take hp, rfl⟩

example : CrashSafe (newAttrs "t" "zoidberg" "2" "b") [("author", "me")] ∧
    ¬ CrashSafe (newAttrs "t" "zoidberg" "2" "b") [("author", "me"), ("id", "a")] := by
  constructor
  · rw [C104_iff]
    · decide +kernel
    · intro k hk v hv
      have : ODict.get? [("author", "me")] k = none := by
        clear hv
        revert k; decide +kernel
      rw [this] at hv
      simp at hv
    · intro k hk v hv
      have : ODict.get? [("author", "me")] k = none := by
        clear hv
        revert k; decide +kernel
      rw [this] at hv
      simp at hv
  · rw [C104_iff]
    · intro h
      have := h "id" (by decide)
      revert this
      decide +kernel
    · intro k hk v hv
      by_cases h : k = "id"
      · subst h
        have : v = "a" := by
          simpa [ODict.get?_cons] using hv.symm
        subst this
        decide
      · have h2 : k ≠ "author" := by rintro rfl; revert hk; decide
        rw [ODict.get?_cons, ODict.get?_cons] at hv
        simp [Ne.symm h, Ne.symm h2] at hv
    · intro k hk v hv k' hk'
      by_cases h : k = "id"
      · subst h
        have : v = "a" := by
          simpa [ODict.get?_cons] using hv.symm
        subst this
        rw [ODict.get?_cons, ODict.get?_cons] at hk'
        by_cases e1 : "author" = k'
        · simp [e1] at hk'
        · by_cases e2 : "id" = k'
          · subst e2; decide
          · simp [e1, e2] at hk'
      · have h2 : k ≠ "author" := by rintro rfl; revert hk; decide
        rw [ODict.get?_cons, ODict.get?_cons] at hv
        simp [Ne.symm h, Ne.symm h2] at hv

end

section
variable {K : Type} [Field K] [LinearOrder K] [IsStrictOrderedRing K] [FloorRing K]

/-- **C99**, exactly, for maps with field line lengths: the two components are reciprocal if and only
if the length of the field line per `dy`, squared, is the component that `get_metric` had. -/
theorem C99_iff (c : MwConf K) (hnn : c.newNames = false) (h2d : c.metric2d = false)
    (g : Grid (PolGrid K) K) (l : List (PolGrid K)) (ys : List K) (hmg : MetricGrid g l ys)
    (f : MagField K) (Bx Bz : K → K → K → K)
    (hB : ∀ x z y, f.Bmag x z y ^ 2 = Bx x z y ^ 2 + f.Byfunc x z y ^ 2 + Bz x z y ^ 2)
    (maps : ODict (Cell → K)) (Ly : Cell → K) (hLy : maps.get? "Ly" = some Ly) (file : ODict (Val K))
    (hattr : (f.attributes.map (·.1)).Nodup)
    (hat : "g_22" ∉ f.attributes.map (·.1) ∧ "g22" ∉ f.attributes.map (·.1))
    (h : (writeMetric c g f maps file none).err = none) :
    ∃ m b dy old, getMetric c.sqrt g f none = .ok (m, b) ∧ m.get? "dy" = some dy ∧
      m.get? "g_yy" = some old ∧
      (ReciprocalInFile l ys f (writeMetric c g f maps file none).file ↔
        ∀ p : Cell, p.2.1 < ys.length → evalAt l ys f.Byfunc p ≠ 0 →
          (∀ R, f.Rfunc = some R → evalAt l ys R p ≠ 0) → (Ly p / dy p) ^ 2 = old p) := by
  obtain ⟨m, b, h1, h2⟩ := C98_metric_in_file c g f maps file hattr h
  obtain ⟨m', b', lo, up, e, e1, e2, e3⟩ := C28_reciprocal_and_bounded c.sqrt g l ys hmg f Bx Bz hB
  rw [h1] at e
  injection e with e
  injection e with e _
  subst e
  obtain ⟨dy, hdy⟩ : ∃ dy, m.get? "dy" = some dy := by
    obtain ⟨f1, f2, hl, M, xx, zz, xz, hM, M1, M2, hxx, hzz, hxz⟩ := hmg.facts
    obtain ⟨dy, hdy⟩ := Option.ne_none_iff_exists'.1 (metric_has_dy hM)
    obtain ⟨r, e, _, _, _, _, _, r6⟩ := getMetric_eq c.sqrt g (by rw [f1, f2]; exact hl) f
      none M hM _ _ xx zz xz M1 M2 hxx hzz hxz
    rw [h1] at e
    injection e with e
    injection e with e _
    subst e
    exact ⟨dy, by rw [r6 "dy" (by decide), hdy]⟩
  refine ⟨m, b, dy, lo, h1, hdy, e1, ?_⟩
  have n1 : FileName c.newNames "g_yy" "g_22" := by
    rw [hnn]; unfold FileName NewName; decide
  have n2 : FileName c.newNames "gyy" "g22" := by
    rw [hnn]; unfold FileName NewName; decide
  have g1 : (writeMetric c g f maps file none).file.get? "g_22" =
      some (.f3 fun p => (Ly p / dy p) ^ 2) := by
    rw [h2 "g_yy" "g_22" _ (.length "g_yy" "" Ly dy (by simp) (by rw [hLy]; simp) (by simpa using hLy) hdy)
      n1 hat.1, h2d]
    rfl
  have g2 : (writeMetric c g f maps file none).file.get? "g22" = some (.f3 up) := by
    rw [h2 "gyy" "g22" up (.other _ _ (by decide) e2) n2 hat.2, h2d]
    rfl
  have hrec : ∀ p : Cell, p.2.1 < ys.length → evalAt l ys f.Byfunc p ≠ 0 →
      (∀ R, f.Rfunc = some R → evalAt l ys R p ≠ 0) → lo p * up p = 1 := by
    intro p hp hBy hR
    obtain ⟨a, b⟩ := e3 p hp hBy
    cases hr : f.Rfunc with
    | none => exact (b hr).1
    | some R => exact (a R hr).1 (hR R hr)
  constructor
  · rintro ⟨lo', up', q1, q2, q3⟩ p hp hBy hR
    rw [g1] at q1
    rw [g2] at q2
    injection q1 with q1
    injection q1 with q1
    injection q2 with q2
    injection q2 with q2
    subst q1 q2
    have r1 := hrec p hp hBy hR
    have r2 := q3 p hp hBy hR
    have hu : up p ≠ 0 := by
      intro h0
      rw [h0, mul_zero] at r1
      exact zero_ne_one r1
    exact mul_right_cancel₀ hu (r2.trans r1.symm)
  · intro q
    refine ⟨_, up, g1, g2, ?_⟩
    intro p hp hBy hR
    show (Ly p / dy p) ^ 2 * up p = 1
    rw [q p hp hBy hR]
    exact hrec p hp hBy hR

/-- The hypotheses are met by the example of C98. -/
example : ∃ dy old : Cell → ℚ,
    (ReciprocalInFile [exPol true, exPol true, exPol true] [0, 1, 3] exField
      (writeMetric (exConf false false) exMetricGrid exField exLy [] none).file ↔
      ∀ p : Cell, p.2.1 < 3 → (3 / dy p) ^ 2 = old p) := by
  obtain ⟨m, b, dy, old, _, _, _, h⟩ := C99_iff (exConf false false) rfl rfl exMetricGrid _ _
    exMetricGrid_ok exField (fun _ _ _ => 0) (fun _ _ _ => 3) (by intros; norm_num [exField]) exLy
    (fun _ => 3) rfl [] (by decide) (by decide) (exMetric_succeeds false false [])
  refine ⟨dy, old, h.trans ?_⟩
  constructor
  · intro q p hp
    apply q p hp
    · have := hp
      obtain ⟨x, y, z⟩ := p
      simp only at hp
      interval_cases y <;> simp [evalAt, exField]
    · intro R hR
      simp [exField] at hR
  · intro q p hp _ _
    exact q p hp

end

section
variable {K : Type} [Field K] [LinearOrder K] [IsStrictOrderedRing K] [FloorRing K]

/-- **C110**, exactly: grid points are found if and only if none of them is on the first or last
row. -/
theorem C110_iff (mk : MkSpline K) (hmk : mk.Exact) (area : List (K × K) → K) (nx nz : ℕ)
    (R Z : ℕ → ℕ → K) (g : StrPol K) (h : StrPol.init mk area nx nz R Z = .ok g) (nearest : K → K → ℕ)
    (hn : ∀ i < nx, ∀ j < nz, nearest (R i j) (Z i j) = i * nz + j) (tol : K) (ht : 0 < tol)
    (nodes : List (ℕ × ℕ)) (hne : nodes ≠ []) (hin : ∀ n ∈ nodes, n.1 < nx ∧ n.2 < nz)
    (hreg : ∀ n ∈ nodes, g.Regular (n.1 : K) (n.2 : K)) :
    NodesFound g nearest tol nodes ↔ ∀ n ∈ nodes, 1 ≤ n.1 ∧ n.1 + 1 < nx := by
  constructor
  · intro hf n hm
    unfold NodesFound at hf
    rw [nodes_found mk hmk area nx nz R Z g h nearest hn tol ht nodes hne hin hreg] at hf
    injection hf with hf
    have e := List.map_inj_left.1 hf n hm
    have := (hin n hm).1
    injection e with e _
    by_contra hc
    by_cases h0 : n.1 = 0
    · rw [if_pos h0, h0] at e
      norm_num at e
    · rw [if_neg h0, if_pos (by omega)] at e
      have : nx = n.1 := by exact_mod_cast e
      omega
  · intro hi
    exact C110_nodes_partial mk hmk area nx nz R Z g h nearest hn tol ht nodes hne
      (fun n hm => ⟨(hi n hm).1, (hi n hm).2, (hin n hm).2⟩) hreg

example (i j : ℕ) (hi : i < 4) (hj : j < 3) :
    NodesFound exStr exNear (1 / 1000) [(i, j)] ↔ i = 1 ∨ i = 2 := by
  rw [C110_iff exMk exMk_exact _ 4 3 _ _ exStr exStr_init exNear exNear_nodes _ (by norm_num) _ (by simp)
    (by simpa using ⟨hi, hj⟩) (by simpa using exStr_regular i hi j hj)]
  simp only [List.mem_singleton, forall_eq]
  omega

/-- **C157**, exactly: the seconds are printed as 60 if and only if the duration is at most half a second
below a whole minute. -/
theorem C157_iff (s : K) (hs : 0 ≤ s) :
    pyRound (timeParts s).secs < 60 ↔ s - 60 * (⌊s / 60⌋ : K) < 119 / 2 := by
  obtain ⟨hsum, h0, h1, hcase⟩ := C92_parts s hs
  obtain ⟨q, hq⟩ : ∃ q : ℤ, partsValue (timeParts s).ret = 60 * q := by
    rcases hcase with ⟨-, e⟩ | ⟨-, -, m, e, -⟩ | ⟨-, -, h, m, e, -⟩ | ⟨-, d, h, m, e, -⟩
    · exact ⟨0, by rw [e]; rfl⟩
    · exact ⟨m, by rw [e]; simp [partsValue, unitSecs]; ring⟩
    · exact ⟨60 * h + m, by rw [e]; simp [partsValue, unitSecs]; ring⟩
    · exact ⟨1440 * d + 60 * h + m, by rw [e]; simp [partsValue, unitSecs]; ring⟩
  rw [hq] at hsum
  push_cast at hsum
  have hfl : ⌊s / 60⌋ = q := by
    rw [Int.floor_eq_iff, le_div_iff₀ (by norm_num), div_lt_iff₀ (by norm_num)]
    constructor <;> linarith
  have e : s - 60 * (⌊s / 60⌋ : K) = (timeParts s).secs := by rw [hfl]; linarith
  rw [e]
  generalize (timeParts s).secs = x at *
  have hn := pyRound_near x
  constructor
  · intro h
    have h' : (pyRound x : K) ≤ 59 := by
      have : pyRound x ≤ 59 := by omega
      exact_mod_cast this
    by_contra hc
    push Not at hc
    have hx : x = 119 / 2 := by linarith [hn.2]
    rw [hx] at h
    have : ⌊(119 / 2 : K)⌋ = 59 := by
      rw [Int.floor_eq_iff]; norm_num
    unfold pyRound at h
    rw [this] at h
    norm_num at h
  · intro h
    by_contra hc
    have : (60 : K) ≤ (pyRound x : K) := by
      have : (60 : ℤ) ≤ pyRound x := by omega
      exact_mod_cast this
    linarith [hn.1]

example : pyRound (timeParts (179 : ℚ)).secs < 60 ∧ ¬ pyRound (timeParts (359 / 2 : ℚ)).secs < 60 := by
  rw [C157_iff _ (by norm_num), C157_iff _ (by norm_num)]
  constructor <;> norm_num

end
end Zoidberg
