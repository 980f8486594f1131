import Verif.Model.WebTracer
import Verif.Props.FieldTracer
import Mathlib.Data.List.Forall2

/-!
# C74, C133: `FieldTracerWeb.follow_field_lines`
-/

set_option linter.unusedSectionVars false

namespace Zoidberg

/-- Attempt `k` is the first that succeeds, with the result `r`. -/
def FirstSuccess {α : Type} (c : ℕ → Except Err α) (k : ℕ) (r : α) : Prop := c k = .ok r ∧ ∀ i < k, (c i).toBool = false

theorem webWait_spec {α : Type} (c : ℕ → Except Err α) : ∀ (retry n : ℕ) (o : Option α × ℕ), 0 < retry →
    (webWait c retry n = .ok o ↔ ∃ k r, c (n + k) = .ok r ∧ (∀ i < k, (c (n + i)).toBool = false) ∧ k < retry ∧ o = (some r, retry - k))
  | 0, n, o, h => by omega
  | retry + 1, n, o, _ => by
    rw [webWait]
    cases hc : c n with
    | ok a =>
      constructor
      · intro h
        injection h with h
        exact ⟨0, a, hc, by simp, by omega, h.symm⟩
      · rintro ⟨k, r, h1, h2, h3, h4⟩
        rcases Nat.eq_zero_or_pos k with h0 | h0
        · subst h0
          rw [Nat.add_zero, hc] at h1
          injection h1 with h1
          subst h1
          exact congrArg Except.ok h4.symm
        · have := h2 0 h0
          rw [Nat.add_zero, hc] at this
          cases this
    | error e =>
      dsimp only
      rcases Nat.eq_zero_or_pos retry with h0 | h0
      · subst h0
        rw [if_pos (by omega)]
        constructor
        · intro h; cases h
        · rintro ⟨k, r, h1, h2, h3, h4⟩
          have : k = 0 := by omega
          subst this
          rw [Nat.add_zero, hc] at h1
          cases h1
      · rw [if_neg (by omega), webWait_spec c retry (n + 1) o h0]
        constructor
        · rintro ⟨k, r, h1, h2, h3, h4⟩
          refine ⟨k + 1, r, by rw [← h1]; congr 1; omega, ?_, by omega, by rw [h4]; congr 1; omega⟩
          intro i hi
          rcases Nat.eq_zero_or_pos i with h5 | h5
          · subst h5; rw [Nat.add_zero, hc]; rfl
          · rw [show n + i = n + 1 + (i - 1) by omega]; exact h2 _ (by omega)
        · rintro ⟨k, r, h1, h2, h3, h4⟩
          rcases Nat.eq_zero_or_pos k with h5 | h5
          · subst h5
            rw [Nat.add_zero, hc] at h1
            cases h1
          · refine ⟨k - 1, r, by rw [← h1]; congr 1; omega, ?_, by omega, by rw [h4]; congr 1; omega⟩
            intro i hi
            rw [show n + 1 + i = n + (i + 1) by omega]
            exact h2 _ (by omega)

/-- The numbers of failures of the chunks and their results. -/
def Schedule {α : Type} (cs : List (ℕ → Except Err α)) (ks : List ℕ) (rs : List α) : Prop :=
  ks.length = cs.length ∧ rs.length = cs.length ∧
    ∀ (j : ℕ) (c : ℕ → Except Err α), cs[j]? = some c → ∃ k r, ks[j]? = some k ∧ rs[j]? = some r ∧ FirstSuccess c k r

theorem schedule_cons {α : Type} (c : ℕ → Except Err α) (cs : List (ℕ → Except Err α)) (k : ℕ) (ks : List ℕ) (r : α) (rs : List α) :
    Schedule (c :: cs) (k :: ks) (r :: rs) ↔ FirstSuccess c k r ∧ Schedule cs ks rs := by
  unfold Schedule
  constructor
  · rintro ⟨h1, h2, h3⟩
    refine ⟨?_, by simpa using h1, by simpa using h2, ?_⟩
    · obtain ⟨k', r', e1, e2, e3⟩ := h3 0 c rfl
      simp at e1 e2
      subst e1; subst e2
      exact e3
    · intro j c' hc
      exact h3 (j + 1) c' (by simpa using hc)
  · rintro ⟨h0, h1, h2, h3⟩
    refine ⟨by simp [h1], by simp [h2], ?_⟩
    intro j c' hc
    rcases j with _ | j
    · simp at hc
      subst hc
      exact ⟨k, r, rfl, rfl, h0⟩
    · simpa using h3 j c' (by simpa using hc)

theorem webWaitAll_spec {α : Type} : ∀ (cs : List (ℕ → Except Err α)) (retry : ℕ) (os : List (Option α)), 0 < retry →
    (webWaitAll cs retry = .ok os ↔ ∃ ks rs, Schedule cs ks rs ∧ ks.sum < retry ∧ os = rs.map some)
  | [], retry, os, h => by
    rw [webWaitAll]
    constructor
    · intro h'
      injection h' with h'
      exact ⟨[], [], ⟨rfl, rfl, by simp⟩, by simpa using h, by simp [← h']⟩
    · rintro ⟨ks, rs, ⟨h1, h2, -⟩, -, h4⟩
      simp at h2
      subst h2
      simp [h4]
  | c :: cs, retry, os, h => by
    rw [webWaitAll]
    constructor
    · intro h'
      cases hw : webWait c retry 0 with
      | error e => rw [hw] at h'; cases h'
      | ok o =>
        rw [hw] at h'
        obtain ⟨k, r, h1, h2, h3, rfl⟩ := (webWait_spec c retry 0 o h).1 hw
        simp only [Except.bind] at h'
        cases ha : webWaitAll cs (retry - k) with
        | error e => rw [ha] at h'; cases h'
        | ok os' =>
          rw [ha] at h'
          simp only [Except.map] at h'
          injection h' with h'
          obtain ⟨ks, rs, g1, g2, g3⟩ := (webWaitAll_spec cs (retry - k) os' (by omega)).1 ha
          refine ⟨k :: ks, r :: rs, (schedule_cons _ _ _ _ _ _).2 ⟨⟨by simpa using h1, by simpa using h2⟩, g1⟩, ?_, ?_⟩
          · simp; omega
          · rw [← h', g3]; rfl
    · rintro ⟨ks, rs, hs, hsum, rfl⟩
      obtain ⟨k, ks, rfl⟩ : ∃ k ks', ks = k :: ks' := by
        cases ks with
        | nil => simp [Schedule] at hs
        | cons k ks => exact ⟨k, ks, rfl⟩
      obtain ⟨r, rs, rfl⟩ : ∃ r rs', rs = r :: rs' := by
        cases rs with
        | nil => simp [Schedule] at hs
        | cons r rs => exact ⟨r, rs, rfl⟩
      obtain ⟨⟨f1, f2⟩, hs⟩ := (schedule_cons _ _ _ _ _ _).1 hs
      rw [List.sum_cons] at hsum
      have hw : webWait c retry 0 = .ok (some r, retry - k) :=
        (webWait_spec c retry 0 _ h).2 ⟨k, r, by simpa using f1, by simpa using f2, by omega, rfl⟩
      rw [hw]
      simp only [Except.bind]
      rw [(webWaitAll_spec cs (retry - k) (rs.map some) (by omega)).2 ⟨ks, rs, hs, by omega, rfl⟩]
      rfl

/-- **C74 (partial).** For every schedule of failures, and at least one chunk: the results of all chunks come back in order exactly if the total number of
failures over all chunks is less than `retry`.  Missing: not more points than fit in a chunk, or a given configuration; then nothing is
repeated (`C74_fails`). -/
theorem C74_retries_partial {α : Type} (cs : List (ℕ → Except Err α)) (hne : cs ≠ []) (retry : ℤ) (rs : List α) :
    webPool cs retry = .ok rs ↔ ∃ ks, Schedule cs ks rs ∧ ((ks.sum : ℕ) : ℤ) < retry := by
  unfold webPool
  rcases Nat.eq_zero_or_pos retry.toNat with h0 | h0
  · constructor
    · intro h
      exfalso
      obtain ⟨c, cs, rfl⟩ := List.exists_cons_of_ne_nil hne
      rw [h0, webWaitAll, webWait] at h
      simp only [Except.bind] at h
      cases ha : webWaitAll cs 0 with
      | error e => rw [ha] at h; simp [Except.map] at h
      | ok os => rw [ha] at h; simp [Except.map] at h
    · rintro ⟨ks, -, h⟩
      omega
  · constructor
    · intro h
      cases ha : webWaitAll cs retry.toNat with
      | error e => rw [ha] at h; cases h
      | ok os =>
        rw [ha] at h
        obtain ⟨ks, rs', h1, h2, h3⟩ := (webWaitAll_spec cs _ os h0).1 ha
        subst h3
        simp only [Except.bind] at h
        split_ifs at h with h4
        injection h with h
        rw [List.filterMap_map] at h
        have : rs' = rs := by rw [← h]; simp
        subst this
        exact ⟨ks, h1, by omega⟩
    · rintro ⟨ks, h1, h2⟩
      rw [(webWaitAll_spec cs retry.toNat (rs.map some) h0).2 ⟨ks, rs, h1, by omega, rfl⟩]
      simp only [Except.bind]
      rw [if_neg (by simp), List.filterMap_map]
      simp

/-- **C74 (partial).** Otherwise the exception of the attempt that used up the last try is raised: there is no other outcome. -/
theorem C74_raises_partial {α : Type} (cs : List (ℕ → Except Err α)) (hne : cs ≠ []) (retry : ℤ) (h : ¬ ∃ ks rs, Schedule cs ks rs ∧ ((ks.sum : ℕ) : ℤ) < retry) :
    (webPool cs retry).toBool = false := by
  cases hw : webPool cs retry with
  | error e => rfl
  | ok rs =>
    exfalso
    obtain ⟨ks, h1, h2⟩ := (C74_retries_partial cs hne retry rs).1 hw
    exact h ⟨ks, rs, h1, h2⟩

/-- **C74.** By default there are three tries, the argument has precedence over that of the tracer. -/
theorem C74_default (retry selfRetry : Option ℤ) :
    getValue [retry, selfRetry, some 3] = .ok ((retry <|> selfRetry).getD 3) := by
  cases retry <;> cases selfRetry <;> rfl

/-- Two failures in three chunks. -/
example : (webPool [fun n => if n = 0 then .error (.runtime "") else .ok 5, fun _ => .ok 6, fun n => if n = 0 then .error (.runtime "") else .ok 7] 3).toOption = some [5, 6, 7] ∧
    (webPool [fun n => if n = 0 then .error (.runtime "") else .ok 5, fun _ => .ok 6, fun n => if n = 0 then .error (.runtime "") else .ok 7] 2).toOption = (none : Option (List ℕ)) := by
  decide

/-! ### The chunks -/

variable {K : Type} [Zero K]

theorem slicesOf_flatten {α : Type} (n : ℕ) (hn : 0 < n) (l : List α) : (slicesOf l n).flatten = l := by
  unfold slicesOf
  have h : ∀ m, ((List.range m).map fun i => (l.drop (i * n)).take n).flatten = l.take (m * n) := by
    intro m
    induction m with
    | zero => simp
    | succ m ih =>
      rw [List.range_succ, List.map_append, List.flatten_append, ih]
      simp only [List.map_cons, List.map_nil, List.flatten_cons, List.flatten_nil, List.append_nil]
      rw [Nat.add_mul, one_mul, List.take_add]
  rw [h, List.take_of_length_le]
  have := Nat.div_add_mod (l.length + n - 1) n
  have h2 := Nat.mod_lt (l.length + n - 1) hn
  rw [Nat.mul_comm] at this
  omega

/-- Whenever an attempt succeeds, it gives the field lines `line` of its points. -/
def WebLines (attempt : ℕ → List (K × K) → ℕ → Except Err (List (List K))) (line : K × K → List K → ℕ → K × K) (ys : List K) : Prop :=
  ∀ j c n r, attempt j c n = .ok r → r = (List.range ys.length).map fun i => interleave (c.map fun q => line q ys i)

theorem concat_lines (cs : List (List (K × K))) (line : K × K → List K → ℕ → K × K) (ys : List K) :
    concatRows ys.length (cs.map fun c => (List.range ys.length).map fun i => interleave (c.map fun q => line q ys i)) =
      (List.range ys.length).map fun i => interleave (cs.flatten.map fun q => line q ys i) := by
  unfold concatRows
  refine List.map_congr_left fun i hi => ?_
  rw [List.map_flatten, interleave_flatten, List.flatMap_map, List.flatMap_map]
  congr 1
  funext c
  have hi' : i < ys.length := List.mem_range.1 hi
  simp [List.getD_eq_getElem?_getD, hi']

/-- **C133.** The result, if there is one, does not depend on the chunks and the failures, and is that of a `FieldTracer` for the same field
lines. -/
theorem C133_chunks (attempt : ℕ → List (K × K) → ℕ → Except Err (List (List K))) (line : K × K → List K → ℕ → K × K)
    (x z y : FArr K) (ha : WebLines attempt line y.data) (ode : List K → List K → Except Err (List (List K))) (ho : LineWise ode line)
    (hasConfig : Bool) (chunk : Option ℕ) (selfChunk : ℕ) (retry selfRetry : Option ℤ) (r : FArr K)
    (h : webFollow attempt hasConfig chunk selfChunk retry selfRetry x z y = .ok r) : followFieldLines ode x z y = .ok r := by
  unfold webFollow at h
  rw [C74_default] at h
  simp only [Except.bind] at h
  unfold followFieldLines
  cases hc : checkInputs x z y with
  | error e => rw [hc] at h; cases h
  | ok a =>
    rw [hc] at h
    simp only [Except.bind] at h ⊢
    have hya : a.2.2.data = y.data := by
      unfold checkInputs at hc
      dsimp only at hc
      split_ifs at hc <;> (injection hc with hc; subst hc; exact atleast1d_data y)
    generalize hch : (if chunk.getD 0 = 0 then selfChunk else chunk.getD 0) = ch at h
    by_cases h1 : a.1.shape.length ≤ 1 ∧ a.2.1.shape.length > 1
    · rw [if_pos h1] at h; cases h
    rw [if_neg h1] at h
    by_cases h2 : ch = 0
    · rw [if_pos h2] at h; cases h
    rw [if_neg h2] at h
    rw [if_neg h1, traceChunks_eq ho]
    dsimp only
    set cs := slicesOf (a.1.data.zip a.2.1.data) ch with hcs
    generalize hrs : (if (!hasConfig && decide ((a.1.data.zip a.2.1.data).length > ch)) = true then
          webPool ((List.range cs.length).map fun j => attempt j (cs.getD j [])) ((retry <|> selfRetry).getD 3)
        else (List.range cs.length).mapM fun j => attempt j (cs.getD j []) 0) = ers at h
    cases ers with
    | error e => cases h
    | ok rs =>
      simp only at h
      split_ifs at h with h3 h4
      have hval : rs = cs.map fun c => (List.range y.data.length).map fun i => interleave (c.map fun q => line q y.data i) := by
        have hlen : rs.length = cs.length ∧ ∀ j (hj : j < rs.length) , ∃ n, attempt j (cs.getD j []) n = .ok rs[j] := by
          split_ifs at hrs with h5
          · have hcsne : cs ≠ [] := by
              intro h0
              rw [h0] at hrs
              simp [webPool, webWaitAll, Except.bind] at hrs
              exact h3 hrs
            obtain ⟨ks, ⟨-, e2, e3⟩, -⟩ := (C74_retries_partial _ (by simpa using hcsne) _ _).1 hrs
            rw [List.length_map, List.length_range] at e2
            refine ⟨e2, ?_⟩
            intro j hj
            obtain ⟨k, r', e4, e5, e6⟩ := e3 j (attempt j (cs.getD j [])) (by simp [show j < cs.length by omega])
            rw [List.getElem?_eq_getElem hj] at e5
            injection e5 with e5
            exact ⟨k, by rw [e5]; exact e6.1⟩
          · have hm : ∀ (l : List ℕ) (rs : List (List (List K))), (l.mapM fun j => attempt j (cs.getD j []) 0) = .ok rs →
                List.Forall₂ (fun j r => attempt j (cs.getD j []) 0 = .ok r) l rs := by
              intro l
              induction l with
              | nil => intro rs h; rw [List.mapM_nil] at h; injection h with h; subst h; exact List.Forall₂.nil
              | cons j l ih =>
                intro rs h
                rw [List.mapM_cons] at h
                cases h6 : attempt j (cs.getD j []) 0 with
                | error e => rw [h6] at h; cases h
                | ok r1 =>
                  rw [h6] at h
                  simp only [bind, Except.bind] at h
                  cases h7 : (l.mapM fun j => attempt j (cs.getD j []) 0) with
                  | error e => rw [h7] at h; cases h
                  | ok r2 =>
                    rw [h7] at h
                    injection h with h
                    subst h
                    exact List.Forall₂.cons h6 (ih _ h7)
            have hf := hm _ _ hrs
            refine ⟨by rw [← hf.length_eq, List.length_range], ?_⟩
            intro j hj
            have hj2 : j < cs.length := by rw [← hf.length_eq, List.length_range] at hj; exact hj
            have := hf.get (by simpa using hj2) hj
            refine ⟨0, ?_⟩
            simpa using this
        apply List.ext_getElem
        · rw [List.length_map, hlen.1]
        · intro j h5 h6
          obtain ⟨n, hn⟩ := hlen.2 j h5
          have := ha j _ n _ hn
          rw [this]
          have hj : j < cs.length := by simpa using h6
          simp [List.getD_eq_getElem?_getD, hj]
      rw [hval, hya, concat_lines, hcs, slicesOf_flatten ch (Nat.pos_of_ne_zero h2)] at h h4
      rw [hya]
      rw [if_neg h4]
      exact h

/-- What the service gives, with failures. -/
def serve (fails : ℕ → ℕ → Option Err) (line : K × K → List K → ℕ → K × K) (ys : List K) (j : ℕ) (c : List (K × K)) (n : ℕ) : Except Err (List (List K)) :=
  match fails j n with
  | some e => .error e
  | none => .ok ((List.range ys.length).map fun i => interleave (c.map fun q => line q ys i))

/-- **C133.** With a service that gives the field lines `line` unless it fails, and fails less than `retry` times in total, there is a
result whenever `FieldTracer` has one (for at least one point); provided that there are more points than fit in a chunk, or that there is no failure. -/
theorem C133_works (fails : ℕ → ℕ → Option Err) (line : K × K → List K → ℕ → K × K) (x z y : FArr K)
    (ode : List K → List K → Except Err (List (List K))) (ho : LineWise ode line) (hasConfig : Bool) (chunk : Option ℕ) (selfChunk : ℕ)
    (hch : 0 < selfChunk) (retry selfRetry : Option ℤ) (k : ℕ → ℕ) (hk : ∀ j, fails j (k j) = none ∧ ∀ i < k j, (fails j i).isSome)
    (hsum : ∀ n, ((((List.range n).map k).sum : ℕ) : ℤ) < (retry <|> selfRetry).getD 3) (hx : x.data ≠ []) (hz : z.data ≠ []) (r : FArr K)
    (hbig : (∀ j, k j = 0) ∨ hasConfig = false ∧ max selfChunk (chunk.getD 0) < max x.data.length z.data.length)
    (hxok : x.Ok) (hzok : z.Ok) (h : followFieldLines ode x z y = .ok r) :
    webFollow (serve fails line y.data) hasConfig chunk selfChunk retry selfRetry x z y = .ok r := by
  unfold webFollow
  rw [C74_default]
  simp only [Except.bind]
  unfold followFieldLines at h
  cases hc : checkInputs x z y with
  | error e => rw [hc] at h; cases h
  | ok a =>
    rw [hc] at h
    simp only [Except.bind] at h ⊢
    have hya : a.2.2.data = y.data := by
      unfold checkInputs at hc
      dsimp only at hc
      split_ifs at hc <;> (injection hc with hc; subst hc; exact atleast1d_data y)
    have hplen : (a.1.data.zip a.2.1.data).length = max x.data.length z.data.length := by
      have l1 : 0 < x.data.length := List.length_pos_iff.2 hx
      have l2 : 0 < z.data.length := List.length_pos_iff.2 hz
      have e1 := shape1_prod hxok
      have e2 := shape1_prod hzok
      rw [List.length_zip]
      unfold checkInputs at hc
      dsimp only at hc
      split_ifs at hc with g1 g2 g3 g4 g5
      · injection hc with hc
        subst hc
        unfold FArr.spread
        unfold FArr.size at g4
        simp only [atleast1d_data, atleast1d_shape, List.length_replicate] at g4 ⊢
        rw [e1] at g4
        rw [e2]
        omega
      · injection hc with hc
        subst hc
        unfold FArr.spread
        unfold FArr.size at g5
        simp only [atleast1d_data, atleast1d_shape, List.length_replicate] at g5 ⊢
        rw [e2] at g5
        rw [e1]
        omega
      · injection hc with hc
        subst hc
        rw [atleast1d_shape, atleast1d_shape, not_not] at g3
        simp only [atleast1d_data]
        rw [← e1, ← e2, g3]
        simp
    have hne : a.1.data.zip a.2.1.data ≠ [] := by
      have l1 : 0 < x.data.length := List.length_pos_iff.2 hx
      intro h0
      rw [h0] at hplen
      simp only [List.length_nil] at hplen
      omega
    generalize hch' : (if chunk.getD 0 = 0 then selfChunk else chunk.getD 0) = ch
    have hch0 : ch ≠ 0 := by
      rw [← hch']
      split_ifs with h0
      · omega
      · exact h0
    have hchm : ch ≤ max selfChunk (chunk.getD 0) := by
      rw [← hch']
      split_ifs with h0
      · exact le_max_left _ _
      · exact le_max_right _ _
    by_cases h1 : a.1.shape.length ≤ 1 ∧ a.2.1.shape.length > 1
    · rw [if_pos h1] at h; cases h
    rw [if_neg h1, traceChunks_eq ho] at h
    rw [if_neg h1, if_neg hch0]
    dsimp only at h
    set cs := slicesOf (a.1.data.zip a.2.1.data) ch with hcs
    have hcsne : cs ≠ [] := by
      intro h0
      have := slicesOf_flatten ch (Nat.pos_of_ne_zero hch0) (a.1.data.zip a.2.1.data)
      rw [← hcs, h0] at this
      exact hne this.symm
    have hrs : (if (!hasConfig && decide ((a.1.data.zip a.2.1.data).length > ch)) = true then
          webPool ((List.range cs.length).map fun j => serve fails line y.data j (cs.getD j [])) ((retry <|> selfRetry).getD 3)
        else (List.range cs.length).mapM fun j => serve fails line y.data j (cs.getD j []) 0) =
        .ok (cs.map fun c => (List.range y.data.length).map fun i => interleave (c.map fun q => line q y.data i)) := by
      split_ifs with hb
      · rw [C74_retries_partial _ (by simpa using hcsne)]
        refine ⟨(List.range cs.length).map k, ⟨by simp, by simp, ?_⟩, hsum _⟩
        intro j c hc
        have hj : j < cs.length := by
          by_contra hj
          rw [List.getElem?_eq_none (by simpa using hj)] at hc
          cases hc
        rw [List.getElem?_map, List.getElem?_range hj] at hc
        simp only [Option.map_some, Option.some.injEq] at hc
        refine ⟨k j, (List.range y.data.length).map fun i => interleave (cs[j].map fun q => line q y.data i), by simp [hj], by simp [hj], ?_⟩
        subst hc
        constructor
        · unfold serve
          rw [(hk j).1]
          simp [List.getD_eq_getElem?_getD, hj]
        · intro i hi
          obtain ⟨e, he⟩ := Option.isSome_iff_exists.1 ((hk j).2 i hi)
          unfold serve
          rw [he]
          rfl
      · have hk0 : ∀ j, k j = 0 := by
          rcases hbig with h0 | ⟨h0, h2⟩
          · exact h0
          · exfalso
            apply hb
            rw [h0, hplen]
            simp only [Bool.not_false, Bool.true_and, decide_eq_true_eq, gt_iff_lt]
            exact lt_of_le_of_lt hchm h2
        rw [mapM_ok_of _ (fun j => (List.range y.data.length).map fun i => interleave ((cs.getD j []).map fun q => line q y.data i)) fun j => by
          unfold serve
          have := (hk j).1
          rw [hk0 j] at this
          rw [this]]
        congr 1
        apply List.ext_getElem
        · simp
        · intro j g1 g2
          have hj : j < cs.length := by simpa using g2
          simp [List.getD_eq_getElem?_getD, hj]
    rw [hrs]
    simp only
    rw [if_neg (by simpa using hcsne), hya, concat_lines, hcs, slicesOf_flatten ch (Nat.pos_of_ne_zero hch0)]
    rw [hya] at h
    exact h

/-- What the statement of C74 says of `follow_field_lines`. -/
def WebRetries (K : Type) [Zero K] : Prop :=
  ∀ (fails : ℕ → ℕ → Option Err) (line : K × K → List K → ℕ → K × K) (x z y : FArr K) (ode : List K → List K → Except Err (List (List K))),
    LineWise ode line → ∀ (hasConfig : Bool) (chunk : Option ℕ) (selfChunk : ℕ), 0 < selfChunk → ∀ (retry selfRetry : Option ℤ) (k : ℕ → ℕ),
    (∀ j, fails j (k j) = none ∧ ∀ i < k j, (fails j i).isSome) → (∀ n, ((((List.range n).map k).sum : ℕ) : ℤ) < (retry <|> selfRetry).getD 3) →
    x.data ≠ [] → z.data ≠ [] → x.Ok → z.Ok → ∀ r, followFieldLines ode x z y = .ok r →
    webFollow (serve fails line y.data) hasConfig chunk selfChunk retry selfRetry x z y = .ok r

/-- **C74 (refutation).** A failure with not more points than fit in a chunk is raised at once, although there are three tries. -/
theorem C74_fails : ¬ WebRetries ℚ := by
  intro h
  have hr : (followFieldLines (K := ℚ) stillOde ⟨[1], [0]⟩ ⟨[1], [0]⟩ ⟨[2], [0, 1]⟩).toBool = true := by decide +kernel
  cases hf : followFieldLines (K := ℚ) stillOde ⟨[1], [0]⟩ ⟨[1], [0]⟩ ⟨[2], [0, 1]⟩ with
  | error e => rw [hf] at hr; cases hr
  | ok r =>
    have := h (fun j n => if j = 0 ∧ n = 0 then some (.runtime "timeout") else none) (fun q _ _ => q) ⟨[1], [0]⟩ ⟨[1], [0]⟩ ⟨[2], [0, 1]⟩ stillOde
      stillOde_lineWise false none 10000 (by norm_num) none none (fun j => if j = 0 then 1 else 0) (by
        intro j
        rcases Nat.eq_zero_or_pos j with h0 | h0
        · subst h0
          refine ⟨rfl, ?_⟩
          intro i hi
          have : i = 0 := by simpa using hi
          subst this
          rfl
        · have h1 : j ≠ 0 := by omega
          simp [h1]) (by
        intro n
        have : ((List.range n).map fun j => if j = 0 then 1 else 0).sum ≤ 1 := by
          cases n with
          | zero => simp
          | succ n =>
            rw [List.range_succ_eq_map, List.map_cons, List.map_map, List.sum_cons]
            have : ((List.range n).map ((fun j => if j = 0 then 1 else 0) ∘ Nat.succ)).sum = 0 := by
              rw [List.sum_eq_zero]
              intro a ha
              rw [List.mem_map] at ha
              obtain ⟨b, -, rfl⟩ := ha
              simp
            rw [this]
            simp
        simp only [Option.getD]
        have : ((((List.range n).map fun j => if j = 0 then 1 else 0).sum : ℕ) : ℤ) ≤ 1 := by exact_mod_cast this
        exact lt_of_le_of_lt this (by decide)) (by simp) (by simp) rfl rfl r hf
    have h2 : (webFollow (K := ℚ) (serve (fun j n => if j = 0 ∧ n = 0 then some (.runtime "timeout") else none) (fun q _ _ => q) [0, 1]) false none 10000 none none
        ⟨[1], [0]⟩ ⟨[1], [0]⟩ ⟨[2], [0, 1]⟩).toBool = false := by decide +kernel
    rw [this] at h2
    cases h2

end Zoidberg
