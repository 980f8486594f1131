import Verif.Model.Service
import Verif.Model.WebTracer
import Mathlib.Tactic.Linarith

/-!
# Properties C214-C217: interrupts, `Progress` and the configuration of the web tracer
-/

set_option linter.unusedSectionVars false

namespace Zoidberg

/-! ## C214 -/

/-- Ordinary exceptions as what can be raised. -/
def raised {α : Type} : Except Err α → Except Raised α
  | .ok a => .ok a
  | .error e => .error (.exc e)

/-- Without interrupts the loops are those of C145 and C74. -/
theorem C214_same {α : Type} (attempt : ℕ → Except Err α) (r n : ℕ) :
    calcChunkR (fun m => raised (attempt m)) r n = raised (calcChunk attempt r n) ∧
      webWaitR (fun m => raised (attempt m)) r n = raised (webWait attempt r n) := by
  induction r generalizing n with
  | zero => exact ⟨rfl, rfl⟩
  | succ r ih =>
    constructor
    · rw [calcChunkR, calcChunk]
      cases h : attempt n with
      | ok a => rfl
      | error e =>
        simp only [raised]
        split_ifs with h0
        · rfl
        · exact (ih (n + 1)).1
    · rw [webWaitR, webWait]
      cases h : attempt n with
      | ok a => rfl
      | error e =>
        simp only [raised]
        split_ifs with h0
        · exact (ih (n + 1)).2
        · rfl

/-- An interrupt is not lost in a loop with `n` attempts: whichever attempt is interrupted, the loop ends with the interrupt. -/
def PassesInterrupts (loop : (ℕ → Except Raised ℚ) → Except Raised ℚ) (n : ℕ) : Prop :=
  ∀ attempt : ℕ → Except Raised ℚ, ∀ k < n, (∀ m < k, ∃ e, attempt m = .error (.exc e)) → attempt k = .error .interrupt →
    loop attempt = .error .interrupt

/-- **C214 (partial).** In the web tracer an interrupt ends the loop at once, whatever the later attempts would give.  Missing: `W7X_vacuum`
(`C214_fails`). -/
theorem C214_web_partial {α : Type} (attempt : ℕ → Except Raised α) (retry k n : ℕ) (hk : k < retry)
    (hm : ∀ m < k, ∃ e, attempt (n + m) = .error (.exc e)) (h : attempt (n + k) = .error .interrupt) :
    webWaitR attempt retry n = .error .interrupt := by
  induction k generalizing retry n with
  | zero =>
    obtain ⟨r, rfl⟩ : ∃ r, retry = r + 1 := ⟨retry - 1, by omega⟩
    rw [webWaitR, show attempt n = _ from h]
  | succ k ih =>
    obtain ⟨r, rfl⟩ : ∃ r, retry = r + 1 := ⟨retry - 1, by omega⟩
    obtain ⟨e, he⟩ := hm 0 (by omega)
    rw [webWaitR, show attempt n = _ from he]
    dsimp only
    rw [if_neg (by omega)]
    refine ih r (n + 1) (by omega) (fun m hm' => ?_) ?_
    · obtain ⟨e, he⟩ := hm (m + 1) (by omega)
      exact ⟨e, by rw [← he]; congr 1; omega⟩
    · rw [← h]; congr 1; omega

/-- Interrupted in the second attempt. -/
example : webWaitR (fun n => if n = 0 then .error (.exc (.runtime "timeout")) else if n = 1 then .error .interrupt else (.ok n : Except Raised ℕ)) 3 0 =
    .error .interrupt := C214_web_partial _ 3 1 0 (by decide) (fun m hm => ⟨.runtime "timeout", by simp [show m = 0 by omega]⟩) rfl

/-- **C214.** In `W7X_vacuum` the first interrupt is always lost: the result is that of the second attempt. -/
theorem C214_chunk {α : Type} (attempt : ℕ → Except Raised α) (h : attempt 0 = .error .interrupt) : calcChunkR attempt 2 0 = attempt 1 := by
  rw [calcChunkR, h]
  dsimp only
  rw [if_neg (by decide), calcChunkR]
  cases h1 : attempt 1 with
  | ok a => rfl
  | error e => dsimp only; rw [if_pos rfl]

/-- **C214 (refutation).** -/
theorem C214_fails : ¬ PassesInterrupts (fun a => calcChunkR a 2 0) 2 := by
  intro h
  have h1 := h (fun n => if n = 0 then .error .interrupt else .ok 1) 0 (by decide) (by simp) rfl
  dsimp only at h1
  rw [C214_chunk _ (by rfl)] at h1
  cases h1

/-! ## C215 -/

section
variable {K : Type} [Field K] [LinearOrder K] [IsStrictOrderedRing K] [FloorRing K]

/-- **C215.** What the body returns or raises is passed on, after everything it printed comes a last line. -/
theorem C215_result {α : Type} (fmt : K → List Char) (needed : K) (out : List Char) (res : Except Err α) :
    (withProgress fmt needed out res).2 = res ∧ out <+: (withProgress fmt needed out res).1 := by
  refine ⟨rfl, ?_⟩
  unfold withProgress
  rw [List.append_assoc]
  exact List.prefix_append _ _

/-- **C215.** The last line reports 100 percent and no time left, for every body. -/
theorem C215_last {α : Type} (fmt : K → List Char) (needed : K) (out : List Char) (res : Except Err α) :
    (withProgress fmt needed out res).1 = out ++ (fmt 100 ++ " % ... ".toList ++ formatTime needed ++ ">00s\r\n".toList) := by
  have h0 : formatTime (0 : K) = "00s".toList := by
    have hp : pyRound (0 : K) = 0 := by simp [pyRound]
    have h60 : ¬ ((60 * 60 * 24 : ℕ) : K) ≤ 0 := by push_cast; norm_num
    have h36 : ¬ ((3600 : ℕ) : K) ≤ 0 := by push_cast; norm_num
    have h1 : ¬ ((60 : ℕ) : K) ≤ 0 := by push_cast; norm_num
    have ht : timeParts (0 : K) = ⟨[], false, 0⟩ := by
      simp only [timeParts, List.foldl, timeStep, h60, h36, h1, decide_false, Bool.or_false, Bool.false_eq_true, if_false]
    unfold formatTime pad020f
    rw [ht]
    dsimp only
    rw [if_neg (lt_irrefl _), hp, show pad02d 0 = ['0', '0'] by decide]
    rfl
  unfold withProgress progressLine remaining
  rw [if_neg one_ne_zero]
  simp [h0]

/-- **C215.** As long as nothing is done, the remaining time is not computed: `0` is printed in its place. -/
theorem C215_start (fmt : K → List Char) (needed : K) : progressLine fmt needed 0 = fmt 0 ++ " % ... ".toList ++ formatTime needed ++ ">0\r".toList := by
  unfold progressLine remaining
  simp

/-- Complete progress is reported only for bodies that ended normally: the output for one that fails is never that for one that does not. -/
def ReportsFailure (K : Type) [Field K] [LinearOrder K] [FloorRing K] : Prop :=
  ∀ (fmt : K → List Char) (needed : K) (out : List Char) (e : Err), (withProgress (α := Unit) fmt needed out (.error e)).1 ≠ (withProgress fmt needed out (Except.ok ())).1

/-- **C215 (refutation).** A body that fails is reported as complete. -/
theorem C215_fails : ¬ ReportsFailure K := by
  intro h
  exact h (fun _ => []) 0 [] (.runtime "") (by rw [C215_last, C215_last])

end

/-! ## C216, C217 -/

variable {κ : Type}

/-- **C216.** A tracer is made only with exactly one of `config` and `configId`, if the service can be reached and the field at the test point has a toroidal component. -/
theorem C216_needs (known : ℤ → Except Err κ) (reachable : Except Err Unit) (probe : WebConfig κ → Except Err ℝ) (config : Option (WebConfig κ)) (configId : Option ℤ)
    (t : WebTracer κ) (h : webInit known reachable probe config configId = .ok t) :
    reachable = .ok () ∧ config.isSome ≠ configId.isSome ∧ t.configId = configId ∧
      ∃ k phi, (match config with
        | some c => k = c.coils
        | none => known (configId.getD 0) = .ok k) ∧ probe ⟨k, false⟩ = .ok phi ∧ phi ≠ 0 ∧ (t.isforward = true ↔ 0 < phi) ∧
        t.config = config.map fun _ => ⟨k, false⟩ := by
  unfold webInit at h
  cases hr : reachable with
  | error e => rw [hr] at h; cases h
  | ok u =>
    rw [hr] at h
    simp only [Except.bind] at h
    split_ifs at h with h0
    refine ⟨rfl, h0, ?_⟩
    cases config with
    | some c =>
      simp only [webGetConfig] at h
      cases hp : probe ⟨c.coils, false⟩ with
      | error e => rw [hp] at h; cases h
      | ok phi =>
        rw [hp] at h
        dsimp only at h
        split_ifs at h with h1
        cases h
        exact ⟨rfl, c.coils, phi, rfl, hp, h1, by simp, rfl⟩
    | none =>
      simp only [webGetConfig] at h
      cases hk : known (configId.getD 0) with
      | error e => rw [hk] at h; cases h
      | ok k =>
        rw [hk] at h
        simp only [Except.map] at h
        cases hp : probe ⟨k, false⟩ with
        | error e => rw [hp] at h; cases h
        | ok phi =>
          rw [hp] at h
          dsimp only at h
          split_ifs at h with h1
          cases h
          exact ⟨rfl, k, phi, rfl, hp, h1, by simp, rfl⟩

/-- **C216.** Lines are followed towards `y_values[1]`, whichever way the field points: the service is only used with configurations in which the angle
changes in that direction (`ccw` says that it increases). -/
theorem C216_direction (known : ℤ → Except Err κ) (reachable : Except Err Unit) (probe : WebConfig κ → Except Err ℝ) (config : Option (WebConfig κ)) (configId : Option ℤ)
    (t : WebTracer κ) (h : webInit known reachable probe config configId = .ok t)
    (ccw : WebConfig κ → Bool) (hrev : ∀ k, ccw ⟨k, true⟩ = !ccw ⟨k, false⟩) (hprobe : ∀ c phi, probe c = .ok phi → phi ≠ 0 → (ccw c = true ↔ 0 < phi))
    (empty : ℕ → ℕ → ℝ × ℝ) (trace trace' : WebConfig κ → ℝ → List (ℝ × ℝ × ℝ) → Except Err (List (ℝ × ℝ × ℝ))) (pts : List (ℝ × ℝ)) (ys : List ℝ)
    (hsame : ∀ c, ccw c = decide (ys.getD 0 0 < ys.getD 1 0) → trace c = trace' c) :
    webLinesOf known empty t trace pts ys = webLinesOf known empty t trace' pts ys := by
  obtain ⟨_, hone, hid, k, phi, hk, hp, hp0, hfw, hcfg⟩ := C216_needs known reachable probe config configId t h
  have hget : ∃ d, webGetConfig known t.config t.configId = .ok (⟨k, false⟩, d) := by
    cases config with
    | some c => rw [hcfg]; exact ⟨_, rfl⟩
    | none =>
      rw [hcfg, hid]
      dsimp only [Option.map] at hk ⊢
      unfold webGetConfig
      rw [hk]
      exact ⟨_, rfl⟩
  obtain ⟨d, hd⟩ := hget
  have hc : ccw ⟨k, false⟩ = t.isforward := by
    rw [Bool.eq_iff_iff, hfw]
    exact hprobe _ _ hp hp0
  have hinv : ∀ b, ccw ⟨k, pyXor b t.isforward⟩ = b := by
    intro b
    cases hb : t.isforward <;> cases b <;> simp [pyXor, hrev, hc, hb]
  unfold webLinesOf
  rw [hd]
  simp only [Except.bind]
  have : webLines empty t.isforward (fun inv => trace ⟨k, inv⟩) pts ys = webLines empty t.isforward (fun inv => trace' ⟨k, inv⟩) pts ys := by
    unfold webLines
    dsimp only
    rw [hsame ⟨k, _⟩ (by rw [hinv]; congr 1; simp)]
  rw [this]

/-- **C217.** After `__init__` the configuration of the caller has the same coils, but is never reversed. -/
theorem C217_init (known : ℤ → Except Err κ) (reachable : Except Err Unit) (probe : WebConfig κ → Except Err ℝ) (c : WebConfig κ) (configId : Option ℤ)
    (t : WebTracer κ) (h : webInit known reachable probe (some c) configId = .ok t) : t.config = some ⟨c.coils, false⟩ := by
  obtain ⟨_, _, _, k, phi, hk, _, _, _, hcfg⟩ := C216_needs known reachable probe _ configId t h
  dsimp only at hk
  rw [hcfg, hk]
  rfl

/-- **C217.** After tracing it is reversed exactly if the line was followed against the field. -/
theorem C217_traced (known : ℤ → Except Err κ) (empty : ℕ → ℕ → ℝ × ℝ) (t : WebTracer κ) (c : WebConfig κ) (hc : t.config = some c)
    (trace : WebConfig κ → ℝ → List (ℝ × ℝ × ℝ) → Except Err (List (ℝ × ℝ × ℝ))) (pts : List (ℝ × ℝ)) (ys : List ℝ) (r : List (List (ℝ × ℝ))) (d : Option (WebConfig κ))
    (h : webLinesOf known empty t trace pts ys = .ok (r, d)) : d = some ⟨c.coils, pyXor (decide (ys.getD 0 0 < ys.getD 1 0)) t.isforward⟩ := by
  unfold webLinesOf at h
  rw [hc] at h
  simp only [webGetConfig, Except.bind] at h
  cases hw : webLines empty t.isforward (fun inv => trace ⟨c.coils, inv⟩) pts ys with
  | error e => rw [hw] at h; cases h
  | ok r' =>
    rw [hw] at h
    simp only [Except.map] at h
    cases h
    simp

/-- **C217 (partial).** The tracer, and so every result, depends only on the coils of the configuration, not on whether it was reversed before.  Missing:
the object of the caller is changed (`C217_fails`). -/
theorem C217_partial (known : ℤ → Except Err κ) (reachable : Except Err Unit) (probe : WebConfig κ → Except Err ℝ) (k : κ) (b b' : Bool) (configId : Option ℤ) :
    webInit known reachable probe (some ⟨k, b⟩) configId = webInit known reachable probe (some ⟨k, b'⟩) configId := rfl

/-- The configuration of the caller is left as it was by making a tracer. -/
def ConfigKept (κ : Type) : Prop :=
  ∀ (known : ℤ → Except Err κ) (reachable : Except Err Unit) (probe : WebConfig κ → Except Err ℝ) (c : WebConfig κ) (configId : Option ℤ) (t : WebTracer κ),
    webInit known reachable probe (some c) configId = .ok t → t.config = some c

/-- A field that points forward. -/
noncomputable def exProbe : WebConfig Unit → Except Err ℝ := fun c => .ok (if c.inverseField then -1 / 100 else 1 / 100)

/-- A tracer for it. -/
theorem exWebInit (b : Bool) : webInit (fun _ => .ok ()) (.ok ()) exProbe (some ⟨(), b⟩) none = .ok ⟨some ⟨(), false⟩, none, true⟩ := by
  unfold webInit webGetConfig exProbe
  simp [Except.bind]

/-- The hypotheses of C216 hold for it. -/
example (trace trace' : WebConfig Unit → ℝ → List (ℝ × ℝ × ℝ) → Except Err (List (ℝ × ℝ × ℝ))) (pts : List (ℝ × ℝ))
    (h : trace ⟨(), true⟩ = trace' ⟨(), true⟩) :
    webLinesOf (fun _ => .ok ()) (fun _ _ => 0) ⟨some ⟨(), false⟩, none, true⟩ trace pts [1, 0] =
      webLinesOf (fun _ => .ok ()) (fun _ _ => 0) ⟨some ⟨(), false⟩, none, true⟩ trace' pts [1, 0] := by
  refine C216_direction _ _ _ _ _ _ (exWebInit false) (fun c => !c.inverseField) (fun _ => rfl) ?_ _ _ _ _ _ ?_
  · intro c phi hp _
    unfold exProbe at hp
    cases hc : c.inverseField <;> rw [hc] at hp <;> cases hp <;> norm_num
  · intro c hc
    obtain ⟨⟨⟩, b⟩ := c
    cases b
    · simp at hc
      norm_num at hc
    · exact h

/-- **C217 (refutation).** A reversed configuration is no longer reversed. -/
theorem C217_fails : ¬ ConfigKept Unit := by
  intro h
  have h1 := h _ _ _ _ _ _ (exWebInit true)
  simp at h1

end Zoidberg
