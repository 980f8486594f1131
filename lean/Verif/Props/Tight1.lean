import Verif.Props.Plot
import Verif.Props.FieldMore

/-!
# Tightened after mutation: C78, C172, C181
-/

set_option linter.unusedSectionVars false

namespace Zoidberg

section
variable {K : Type} [Field K] [LinearOrder K]

/-- **C78.** An odd number of values is an `AssertionError`. -/
theorem C78_odd_assertion (f : FieldFns K) (pos : List K) (h : pos.length % 2 = 1) (y : K) :
    ∃ m, f.directionFlat pos y = .error (.assertion m) := by
  unfold FieldFns.directionFlat
  rw [if_pos (by omega)]
  exact ⟨_, rfl⟩

example : ([1, 2, 3] : List ℚ).length % 2 = 1 := rfl

/-- **C172.** For every integrator: a click is handled without an exception exactly if it is outside of the
plot or with the middle button. -/
theorem C172_iff (ode : List K → List K → Except Err (List (List K))) (ys : List K) (pos : Option (K × K)) (b : ℕ)
    (shown : List K × List K) :
    (∃ r, onclick ode ys pos b shown = .ok r) ↔ pos = none ∨ b = 2 := by
  cases pos with
  | none => exact ⟨fun _ => Or.inl rfl, fun _ => ⟨_, rfl⟩⟩
  | some p =>
    constructor
    · rintro ⟨r, h⟩
      right
      by_contra hb
      unfold onclick at h
      dsimp only at h
      rw [if_neg hb] at h
      cases hf : followFieldLines ode ⟨[], [p.1]⟩ ⟨[], [p.2]⟩ ⟨[ys.length], ys⟩ with
      | error e => rw [hf] at h; cases h
      | ok q =>
        rw [hf] at h
        have hs : q.shape = [ys.length, 1, 2] := by
          unfold followFieldLines at hf
          cases hc : checkInputs (⟨[], [p.1]⟩ : FArr K) ⟨[], [p.2]⟩ ⟨[ys.length], ys⟩ with
          | error e => rw [hc] at hf; cases hf
          | ok a =>
            have ha : a = (⟨[1], [p.1]⟩, ⟨[1], [p.2]⟩, ⟨[ys.length], ys⟩) := by
              unfold checkInputs at hc
              dsimp only [FArr.atleast1d] at hc
              split_ifs at hc
              all_goals simp_all
            rw [hc, ha] at hf
            dsimp only [Except.bind] at hf
            rw [if_neg (by simp)] at hf
            revert hf
            cases traceChunks ode ([p.1].zip [p.2]) ys with
            | error e => intro hf; cases hf
            | ok rows =>
              intro hf
              dsimp only at hf
              split_ifs at hf
              cases hf
              rfl
        dsimp only [Except.bind] at h
        simp only [FArr.column, hs] at h
        revert h
        simp
    · rintro (h | rfl)
      · cases h
      · exact ⟨_, rfl⟩

end

theorem name_prefix (x y : String) : "B.w7x." ++ x ≠ "B.w7x_plasma_field." ++ y := by
  intro h
  have h := congrArg (fun s => (String.toList s)[5]?) h
  simp at h

/-- **C181.** The files of the plasma field and of the vacuum field have different names: neither call changes what the other gives. -/
theorem C181_separate {K B : Type} (fmt : K → String) (compute : W7Args K → Except Err B) (extender : String → W7Args K → Except Err B)
    (files : Dict B) (a a' : W7Args K) (wout : String) :
    (fieldValues fmt compute (plasmaField fmt extender files a wout).1 a').2 = (fieldValues fmt compute files a').2 ∧
      (plasmaField fmt extender (fieldValues fmt compute files a').1 a wout).2 = (plasmaField fmt extender files a wout).2 := by
  have n1 : a'.fname fmt ≠ a.plasmaName fmt := by
    unfold W7Args.fname W7Args.plasmaName
    rw [String.append_assoc, String.append_assoc, String.append_assoc, String.append_assoc]
    exact name_prefix _ _
  have n2 : a'.fnameOld fmt ≠ a.plasmaName fmt := by
    unfold W7Args.fnameOld W7Args.plasmaName
    rw [String.append_assoc, String.append_assoc]
    exact name_prefix _ _
  constructor
  · have e : ∀ n, n ≠ a.plasmaName fmt → (plasmaField fmt extender files a wout).1 n = files n := by
      intro n hn
      unfold plasmaField
      cases files (a.plasmaName fmt) with
      | some b => rfl
      | none =>
        cases extender vmecURL a with
        | error x => rfl
        | ok b => simp [Dict.set, hn]
    unfold fieldValues
    rw [e _ n1, e _ n2]
    cases files (a'.fname fmt) <;> cases files (a'.fnameOld fmt) <;> cases compute a' <;> rfl
  · have e : (fieldValues fmt compute files a').1 (a.plasmaName fmt) = files (a.plasmaName fmt) := by
      unfold fieldValues
      cases files (a'.fname fmt) <;> cases files (a'.fnameOld fmt) <;> cases compute a' <;>
        simp [Dict.set, n1.symm]
    unfold plasmaField
    rw [e]
    cases files (a.plasmaName fmt) with
    | some b => rfl
    | none => cases extender vmecURL a <;> rfl

/-- **C181.** Without a saved field the result is that for the file, for every service, exactly if it is the file that is built in. -/
theorem C181_iff {K : Type} (fmt : K → String) (files : Dict String) (a : W7Args K) (wout : String)
    (hf : files (a.plasmaName fmt) = none) :
    (∀ extender : String → W7Args K → Except Err String, (plasmaField fmt extender files a wout).2 = extender wout a) ↔
      wout = "http://svvmec1.ipp-hgw.mpg.de:8080/vmecrest/v1/w7x_ref_1/wout.nc" := by
  have e : ∀ extender : String → W7Args K → Except Err String, (plasmaField fmt extender files a wout).2 =
      extender "http://svvmec1.ipp-hgw.mpg.de:8080/vmecrest/v1/w7x_ref_1/wout.nc" a := by
    intro extender
    unfold plasmaField vmecURL
    rw [hf]
    cases extender "http://svvmec1.ipp-hgw.mpg.de:8080/vmecrest/v1/w7x_ref_1/wout.nc" a <;> rfl
  constructor
  · intro h
    have h := h fun u _ => .ok u
    rw [e] at h
    exact (Except.ok.inj h).symm
  · rintro rfl extender
    exact e extender

end Zoidberg
