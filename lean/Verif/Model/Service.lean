import Verif.Model.FieldMore
import Verif.Model.Progress

/-!
# Model of interrupts in the retry loops, of `FieldTracerWeb.__init__` and of `Progress` as a context manager

`/repo/zoidberg/field.py:1704-1724`, `/repo/zoidberg/fieldtracer.py:475-521, 627-639, 660-672`, `/repo/zoidberg/progress.py:101-118`.
-/

namespace Zoidberg

/-! ## Interrupts -/

/-- What a call can raise: an `Exception`, or something that is only a `BaseException`, such as the `KeyboardInterrupt` of control-C
(field.py:1709-1724, fieldtracer.py:629-639). -/
inductive Raised where
  | exc (e : Err)
  | interrupt
deriving DecidableEq

/-- The loop of `_calc_chunk` (field.py:1704-1724) as `calcChunk`, with interrupts: the bare `except:` catches everything. -/
def calcChunkR {α : Type} (attempt : ℕ → Except Raised α) : ℕ → ℕ → Except Raised α
  | 0, _ => .error (.exc (.runtime "res is not defined"))
  | redo + 1, n => match attempt n with
    | .ok a => .ok a
    | .error e => if redo = 0 then .error e else calcChunkR attempt redo (n + 1)

/-- The loop for one chunk of `FieldTracerWeb` (fieldtracer.py:628-639) as `webWait`, with interrupts: `except Exception` lets them through. -/
def webWaitR {α : Type} (attempt : ℕ → Except Raised α) : ℕ → ℕ → Except Raised (Option α × ℕ)
  | 0, _ => .ok (none, 0)
  | retry + 1, n =>
    match attempt n with
    | .ok a => .ok (some a, retry + 1)
    | .error .interrupt => .error .interrupt
    | .error (.exc e) => if ¬ 0 < retry then .error (.exc e) else webWaitR attempt retry (n + 1)

/-! ## `FieldTracerWeb` -/

/-- A configuration of the web service: the coils and whether the field is reversed (fieldtracer.py:664-671, 696-697). -/
structure WebConfig (κ : Type) where
  coils : κ
  inverseField : Bool

/-- What `FieldTracerWeb.__init__` stores (fieldtracer.py:493-521).  `config` is the object of the caller, not a copy. -/
structure WebTracer (κ : Type) where
  config : Option (WebConfig κ)
  configId : Option ℤ
  isforward : Bool

/-- `getConfig` (fieldtracer.py:660-667): the configuration, and what the one of the caller becomes.  `known` stands for `_set_config`. -/
def webGetConfig {κ : Type} (known : ℤ → Except Err κ) (config : Option (WebConfig κ)) (configId : Option ℤ) :
    Except Err (WebConfig κ × Option (WebConfig κ)) :=
  match config with
  | some c => .ok (⟨c.coils, false⟩, some ⟨c.coils, false⟩)
  | none => (known (configId.getD 0)).map fun k => (⟨k, false⟩, none)

/-- `FieldTracerWeb.__init__` (fieldtracer.py:475-521).  `reachable` stands for the request of lines 491-492; `probe` is the angle at which a line from
`(6, 0, 0)` ends after one step (lines 505-518).  A configuration is an object that counts as true. -/
noncomputable def webInit {κ : Type} (known : ℤ → Except Err κ) (reachable : Except Err Unit) (probe : WebConfig κ → Except Err ℝ)
    (config : Option (WebConfig κ)) (configId : Option ℤ) : Except Err (WebTracer κ) :=
  reachable.bind fun _ =>
    if config.isSome = configId.isSome then .error (.assertion "configId")
    else (webGetConfig known config configId).bind fun c =>
      (probe c.1).bind fun phi =>
        if phi = 0 then .error (.assertion "phi != 0") else .ok ⟨c.2, configId, decide (phi > 0)⟩

/-- `_follow_field_lines` of a tracer (fieldtracer.py:679-711), `webLines` with the configuration of lines 696-697: the rows, and what the configuration of the
caller becomes. -/
noncomputable def webLinesOf {κ : Type} (known : ℤ → Except Err κ) (empty : ℕ → ℕ → ℝ × ℝ) (t : WebTracer κ)
    (trace : WebConfig κ → ℝ → List (ℝ × ℝ × ℝ) → Except Err (List (ℝ × ℝ × ℝ))) (pts : List (ℝ × ℝ)) (ys : List ℝ) :
    Except Err (List (List (ℝ × ℝ)) × Option (WebConfig κ)) :=
  (webGetConfig known t.config t.configId).bind fun c =>
    (webLines empty t.isforward (fun inv => trace ⟨c.1.coils, inv⟩) pts ys).map fun r =>
      (r, c.2.map fun d => ⟨d.coils, pyXor (decide (ys.getD 1 0 - ys.getD 0 0 > 0)) t.isforward⟩)

/-! ## `Progress` -/

section
variable {K : Type} [Field K] [LinearOrder K] [FloorRing K]

/-- `Progress.update` (progress.py:105-110): the line that is printed `needed` seconds after the start.  `fmt` stands for `format(x, "6.2f")`. -/
def progressLine (fmt : K → List Char) (needed prog : K) : List Char :=
  fmt (prog * 100) ++ " % ... ".toList ++ formatTime needed ++ ['>'] ++
    (match remaining needed prog with
      | some r => formatTime r
      | none => ['0']) ++ ['\r']

/-- `with Progress() as p:` (progress.py:102-118): the body prints `out` and ends with `res`; then `__exit__` prints the last line, and
returns `None`, so exceptions go on. -/
def withProgress {α : Type} (fmt : K → List Char) (needed : K) (out : List Char) (res : Except Err α) : List Char × Except Err α :=
  (out ++ progressLine fmt needed 1 ++ ['\n'], res)

end

end Zoidberg
