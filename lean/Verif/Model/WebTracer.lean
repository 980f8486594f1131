import Verif.Model.FieldTracer

/-!
# Model of `FieldTracerWeb.follow_field_lines` (`/repo/zoidberg/fieldtracer.py:458-463, 524-672`)

The web service is a parameter: every attempt gives the rows of a chunk or an exception.
-/

namespace Zoidberg

/-- `_get_value` (fieldtracer.py:458-462). -/
def getValue {α : Type} : List (Option α) → Except Err α
  | [] => .error (.value "Expected at least one non-None value")
  | some k :: _ => .ok k
  | none :: l => getValue l

/-- The loop for one chunk (fieldtracer.py:628-639): the result, if `retry` is positive, and the remaining `retry`; `n` counts
the attempts. -/
def webWait {α : Type} (attempt : ℕ → Except Err α) : ℕ → ℕ → Except Err (Option α × ℕ)
  | 0, _ => .ok (none, 0)
  | retry + 1, n =>
    match attempt n with
    | .ok a => .ok (some a, retry + 1)
    | .error e => if ¬ 0 < retry then .error e else webWait attempt retry (n + 1)

/-- The loop over the chunks (fieldtracer.py:627-639). -/
def webWaitAll {α : Type} : List (ℕ → Except Err α) → ℕ → Except Err (List (Option α))
  | [], _ => .ok []
  | c :: cs, retry => (webWait c retry 0).bind fun r => (webWaitAll cs r.2).map (r.1 :: ·)

/-- The results of all chunks (fieldtracer.py:625-648).  If `retry` is not positive from the start, the list still holds the
pending results, which cannot be concatenated. -/
def webPool {α : Type} (cs : List (ℕ → Except Err α)) (retry : ℤ) : Except Err (List α) :=
  (webWaitAll cs retry.toNat).bind fun rs =>
    if rs.any Option.isNone then .error (.value "zero-dimensional arrays cannot be concatenated") else .ok (rs.filterMap id)

/-- `[a[i : i + n] for i in range(0, len(a), n)]` for `n > 0` (fieldtracer.py:625, 649-658). -/
def slicesOf {α : Type} (l : List α) (n : ℕ) : List (List α) :=
  (List.range ((l.length + n - 1) / n)).map fun i => (l.drop (i * n)).take n

/-- `FieldTracerWeb.follow_field_lines` (fieldtracer.py:576-672).  `attempt j c n` is attempt `n` for chunk `j` with
the points `c`.  `hasConfig` says that a configuration was given, then nothing is done in parallel or
repeated.  `chunk` is the argument and `selfChunk` that of the tracer.  What the service makes of a `z` with more axes than `x` is not
known; it is taken as an error. -/
def webFollow {K : Type} [Zero K] (attempt : ℕ → List (K × K) → ℕ → Except Err (List (List K))) (hasConfig : Bool) (chunk : Option ℕ)
    (selfChunk : ℕ) (retry selfRetry : Option ℤ) (x z y : FArr K) : Except Err (FArr K) :=
  (getValue [retry, selfRetry, some 3]).bind fun retry =>
  (checkInputs x z y).bind fun a =>
    let x := a.1
    let z := a.2.1
    let y := a.2.2
    let chunk := if chunk.getD 0 = 0 then selfChunk else chunk.getD 0
    if x.shape.length ≤ 1 ∧ z.shape.length > 1 then .error (.value "z_values")
    else if chunk = 0 then .error (.value "range() arg 3 must not be zero")
    else
      let p := x.data.zip z.data
      let cs := slicesOf p chunk
      let rs := if !hasConfig && decide (p.length > chunk) then
          webPool ((List.range cs.length).map fun j => attempt j (cs.getD j [])) retry
        else (List.range cs.length).mapM fun j => attempt j (cs.getD j []) 0
      rs.bind fun rs =>
        if rs = [] then .error (.value "need at least one array to concatenate")
        else
          let rows := concatRows y.data.length rs
          let s := y.shape ++ x.shape ++ [2]
          if rows.flatten.length ≠ s.prod then .error (.value "cannot reshape array") else .ok ⟨s, rows.flatten⟩

end Zoidberg
