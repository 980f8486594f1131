import Verif.Model.CachingTracer
import Verif.Props.FieldTracer

/-!
# C73, C132: `CachingFieldTracer`
-/

set_option linter.unusedSectionVars false

namespace Zoidberg

variable {K W : Type}

/-- Every file holds what the tracer gives for all arguments (among `S`) with that name. -/
def FilesRight (key : TraceArgs K → String) (tracer : TraceArgs K → W → Except Err (FArr K)) (kw : W) (S : TraceArgs K → Prop)
    (files : Dict (List K)) : Prop :=
  ∀ a, S a → ∀ dat, files (key a) = some dat → ∃ r, tracer a kw = .ok r ∧ r.data = dat

theorem cachedFollow_right {key : TraceArgs K → String} {tracer : TraceArgs K → W → Except Err (FArr K)} {kw : W} {S : TraceArgs K → Prop}
    (hkey : ∀ a b, S a → S b → key a = key b → a = b)
    (hshape : ∀ a, S a → ∀ r, tracer a kw = .ok r → r.shape = guessShape a ∧ r.Ok)
    {files : Dict (List K)} (hf : FilesRight key tracer kw S files) {a : TraceArgs K} (ha : S a) :
    (cachedFollow key tracer files a kw).2 = tracer a kw ∧ FilesRight key tracer kw S (cachedFollow key tracer files a kw).1 := by
  unfold cachedFollow
  cases hk : files (key a) with
  | some dat =>
    obtain ⟨r, h1, h2⟩ := hf a ha dat hk
    obtain ⟨h3, h4⟩ := hshape a ha r h1
    refine ⟨?_, hf⟩
    dsimp only
    rw [h1, ← h2, if_neg, ← h3]
    rw [not_not, ← h3]
    exact h4
  | none =>
    cases ht : tracer a kw with
    | error e => exact ⟨rfl, hf⟩
    | ok r =>
      obtain ⟨h3, h4⟩ := hshape a ha r ht
      dsimp only
      rw [if_neg (by rw [h3]; simp)]
      refine ⟨rfl, ?_⟩
      intro b hb dat hdat
      unfold Dict.set at hdat
      by_cases hbk : key b = key a
      · have := hkey b a hb ha hbk
        subst this
        rw [Function.update_self] at hdat
        injection hdat with hdat
        exact ⟨r, ht, hdat⟩
      · rw [Function.update_of_ne hbk] at hdat
        exact hf b hb dat hdat

/-- **C73 (partial).** Over any history of calls with the same keyword arguments, with different names of the files for different arguments, and
for arguments for which the tracer gives the guessed shape, every call gives what the wrapped tracer gives.  Missing: other
shapes, that is scalars and a single `x` for many `z` (`C73_fails_scalar`, `C73_fails_broadcast`). -/
theorem C73_transparent_partial (key : TraceArgs K → String) (tracer : TraceArgs K → W → Except Err (FArr K)) (kw : W) (S : TraceArgs K → Prop)
    (hkey : ∀ a b, S a → S b → key a = key b → a = b)
    (hshape : ∀ a, S a → ∀ r, tracer a kw = .ok r → r.shape = guessShape a ∧ r.Ok)
    (files : Dict (List K)) (hf : FilesRight key tracer kw S files) (calls : List (TraceArgs K)) (hc : ∀ a ∈ calls, S a) :
    cachedCalls key tracer files (calls.map fun a => (a, kw)) = calls.map fun a => tracer a kw := by
  induction calls generalizing files with
  | nil => rfl
  | cons a l ih =>
    obtain ⟨h1, h2⟩ := cachedFollow_right hkey hshape hf (hc a (by simp))
    rw [List.map_cons, cachedCalls, List.map_cons]
    dsimp only
    rw [h1, ih _ h2 fun b hb => hc b (by simp [hb])]

/-- The tracer of the code gives the guessed shape if `x` and `z` have the same shape with at least one axis. -/
theorem C73_shape [Zero K] (ode : List K → List K → Except Err (List (List K))) (a : TraceArgs K) (h : a.x.shape = a.z.shape) (hn : a.x.shape ≠ []) (r : FArr K)
    (hr : followFieldLines ode a.x a.z a.y = .ok r) : r.shape = guessShape a ∧ r.Ok := by
  unfold followFieldLines at hr
  have e1 : a.x.atleast1d = a.x := by unfold FArr.atleast1d; rw [if_neg hn]
  have e2 : a.z.atleast1d = a.z := by unfold FArr.atleast1d; rw [if_neg (by rw [← h]; exact hn)]
  have hc : ∀ c, checkInputs a.x a.z a.y = .ok c → c = (a.x, a.z, a.y) ∧ a.y.shape = [a.y.len] := by
    intro c hc
    unfold checkInputs at hc
    simp only [e1, e2, h, ne_eq, not_true_eq_false, if_false] at hc
    split_ifs at hc with h1 h2
    injection hc with hc
    subst hc
    rcases y_cases a.y with ⟨⟨n, h3, h4⟩, h5, -, -⟩ | h6
    · rw [h5]
      refine ⟨rfl, ?_⟩
      unfold FArr.len
      rw [h4]
      rfl
    · exfalso
      rcases h6.2 with h7 | h7
      · exact h1 h7
      · exact h2 h7
  cases hck : checkInputs a.x a.z a.y with
  | error e => rw [hck] at hr; cases hr
  | ok c =>
    obtain ⟨rfl, hy⟩ := hc c hck
    rw [hck] at hr
    simp only [Except.bind] at hr
    split_ifs at hr with h8
    cases htr : traceChunks ode (a.x.data.zip a.z.data) a.y.data with
    | error e => rw [htr] at hr; cases hr
    | ok rows =>
      rw [htr] at hr
      simp only at hr
      split_ifs at hr with h9
      injection hr with hr
      subst hr
      rw [not_not] at h9
      refine ⟨?_, h9⟩
      simp only
      rw [hy]
      rfl

/-- What the statement says for the calls with `S`. -/
def Transparent (S : (TraceArgs ℚ → String) → List (TraceArgs ℚ × ℚ) → Prop) : Prop :=
  ∀ (key : TraceArgs ℚ → String) (tracer : TraceArgs ℚ → ℚ → Except Err (FArr ℚ)) (calls : List (TraceArgs ℚ × ℚ)), S key calls →
    cachedCalls key tracer (fun _ => none) calls = calls.map fun c => tracer c.1 c.2

/-- Different arguments have different names. -/
def NamesDiffer (key : TraceArgs ℚ → String) (calls : List (TraceArgs ℚ × ℚ)) : Prop :=
  ∀ c ∈ calls, ∀ d ∈ calls, key c.1 = key d.1 → c.1 = d.1

/-- The keyword arguments are always the same. -/
def SameKwargs (calls : List (TraceArgs ℚ × ℚ)) : Prop := ∀ c ∈ calls, ∀ d ∈ calls, c.2 = d.2

/-- A tracer whose error is the tolerance. -/
def sloppy (a : TraceArgs ℚ) (rtol : ℚ) : Except Err (FArr ℚ) :=
  followFieldLines (fun p ys => .ok (ys.map fun _ => p.map (· + rtol))) a.x a.z a.y

/-- One point and two planes. -/
def lineArgs (x z : ℚ) : TraceArgs ℚ := ⟨⟨[1], [x]⟩, ⟨[1], [z]⟩, ⟨[2], [0, 1]⟩⟩

theorem not_transparent {S : (TraceArgs ℚ → String) → List (TraceArgs ℚ × ℚ) → Prop} (key : TraceArgs ℚ → String) (calls : List (TraceArgs ℚ × ℚ))
    (h : S key calls) (hd : (cachedCalls key sloppy (fun _ => none) calls).map Except.toOption ≠ calls.map fun c => (sloppy c.1 c.2).toOption) :
    ¬ Transparent S := by
  intro ht
  have := ht key sloppy calls h
  rw [this, List.map_map] at hd
  exact hd rfl

/-- **C73 (refutation).** With another `rtol` the old result comes back. -/
theorem C73_fails_kwargs : ¬ Transparent fun key calls => NamesDiffer key calls := by
  refine not_transparent (fun _ => "") [(lineArgs 0 0, 0), (lineArgs 0 0, 1)] ?_ (by decide +kernel)
  intro c hc d hd _
  simp at hc hd
  rcases hc with rfl | rfl <;> rcases hd with rfl | rfl <;> rfl

/-- **C73 (refutation).** If two names are the same, the result for other arguments comes back. -/
theorem C73_fails_names : ¬ Transparent fun _ calls => SameKwargs calls := by
  refine not_transparent (fun _ => "") [(lineArgs 0 0, 0), (lineArgs 1 0, 0)] ?_ (by decide +kernel)
  intro c hc d hd
  simp at hc hd
  rcases hc with rfl | rfl <;> rcases hd with rfl | rfl <;> rfl

/-- **C73 (refutation).** A scalar (an array without axes) raises an `AssertionError` the first time. -/
theorem C73_fails_scalar : ¬ Transparent fun key calls => NamesDiffer key calls ∧ SameKwargs calls := by
  refine not_transparent (fun _ => "") [(⟨⟨[], [0]⟩, ⟨[], [0]⟩, ⟨[2], [0, 1]⟩⟩, 0)] ?_ (by decide +kernel)
  constructor
  · intro c hc d hd _; simp at hc hd; rw [hc, hd]
  · intro c hc d hd; simp at hc hd; rw [hc, hd]

/-- The second time there is a result of another shape. -/
theorem C73_fails_again : (cachedCalls (fun _ => "") sloppy (fun _ => none)
    [(⟨⟨[], [0]⟩, ⟨[], [0]⟩, ⟨[2], [0, 1]⟩⟩, 0), (⟨⟨[], [0]⟩, ⟨[], [0]⟩, ⟨[2], [0, 1]⟩⟩, 0)]).map Except.toOption =
      [none, some ⟨[2, 2], [0, 0, 0, 0]⟩] ∧
    (sloppy ⟨⟨[], [0]⟩, ⟨[], [0]⟩, ⟨[2], [0, 1]⟩⟩ 0).toOption = some ⟨[2, 1, 2], [0, 0, 0, 0]⟩ := by decide +kernel

/-- **C73 (refutation).** One `x` for two `z` raises an exception each time. -/
theorem C73_fails_broadcast : ¬ Transparent fun key calls => NamesDiffer key calls ∧ SameKwargs calls ∧ ∀ c ∈ calls, c.1.x.shape ≠ [] := by
  refine not_transparent (fun _ => "") [(⟨⟨[1], [0]⟩, ⟨[2], [0, 1]⟩, ⟨[2], [0, 1]⟩⟩, 0)] ?_ (by decide +kernel)
  refine ⟨?_, ?_, ?_⟩
  · intro c hc d hd _; simp at hc hd; rw [hc, hd]
  · intro c hc d hd; simp at hc hd; rw [hc, hd]
  · intro c hc; simp at hc; rw [hc]; simp

/-- Three calls of which two are the same, for the tracer of the code. -/
example : cachedCalls (fun a => toString (a.x.data.getD 0 0).num) sloppy (fun _ => none) [(lineArgs 0 0, 0), (lineArgs 1 0, 0), (lineArgs 0 0, 0)] =
    [sloppy (lineArgs 0 0) 0, sloppy (lineArgs 1 0) 0, sloppy (lineArgs 0 0) 0] := by
  refine C73_transparent_partial _ sloppy 0 (fun a => a = lineArgs 0 0 ∨ a = lineArgs 1 0) ?_ ?_ _ (by intro a _ dat h; cases h) [lineArgs 0 0, lineArgs 1 0, lineArgs 0 0] ?_
  · rintro a b (rfl | rfl) (rfl | rfl) h
    · rfl
    · revert h; decide +kernel
    · revert h; decide +kernel
    · rfl
  · rintro a (rfl | rfl) r hr
    · exact C73_shape _ (lineArgs 0 0) rfl (by simp [lineArgs]) r hr
    · exact C73_shape _ (lineArgs 1 0) rfl (by simp [lineArgs]) r hr
  · intro a ha
    simp at ha
    rcases ha with rfl | rfl | rfl <;> simp

/-! ### The names -/

theorem intercalate_cons_cons {α : Type} (s : List α) (a b : List α) (l : List (List α)) :
    List.intercalate s (a :: b :: l) = a ++ s ++ List.intercalate s (b :: l) := by
  simp [List.intercalate, List.intersperse]

theorem intercalate_length_eq (w : ℕ) : ∀ l m : List (List Char), l.length = m.length → (∀ a ∈ l, a.length = w) → (∀ a ∈ m, a.length = w) →
    (List.intercalate ['-'] l).length = (List.intercalate ['-'] m).length
  | [], [], _, _, _ => rfl
  | [a], [b], _, ha, hb => by simp [List.intercalate, ha a, hb b]
  | a :: a' :: l, b :: b' :: m, h, ha, hb => by
    rw [intercalate_cons_cons, intercalate_cons_cons]
    simp only [List.length_append]
    rw [ha a (by simp), hb b (by simp), intercalate_length_eq w (a' :: l) (b' :: m) (by simpa using h) (fun c hc => ha c (by simp [hc])) fun c hc => hb c (by simp [hc])]
  | [], _ :: _, h, _, _ => by simp at h
  | _ :: _, [], h, _, _ => by simp at h
  | [_], _ :: _ :: _, h, _, _ => by simp at h
  | _ :: _ :: _, [_], h, _, _ => by simp at h

theorem intercalate_inj (w : ℕ) : ∀ l m : List (List Char), l.length = m.length → (∀ a ∈ l, a.length = w) → (∀ a ∈ m, a.length = w) →
    List.intercalate ['-'] l = List.intercalate ['-'] m → l = m
  | [], [], _, _, _, _ => rfl
  | [a], [b], _, _, _, h => by simpa [List.intercalate] using h
  | a :: a' :: l, b :: b' :: m, h, ha, hb, he => by
    rw [intercalate_cons_cons, intercalate_cons_cons, List.append_assoc, List.append_assoc] at he
    obtain ⟨h1, h2⟩ := List.append_inj he (by rw [ha a (by simp), hb b (by simp)])
    obtain ⟨-, h3⟩ := List.append_inj h2 rfl
    rw [h1, intercalate_inj w (a' :: l) (b' :: m) (by simpa using h) (fun c hc => ha c (by simp [hc])) (fun c hc => hb c (by simp [hc])) h3]
  | [], _ :: _, h, _, _, _ => by simp at h
  | _ :: _, [], h, _, _, _ => by simp at h
  | [_], _ :: _ :: _, h, _, _, _ => by simp at h
  | _ :: _ :: _, [_], h, _, _, _ => by simp at h

/-- What the statement says: with arrays of the same shapes, what is hashed determines the arguments, if different numbers are written
differently. -/
def TextRight (K : Type) : Prop :=
  ∀ (str : K → String) (a b : TraceArgs K), Function.Injective str → a.x.Ok → a.z.Ok → a.y.Ok → b.x.Ok → b.z.Ok → b.y.Ok →
    a.x.shape = b.x.shape → a.z.shape = b.z.shape → a.y.shape = b.y.shape → hashInput str a = hashInput str b → a = b

/-- **C132 (partial).** It does if all numbers are written with the same number of characters.  Missing: all others (`C132_fails`). -/
theorem C132_text_partial {K : Type} (str : K → String) (w : ℕ) (hw : ∀ k, (str k).toList.length = w) (a b : TraceArgs K) (hinj : Function.Injective str)
    (ax : a.x.Ok) (az : a.z.Ok) (ay : a.y.Ok) (bx : b.x.Ok) (bz : b.z.Ok) (bY : b.y.Ok) (sx : a.x.shape = b.x.shape) (sz : a.z.shape = b.z.shape)
    (sy : a.y.shape = b.y.shape) (h : hashInput str a = hashInput str b) : a = b := by
  have hinj' : Function.Injective fun k => (str k).toList := fun k k' e => hinj (String.toList_inj.1 e)
  have key : ∀ u v : FArr K, u.Ok → v.Ok → u.shape = v.shape →
      (List.intercalate ['-'] (u.data.map fun k => (str k).toList)).length = (List.intercalate ['-'] (v.data.map fun k => (str k).toList)).length ∧
      (List.intercalate ['-'] (u.data.map fun k => (str k).toList) = List.intercalate ['-'] (v.data.map fun k => (str k).toList) → u = v) := by
    intro u v hu hv hs
    have hl : (u.data.map fun k => (str k).toList).length = (v.data.map fun k => (str k).toList).length := by
      unfold FArr.Ok at hu hv
      rw [List.length_map, List.length_map, hu, hv, hs]
    have hm : ∀ l : List K, ∀ c ∈ l.map fun k => (str k).toList, c.length = w := by
      intro l c hc
      rw [List.mem_map] at hc
      obtain ⟨k, -, rfl⟩ := hc
      exact hw k
    refine ⟨intercalate_length_eq w _ _ hl (hm _) (hm _), fun he => ?_⟩
    have := hinj'.list_map (intercalate_inj w _ _ hl (hm _) (hm _) he)
    cases u; cases v
    simp only at hs this
    rw [hs, this]
  obtain ⟨lx, ex⟩ := key a.x b.x ax bx sx
  obtain ⟨lz, ez⟩ := key a.z b.z az bz sz
  obtain ⟨-, ey⟩ := key a.y b.y ay bY sy
  unfold hashInput at h
  simp only [List.flatMap_cons, List.flatMap_nil, List.append_nil] at h
  obtain ⟨h1, h2⟩ := List.append_inj h lx
  obtain ⟨h3, h4⟩ := List.append_inj h2 lz
  cases a; cases b
  simp only at ex ez ey h1 h3 h4
  rw [ex h1, ez h3, ey h4]

/-- Four numbers and what python writes for them. -/
inductive FourNumbers
  | one | two | twelve | oneHundredth
  deriving DecidableEq

/-- `str(np.float64(..))` of 1, 2, 12 and 1.01. -/
def FourNumbers.str : FourNumbers → String
  | one => "1.0"
  | two => "2.0"
  | twelve => "12.0"
  | oneHundredth => "1.01"

/-- **C132 (refutation).** There is nothing between the arrays: `x = 1.0, z = 12.0` and `x = 1.01, z = 2.0` give the same text. -/
theorem C132_fails : ¬ TextRight FourNumbers := by
  intro h
  have := h FourNumbers.str ⟨⟨[1], [.one]⟩, ⟨[1], [.twelve]⟩, ⟨[2], [.one, .two]⟩⟩ ⟨⟨[1], [.oneHundredth]⟩, ⟨[1], [.two]⟩, ⟨[2], [.one, .two]⟩⟩
    (by intro a b h; cases a <;> cases b <;> first | rfl | (revert h; decide)) rfl rfl rfl rfl rfl rfl rfl rfl rfl (by decide)
  revert this
  decide

/-- Digits are written with one character each. -/
example : ∀ k : Fin 10, (toString k.val).toList.length = 1 := by decide

end Zoidberg
