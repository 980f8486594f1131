import Verif.Model.MakeMaps
import Verif.Props.Grid

/-! # The tracing loops of `make_maps` -/

set_option linter.unusedSectionVars false

namespace Zoidberg

variable {K : Type} [Field K] [LinearOrder K] [IsStrictOrderedRing K] [FloorRing K]

theorem storeAll_eq (e : MmEnv K) (j : ℕ) (y : K) : ∀ (pss : List (PSlice K))
    (cs : List (ℕ → ℕ → K × K)) (ts : List (Option (MapPol K))),
    cs.length = pss.length → ts.length = pss.length → pss ≠ [] →
    ∃ a ps c t, storeAll e j y pss cs ts = some (a, ((storeSlice e j y ps c t).1,
        (storeSlice e j y ps c t).2, t), []) ∧ a.length + 1 = pss.length ∧
      pss[a.length]? = some ps ∧ cs[a.length]? = some c ∧ ts[a.length]? = some t ∧
      ∀ i < a.length, ∃ ps c t, pss[i]? = some ps ∧ cs[i]? = some c ∧ ts[i]? = some t ∧
        a[i]? = some (storeSlice e j y ps c t).1 := by
  intro pss
  induction pss with
  | nil => intro cs ts _ _ h; exact absurd rfl h
  | cons ps pss ih =>
    intro cs ts hc ht _
    cases cs with
    | nil => simp at hc
    | cons c cs =>
      cases ts with
      | nil => simp at ht
      | cons t ts =>
        simp only [List.length_cons, Nat.add_right_cancel_iff] at hc ht
        by_cases hp : pss = []
        · subst hp
          have hs : storeAll e j y [] cs ts = none := by unfold storeAll; rfl
          refine ⟨[], ps, c, t, ?_, rfl, rfl, rfl, rfl, by simp⟩
          simp only [storeAll]
        · obtain ⟨a, ps', c', t', h1, h2, h3, h4, h5, h6⟩ := ih cs ts hc ht hp
          refine ⟨(storeSlice e j y ps c t).1 :: a, ps', c', t', ?_, by simp [h2],
            by simpa using h3, by simpa using h4, by simpa using h5, ?_⟩
          · simp only [storeAll, h1]
          · intro i hi
            cases i with
            | zero => exact ⟨ps, c, t, rfl, rfl, rfl, rfl⟩
            | succ i =>
              simp only [List.length_cons, Nat.add_lt_add_iff_right] at hi
              obtain ⟨p1, p2, p3, q1, q2, q3, q4⟩ := h6 i hi
              exact ⟨p1, p2, p3, by simpa using q1, by simpa using q2, by simpa using q3,
                by simpa using q4⟩

/-- What the sub-sample arrays contain in plane `j` after `storeSamples`. -/
structure SamplesOk (e : MmEnv K) (nx nz : ℕ) (smp : Option (List (K × K × K))) (ns j : ℕ)
    (pol : MapPol K) (y yl : K) (ind : ℕ → ℕ → K × K) (t : Option (MapPol K)) (new : PSlice K) :
    Prop where
  single : ns = 1 → ∀ x z, new.xts (x, j, z) 0 = (ind x z).1 ∧ new.zts (x, j, z) 0 = (ind x z).2
  boundary : ns ≠ 1 → t = none → ∀ x z s, new.xts (x, j, z) s = -1 ∧ new.zts (x, j, z) s = -1
  many : ns ≠ 1 → ∀ tp, t = some tp → ∃ l, smp = some l ∧ ∀ (s : ℕ) (p : K × K × K), l[s]? = some p →
    ∃ coord, (e.follow nx nz (sampleStart pol nx nz p.1 p.2.1).1 (sampleStart pol nx nz p.1 p.2.1).2
        [y, yl])[1]? = some coord ∧
      ∀ x z, new.xts (x, j, z) s = (indicesOf e tp yl coord x z).1 ∧
        new.zts (x, j, z) s = (indicesOf e tp yl coord x z).2

/-- Body of the loop over samples. -/
def sampleStep (e : MmEnv K) (nx nz j : ℕ) (pol : MapPol K) (y yl : K) (tp : MapPol K)
    (ps : PSlice K) (p : (K × K × K) × ℕ) : Except Err (PSlice K) :=
  let start := sampleStart pol nx nz p.1.1 p.1.2.1
  match (e.follow nx nz start.1 start.2 [y, yl])[1]? with
  | none => .error (.index "coord[1, ...]")
  | some coord =>
    let ind := indicesOf e tp yl coord
    .ok { ps with
      xts := setPlane4 ps.xts j p.2 fun x z => (ind x z).1
      zts := setPlane4 ps.zts j p.2 fun x z => (ind x z).2 }

theorem sampleStep_loop (e : MmEnv K) (nx nz j : ℕ) (pol : MapPol K) (y yl : K) (tp : MapPol K) :
    ∀ (l : List (K × K × K)) (k : ℕ) (ps ps' : PSlice K),
      (l.zipIdx k).foldlM (sampleStep e nx nz j pol y yl tp) ps = .ok ps' →
      (ps'.offset = ps.offset ∧ ps'.R = ps.R ∧ ps'.Z = ps.Z ∧ ps'.xt = ps.xt ∧ ps'.zt = ps.zt) ∧
      (∀ c s, c.2.1 ≠ j ∨ s < k → ps'.xts c s = ps.xts c s ∧ ps'.zts c s = ps.zts c s) ∧
      ∀ (s : ℕ) (p : K × K × K), l[s]? = some p →
        ∃ coord, (e.follow nx nz (sampleStart pol nx nz p.1 p.2.1).1
            (sampleStart pol nx nz p.1 p.2.1).2 [y, yl])[1]? = some coord ∧
          ∀ x z, ps'.xts (x, j, z) (k + s) = (indicesOf e tp yl coord x z).1 ∧
            ps'.zts (x, j, z) (k + s) = (indicesOf e tp yl coord x z).2 := by
  intro l
  induction l with
  | nil =>
    intro k ps ps' h
    have : ps = ps' := by simpa [pure, Except.pure] using h
    subst this
    exact ⟨⟨rfl, rfl, rfl, rfl, rfl⟩, fun c s _ => ⟨rfl, rfl⟩, by simp⟩
  | cons p l ih =>
    intro k ps ps' h
    rw [List.zipIdx_cons, List.foldlM_cons] at h
    cases hs : sampleStep e nx nz j pol y yl tp ps (p, k) with
    | error err => rw [hs] at h; simp [bind, Except.bind] at h
    | ok q =>
      rw [hs] at h
      have h : (l.zipIdx (k + 1)).foldlM (sampleStep e nx nz j pol y yl tp) q = .ok ps' := h
      obtain ⟨i1, i2, i3⟩ := ih (k + 1) q ps' h
      unfold sampleStep at hs
      simp only at hs
      split at hs
      · simp at hs
      · rename_i coord hcoord
        injection hs with hs
        have e1 : q.offset = ps.offset ∧ q.R = ps.R ∧ q.Z = ps.Z ∧ q.xt = ps.xt ∧ q.zt = ps.zt := by
          rw [← hs]; exact ⟨rfl, rfl, rfl, rfl, rfl⟩
        have e2 : q.xts = setPlane4 ps.xts j k fun x z => (indicesOf e tp yl coord x z).1 := by
          rw [← hs]
        have e3 : q.zts = setPlane4 ps.zts j k fun x z => (indicesOf e tp yl coord x z).2 := by
          rw [← hs]
        refine ⟨⟨i1.1.trans e1.1, i1.2.1.trans e1.2.1, i1.2.2.1.trans e1.2.2.1,
          i1.2.2.2.1.trans e1.2.2.2.1, i1.2.2.2.2.trans e1.2.2.2.2⟩, ?_, ?_⟩
        · intro c s hcs
          have hne : ¬ (c.2.1 = j ∧ s = k) := by
            rintro ⟨a, b⟩
            rcases hcs with h | h
            · exact h a
            · omega
          obtain ⟨f1, f2⟩ := i2 c s (by rcases hcs with h | h; exacts [Or.inl h, Or.inr (by omega)])
          rw [f1, f2, e2, e3]
          unfold setPlane4
          rw [if_neg hne, if_neg hne]
          exact ⟨rfl, rfl⟩
        · intro s p' hp'
          cases s with
          | zero =>
            have : p = p' := by simpa using hp'
            subst this
            refine ⟨coord, hcoord, ?_⟩
            intro x z
            obtain ⟨f1, f2⟩ := i2 (x, j, z) k (Or.inr (by omega))
            rw [Nat.add_zero, f1, f2, e2, e3]
            unfold setPlane4
            rw [if_pos ⟨rfl, rfl⟩, if_pos ⟨rfl, rfl⟩]
            exact ⟨rfl, rfl⟩
          | succ s =>
            obtain ⟨coord', g1, g2⟩ := i3 s p' (by simpa using hp')
            refine ⟨coord', g1, ?_⟩
            intro x z
            have := g2 x z
            rwa [show k + 1 + s = k + (s + 1) by omega] at this

theorem storeSamples_ok (e : MmEnv K) (nx nz : ℕ) (smp : Option (List (K × K × K))) (ns j : ℕ)
    (pol : MapPol K) (y yl : K) (ps : PSlice K) (ind : ℕ → ℕ → K × K) (t : Option (MapPol K))
    (new : PSlice K) (h : storeSamples e nx nz smp ns j pol y yl ps ind t = .ok new) :
    SamplesOk e nx nz smp ns j pol y yl ind t new ∧
    (new.offset = ps.offset ∧ new.R = ps.R ∧ new.Z = ps.Z ∧ new.xt = ps.xt ∧ new.zt = ps.zt) ∧
    ∀ c s, c.2.1 ≠ j → new.xts c s = ps.xts c s ∧ new.zts c s = ps.zts c s := by
  unfold storeSamples at h
  by_cases h1 : ns = 1
  · rw [if_pos h1] at h
    injection h with h
    subst h
    refine ⟨⟨?_, ?_, ?_⟩, ⟨rfl, rfl, rfl, rfl, rfl⟩, ?_⟩
    · intro _ x z; simp [setPlane4]
    · intro hn; exact absurd h1 hn
    · intro hn; exact absurd h1 hn
    · intro c s hc; simp [setPlane4, hc]
  · rw [if_neg h1] at h
    cases t with
    | none =>
      simp only at h
      injection h with h
      subst h
      refine ⟨⟨fun hn => absurd hn h1, ?_, ?_⟩, ⟨rfl, rfl, rfl, rfl, rfl⟩, ?_⟩
      · intro _ _ x z s; simp
      · intro _ tp htp; simp at htp
      · intro c s hc; simp [hc]
    | some tp =>
      cases smp with
      | none => simp at h
      | some l =>
        simp only at h
        have h : (l.zipIdx 0).foldlM (sampleStep e nx nz j pol y yl tp) ps = .ok new := h
        obtain ⟨a, b, c⟩ := sampleStep_loop e nx nz j pol y yl tp l 0 ps new h
        refine ⟨⟨fun hn => absurd hn h1, ?_, ?_⟩, a, fun c s hc => b c s (Or.inl hc)⟩
        · intro _ ht; simp at ht
        · intro _ tp' ht
          injection ht with ht
          subst ht
          refine ⟨l, rfl, ?_⟩
          intro s p hp
          obtain ⟨coord, g1, g2⟩ := c s p hp
          refine ⟨coord, g1, ?_⟩
          intro x z
          have := g2 x z
          rwa [Nat.zero_add] at this

/-- The tracer returns one set of positions for every requested `y`. -/
def FollowOk (e : MmEnv K) : Prop :=
  ∀ n m R Z ys, (e.follow n m R Z ys).length = ys.length

/-- The indices belonging to a traced plane. -/
def indexOf (e : MmEnv K) (yl : K) (t : Option (MapPol K)) (coord : ℕ → ℕ → K × K) : ℕ → ℕ → K × K :=
  match t with
  | none => fun _ _ => (-1, -1)
  | some p => indicesOf e p yl coord

/-- What slice `i` (of the offsets `os`) contains in plane `j`. -/
def Filled (e : MmEnv K) (nx nz : ℕ) (smp : Option (List (K × K × K))) (ns : ℕ)
    (os : List (PyNum K)) (j i : ℕ) (ps : PSlice K) : Prop :=
  ∃ pol y targets coord t, e.plane j = .ok (pol, y) ∧
    os.mapM (fun o => e.grid.getPoloidalGrid ((j : K) + o.val)) = .ok targets ∧
    (e.follow nx nz pol.R pol.Z (y :: targets.map (·.2)))[i + 1]? = some coord ∧
    targets[i]? = some t ∧
    (∀ x z, ps.R (x, j, z) = (coord x z).1 ∧ ps.Z (x, j, z) = (coord x z).2 ∧
      ps.xt (x, j, z) = (indexOf e ((targets.map (·.2)).getLastD y) t.1 coord x z).1 ∧
      ps.zt (x, j, z) = (indexOf e ((targets.map (·.2)).getLastD y) t.1 coord x z).2) ∧
    (i + 1 < os.length → ∀ x z s, ps.xts (x, j, z) s = 0 ∧ ps.zts (x, j, z) s = 0) ∧
    (i + 1 = os.length → SamplesOk e nx nz smp ns j pol y ((targets.map (·.2)).getLastD y)
      (indexOf e ((targets.map (·.2)).getLastD y) t.1 coord) t.1 ps)

theorem mapM_length {A B : Type} {f : A → Except Err B} : ∀ {l : List A} {r : List B},
    l.mapM f = .ok r → r.length = l.length := by
  intro l
  induction l with
  | nil => intro r h; simp [pure, Except.pure] at h; subst h; rfl
  | cons a t ih =>
    intro r h
    rw [List.mapM_cons] at h
    cases ha : f a with
    | error err => rw [ha] at h; simp [bind, Except.bind] at h
    | ok b =>
      cases ht : t.mapM f with
      | error err => rw [ha, ht] at h; simp [bind, Except.bind] at h
      | ok bs =>
        rw [ha, ht] at h
        simp [bind, Except.bind, pure, Except.pure] at h
        subst h
        simp [ih ht]

theorem mapM_getElem? {A B : Type} {f : A → Except Err B} : ∀ {l : List A} {r : List B},
    l.mapM f = .ok r → ∀ (i : ℕ) (a : A), l[i]? = some a → ∃ b, r[i]? = some b ∧ f a = .ok b := by
  intro l
  induction l with
  | nil => intro r _ i a h; simp at h
  | cons a t ih =>
    intro r h i a' hi
    rw [List.mapM_cons] at h
    cases ha : f a with
    | error err => rw [ha] at h; simp [bind, Except.bind] at h
    | ok b =>
      cases ht : t.mapM f with
      | error err => rw [ha, ht] at h; simp [bind, Except.bind] at h
      | ok bs =>
        rw [ha, ht] at h
        simp [bind, Except.bind, pure, Except.pure] at h
        subst h
        cases i with
        | zero =>
          have : a = a' := by simpa using hi
          subst this
          exact ⟨b, rfl, ha⟩
        | succ i =>
          obtain ⟨b', h1, h2⟩ := ih ht i a' (by simpa using hi)
          exact ⟨b', by simpa using h1, h2⟩

/-- One plane of the tracing loop. -/
theorem tracePlane_ok (e : MmEnv K) (hf : FollowOk e) (nx nz : ℕ) (smp : Option (List (K × K × K)))
    (ns : ℕ) (os : List (PyNum K)) (hne : os ≠ []) (pss L : List (PSlice K)) (j : ℕ)
    (ho : pss.map (·.offset) = os) (h : tracePlane e nx nz smp ns pss j = .ok L) :
    L.map (·.offset) = os ∧
    ∀ (i : ℕ) (new : PSlice K), L[i]? = some new → ∃ ps, pss[i]? = some ps ∧
      (∀ c, c.2.1 ≠ j → new.R c = ps.R c ∧ new.Z c = ps.Z c ∧ new.xt c = ps.xt c ∧
        new.zt c = ps.zt c ∧ ∀ s, new.xts c s = ps.xts c s ∧ new.zts c s = ps.zts c s) ∧
      ((∀ x z s, ps.xts (x, j, z) s = 0 ∧ ps.zts (x, j, z) s = 0) →
        Filled e nx nz smp ns os j i new) := by
  unfold tracePlane at h
  cases hp : e.plane j with
  | error err => rw [hp] at h; simp at h
  | ok py =>
    obtain ⟨pol, y⟩ := py
    rw [hp] at h
    simp only at h
    have hm : pss.mapM (fun ps => e.grid.getPoloidalGrid ((j : K) + ps.offset.val)) =
        os.mapM (fun o => e.grid.getPoloidalGrid ((j : K) + o.val)) := by
      rw [← ho, List.mapM_map]; rfl
    rw [hm] at h
    cases ht : os.mapM (fun o => e.grid.getPoloidalGrid ((j : K) + o.val)) with
    | error err => rw [ht] at h; simp at h
    | ok targets =>
      rw [ht] at h
      simp only at h
      have hlo : os.length = pss.length := by rw [← ho]; simp
      have hlt : targets.length = pss.length := by rw [mapM_length ht, hlo]
      have hlc : ((e.follow nx nz pol.R pol.Z (y :: targets.map (·.2))).drop 1).length =
          pss.length := by
        rw [List.length_drop, hf]; simp [hlt]
      have hpne : pss ≠ [] := by
        rintro rfl
        apply hne
        rw [← ho]; rfl
      obtain ⟨a, ps, c, t, s1, s2, s3, s4, s5, s6⟩ := storeAll_eq e j ((targets.map (·.2)).getLastD y)
        pss _ (targets.map (·.1)) hlc (by simp [hlt]) hpne
      rw [s1] at h
      simp only at h
      cases hs : storeSamples e nx nz smp ns j pol y ((targets.map (·.2)).getLastD y)
          (storeSlice e j ((targets.map (·.2)).getLastD y) ps c t).1
          (storeSlice e j ((targets.map (·.2)).getLastD y) ps c t).2 t with
      | error err => rw [hs] at h; simp [Except.map] at h
      | ok new =>
        rw [hs] at h
        simp only [Except.map] at h
        injection h with h
        obtain ⟨q1, q2, q3⟩ := storeSamples_ok _ _ _ _ _ _ _ _ _ _ _ _ _ hs
        have key : ∀ (i : ℕ) (nw : PSlice K), L[i]? = some nw → ∃ ps c t, pss[i]? = some ps ∧
            (e.follow nx nz pol.R pol.Z (y :: targets.map (·.2)))[i + 1]? = some c ∧
            (targets.map (·.1))[i]? = some t ∧
            ((i < a.length ∧ nw = (storeSlice e j ((targets.map (·.2)).getLastD y) ps c t).1) ∨
             (i = a.length ∧ nw = new ∧
              storeSamples e nx nz smp ns j pol y ((targets.map (·.2)).getLastD y)
                (storeSlice e j ((targets.map (·.2)).getLastD y) ps c t).1
                (storeSlice e j ((targets.map (·.2)).getLastD y) ps c t).2 t = .ok new)) := by
          intro i nw hi
          rw [← h] at hi
          rcases Nat.lt_trichotomy i a.length with hlt' | heq | hgt
          · rw [List.getElem?_append_left hlt'] at hi
            obtain ⟨p1, p2, p3, r1, r2, r3, r4⟩ := s6 i hlt'
            rw [r4] at hi
            injection hi with hi
            refine ⟨p1, p2, p3, r1, ?_, r3, Or.inl ⟨hlt', hi.symm⟩⟩
            rw [List.getElem?_drop] at r2
            rw [Nat.add_comm]; exact r2
          · subst heq
            rw [List.getElem?_append_right (le_refl _)] at hi
            simp only [Nat.sub_self, List.getElem?_cons_zero] at hi
            injection hi with hi
            refine ⟨ps, c, t, s3, ?_, s5, Or.inr ⟨rfl, hi.symm, hs⟩⟩
            rw [List.getElem?_drop] at s4
            rw [Nat.add_comm]; exact s4
          · rw [List.getElem?_eq_none (by simp; omega)] at hi
            simp at hi
        have hLlen : L.length = pss.length := by rw [← h]; simp [s2]
        refine ⟨?_, ?_⟩
        · refine List.ext_getElem? ?_
          intro i
          rw [← ho, List.getElem?_map, List.getElem?_map]
          cases hLi : L[i]? with
          | none =>
            have : L.length ≤ i := List.getElem?_eq_none_iff.1 hLi
            rw [List.getElem?_eq_none (by omega)]
          | some nw =>
            obtain ⟨ps', c', t', h1, _, _, h4⟩ := key i nw hLi
            rw [h1]
            simp only [Option.map_some]
            rcases h4 with ⟨_, rfl⟩ | ⟨_, rfl, hs'⟩
            · rfl
            · obtain ⟨_, ⟨w, _⟩, _⟩ := storeSamples_ok _ _ _ _ _ _ _ _ _ _ _ _ _ hs'
              rw [w]; rfl
        · intro i nw hi
          obtain ⟨ps', c', t', h1, h2, h3, h4⟩ := key i nw hi
          refine ⟨ps', h1, ?_, ?_⟩
          · intro cc hcc
            rcases h4 with ⟨_, rfl⟩ | ⟨_, rfl, hs'⟩
            · simp [storeSlice, setSlice, hcc]
            · obtain ⟨_, ⟨_, w1, w2, w3, w4⟩, w5⟩ := storeSamples_ok _ _ _ _ _ _ _ _ _ _ _ _ _ hs'
              rw [w1, w2, w3, w4]
              refine ⟨?_, ?_, ?_, ?_, fun s => w5 cc s hcc⟩ <;> simp [storeSlice, setSlice, hcc]
          · intro hz
            rw [List.getElem?_map] at h3
            obtain ⟨tt, ht1, ht2⟩ := Option.map_eq_some_iff.1 h3
            refine ⟨pol, y, targets, c', tt, hp, ht, h2, ht1, ?_, ?_, ?_⟩
            · intro x z
              rw [ht2]
              have hind : (storeSlice e j ((targets.map (·.2)).getLastD y) ps' c' t').2 =
                  indexOf e ((targets.map (·.2)).getLastD y) t' c' := by
                unfold storeSlice indexOf
                cases t' <;> rfl
              have hst : ∀ nw : PSlice K,
                  nw.R = (storeSlice e j ((targets.map (·.2)).getLastD y) ps' c' t').1.R →
                  nw.Z = (storeSlice e j ((targets.map (·.2)).getLastD y) ps' c' t').1.Z →
                  nw.xt = (storeSlice e j ((targets.map (·.2)).getLastD y) ps' c' t').1.xt →
                  nw.zt = (storeSlice e j ((targets.map (·.2)).getLastD y) ps' c' t').1.zt →
                  nw.R (x, j, z) = (c' x z).1 ∧ nw.Z (x, j, z) = (c' x z).2 ∧
                  nw.xt (x, j, z) =
                    (indexOf e ((targets.map (·.2)).getLastD y) t' c' x z).1 ∧
                  nw.zt (x, j, z) =
                    (indexOf e ((targets.map (·.2)).getLastD y) t' c' x z).2 := by
                intro nw a1 a2 a3 a4
                rw [a1, a2, a3, a4, ← hind]
                simp [storeSlice, setSlice]
              rcases h4 with ⟨_, rfl⟩ | ⟨_, rfl, hs'⟩
              · exact hst _ rfl rfl rfl rfl
              · obtain ⟨_, ⟨_, w1, w2, w3, w4⟩, _⟩ := storeSamples_ok _ _ _ _ _ _ _ _ _ _ _ _ _ hs'
                exact hst _ w1 w2 w3 w4
            · intro hi' x z s
              rcases h4 with ⟨_, rfl⟩ | ⟨hia, _, _⟩
              · exact hz x z s
              · omega
            · intro hi'
              rcases h4 with ⟨hia, _⟩ | ⟨_, rfl, hs'⟩
              · omega
              · have hind : (storeSlice e j ((targets.map (·.2)).getLastD y) ps' c' t').2 =
                    indexOf e ((targets.map (·.2)).getLastD y) t' c' := by
                  unfold storeSlice indexOf
                  cases t' <;> rfl
                have := (storeSamples_ok _ _ _ _ _ _ _ _ _ _ _ _ _ hs').1
                rw [hind] at this
                rw [ht2]
                exact this

/-- A property of plane `j` depends on that plane only. -/
theorem Filled.congr {e : MmEnv K} {nx nz : ℕ} {smp : Option (List (K × K × K))} {ns : ℕ}
    {os : List (PyNum K)} {j i : ℕ} {ps ps' : PSlice K} (h : Filled e nx nz smp ns os j i ps)
    (hc : ∀ c : Cell, c.2.1 = j → ps'.R c = ps.R c ∧ ps'.Z c = ps.Z c ∧ ps'.xt c = ps.xt c ∧
        ps'.zt c = ps.zt c ∧ ∀ s, ps'.xts c s = ps.xts c s ∧ ps'.zts c s = ps.zts c s) :
    Filled e nx nz smp ns os j i ps' := by
  obtain ⟨pol, y, targets, coord, t, h1, h2, h3, h4, h5, h6, h7⟩ := h
  have cc : ∀ x z, ps'.R (x, j, z) = ps.R (x, j, z) ∧ ps'.Z (x, j, z) = ps.Z (x, j, z) ∧
      ps'.xt (x, j, z) = ps.xt (x, j, z) ∧ ps'.zt (x, j, z) = ps.zt (x, j, z) ∧
      ∀ s, ps'.xts (x, j, z) s = ps.xts (x, j, z) s ∧ ps'.zts (x, j, z) s = ps.zts (x, j, z) s :=
    fun x z => hc (x, j, z) rfl
  refine ⟨pol, y, targets, coord, t, h1, h2, h3, h4, ?_, ?_, ?_⟩
  · intro x z
    rw [(cc x z).1, (cc x z).2.1, (cc x z).2.2.1, (cc x z).2.2.2.1]
    exact h5 x z
  · intro hi x z s
    rw [((cc x z).2.2.2.2 s).1, ((cc x z).2.2.2.2 s).2]
    exact h6 hi x z s
  · intro hi
    obtain ⟨k1, k2, k3⟩ := h7 hi
    refine ⟨?_, ?_, ?_⟩
    · intro hn x z
      rw [((cc x z).2.2.2.2 0).1, ((cc x z).2.2.2.2 0).2]
      exact k1 hn x z
    · intro hn ht x z s
      rw [((cc x z).2.2.2.2 s).1, ((cc x z).2.2.2.2 s).2]
      exact k2 hn ht x z s
    · intro hn tp ht
      obtain ⟨l, hl, hs⟩ := k3 hn tp ht
      refine ⟨l, hl, ?_⟩
      intro s p hp
      obtain ⟨coord', g1, g2⟩ := hs s p hp
      refine ⟨coord', g1, ?_⟩
      intro x z
      rw [((cc x z).2.2.2.2 s).1, ((cc x z).2.2.2.2 s).2]
      exact g2 x z

/-- All planes of one direction. -/
theorem traceDir_ok (e : MmEnv K) (hf : FollowOk e) (nx nz : ℕ) (smp : Option (List (K × K × K)))
    (ns : ℕ) (os : List (PyNum K)) (hne : os ≠ []) : ∀ (n : ℕ) (L : List (PSlice K)),
    (List.range n).foldlM (tracePlane e nx nz smp ns) (os.map PSlice.zero) = .ok L →
    L.map (·.offset) = os ∧ ∀ (i : ℕ) (ps : PSlice K), L[i]? = some ps →
      (∀ c : Cell, n ≤ c.2.1 → ∀ s, ps.xts c s = 0 ∧ ps.zts c s = 0) ∧
      ∀ j < n, Filled e nx nz smp ns os j i ps := by
  intro n
  induction n with
  | zero =>
    intro L h
    have : os.map PSlice.zero = L := by simpa [pure, Except.pure] using h
    subst this
    refine ⟨by simp [PSlice.zero, Function.comp_def], ?_⟩
    intro i ps hi
    rw [List.getElem?_map] at hi
    obtain ⟨o, _, rfl⟩ := Option.map_eq_some_iff.1 hi
    exact ⟨fun c _ s => ⟨rfl, rfl⟩, by simp⟩
  | succ n ih =>
    intro L h
    rw [List.range_succ, List.foldlM_append] at h
    cases hL : (List.range n).foldlM (tracePlane e nx nz smp ns) (os.map PSlice.zero) with
    | error err => rw [hL] at h; simp [bind, Except.bind] at h
    | ok L0 =>
      rw [hL] at h
      have h : tracePlane e nx nz smp ns L0 n = .ok L := by
        change (tracePlane e nx nz smp ns L0 n).bind (fun x => Except.ok x) = .ok L at h
        cases hx : tracePlane e nx nz smp ns L0 n with
        | error err => rw [hx] at h; simp [Except.bind] at h
        | ok v => rw [hx] at h; simpa [Except.bind] using h
      obtain ⟨ih1, ih2⟩ := ih L0 hL
      obtain ⟨s1, s2⟩ := tracePlane_ok e hf nx nz smp ns os hne L0 L n ih1 h
      refine ⟨s1, ?_⟩
      intro i ps hi
      obtain ⟨ps0, h0, hframe, hfill⟩ := s2 i ps hi
      obtain ⟨z1, z2⟩ := ih2 i ps0 h0
      refine ⟨?_, ?_⟩
      · intro c hc s
        obtain ⟨_, _, _, _, w⟩ := hframe c (by omega)
        rw [(w s).1, (w s).2]
        exact z1 c (by omega) s
      · intro j hj
        rcases Nat.lt_succ_iff_lt_or_eq.1 hj with hj | rfl
        · exact (z2 j hj).congr fun c hc => hframe c (by omega)
        · exact hfill fun x z s => z1 (x, j, z) (le_refl _) s

end Zoidberg
