import Verif.Model.ModifyMapsMem
import Verif.Props.ModifyMaps

/-!
# C18, C281: `modify_maps` and the arrays of the caller

`modify_maps` changes the dictionary that it is given and returns it (C18), and it changes arrays
in that dictionary in place, so that whoever else holds them sees the change (C281).
-/

set_option linter.unusedSectionVars false

namespace Zoidberg.Weights

variable {K : Type} [Field K] [LinearOrder K] [IsStrictOrderedRing K] [FloorRing K]

/-- The objects of the dictionary at `d` are in memory, and no two names share one. -/
structure Own (w : Mem K) (d : ℕ) : Prop where
  used : ∀ k r, w.dicts d k = some r → r < w.next
  inj : ∀ k k' r, w.dicts d k = some r → w.dicts d k' = some r → k = k'

/-- The names of the arrays that `modify_maps` may change in place. -/
def changedNames (p : Bool) : List String :=
  if p then ["forward_xt_prime", "backward_xt_prime"] else
    ["forward_xt_primes", "forward_zt_primes", "backward_xt_primes", "backward_zt_primes"]

theorem read_put (w : Mem K) (d : ℕ) (h : Own w d) (k : String) (r : ℕ) (hk : w.dicts d k = some r)
    (v : Val K) : (w.put r v).read d = (w.read d).set k v := by
  funext k'
  show (w.dicts d k').map (Function.update w.objects r v) = Function.update (w.read d) k (some v) k'
  by_cases e : k' = k
  · subst e
    rw [hk, Function.update_self, Option.map_some, Function.update_self]
  · rw [Function.update_of_ne e]
    unfold Mem.read
    cases hr : w.dicts d k' with
    | none => rfl
    | some r' =>
      have : r' ≠ r := by
        rintro rfl
        exact e (h.inj _ _ _ hr hk)
      rw [Option.map_some, Option.map_some, Function.update_of_ne this]

theorem put_own (w : Mem K) (d : ℕ) (h : Own w d) (r : ℕ) (v : Val K) : Own (w.put r v) d :=
  ⟨h.used, h.inj⟩

theorem ref_of_get (w : Mem K) (d : ℕ) (k : String) (v : Val K) (h : Dict.get (w.read d) k = .ok v) :
    ∃ r, w.dicts d k = some r := by
  unfold Dict.get Mem.read at h
  cases hr : w.dicts d k with
  | none => rw [hr] at h; simp at h
  | some r => exact ⟨r, rfl⟩

theorem get3_ref (w : Mem K) (d : ℕ) (k : String) (x : (ℕ × ℕ × ℕ) × (Cell → K))
    (h : get3 (w.read d) k = .ok x) : ∃ r, w.dicts d k = some r := by
  unfold get3 at h
  cases hg : Dict.get (w.read d) k with
  | error e => rw [hg] at h; simp [bind, Except.bind] at h
  | ok v => exact ref_of_get w d k v hg

theorem get4_ref (w : Mem K) (d : ℕ) (k : String) (x : (ℕ × ℕ × ℕ) × ℕ × (Cell → ℕ → K))
    (h : get4 (w.read d) k = .ok x) : ∃ r, w.dicts d k = some r := by
  unfold get4 at h
  cases hg : Dict.get (w.read d) k with
  | error e => rw [hg] at h; simp [bind, Except.bind] at h
  | ok v => exact ref_of_get w d k v hg

/-- One pass over a direction changes the dictionary as `Model/Weights.lean` says, and nothing at
all if it raises. -/
theorem dirMem_spec (p : Bool) (mxg d : ℕ) (w : Mem K) (h : Own w d) (dir : String) :
    (∀ m, (if p then markDir mxg else filterDir mxg) (w.read d) dir = .ok m →
      ∃ w', dirMem p mxg d w dir = (w', .ok ()) ∧ w'.read d = m ∧ w'.dicts = w.dicts ∧
        w'.next = w.next) ∧
    ∀ e, (if p then markDir mxg else filterDir mxg) (w.read d) dir = .error e →
      dirMem p mxg d w dir = (w, .error e) := by
  cases p with
  | true =>
    simp only [if_true, dirMem]
    unfold markDir markDirMem
    cases h4 : get4 (w.read d) (dir ++ "_xt_primes") with
    | error e => simp [bind, Except.bind]
    | ok x =>
      obtain ⟨⟨nx, ny, nz⟩, n, xts⟩ := x
      cases h3 : get3 (w.read d) (dir ++ "_xt_prime") with
      | error e => simp [bind, Except.bind]
      | ok y =>
        obtain ⟨s, xt⟩ := y
        obtain ⟨r, hr⟩ := get3_ref w d _ _ h3
        simp only [bind, Except.bind, hr]
        constructor
        · intro m hm
          injection hm with hm
          exact ⟨_, rfl, by rw [← hm]; exact read_put w d h _ r hr _, rfl, rfl⟩
        · intro e he
          cases he
  | false =>
    simp only [Bool.false_eq_true, if_false, dirMem]
    unfold filterDir filterDirMem
    cases h4 : get4 (w.read d) (dir ++ "_xt_primes") with
    | error e => simp [bind, Except.bind]
    | ok x =>
      obtain ⟨⟨nx, ny, nz⟩, n, xts⟩ := x
      cases h3 : get3 (w.read d) (dir ++ "_xt_prime") with
      | error e => simp [bind, Except.bind]
      | ok y =>
        obtain ⟨s, xt⟩ := y
        cases h5 : get4 (w.read d) (dir ++ "_zt_primes") with
        | error e => simp [bind, Except.bind]
        | ok x' =>
          obtain ⟨s', n', zts⟩ := x'
          cases h6 : get3 (w.read d) (dir ++ "_zt_prime") with
          | error e => simp [bind, Except.bind]
          | ok y' =>
            obtain ⟨s'', zt⟩ := y'
            obtain ⟨rx, hrx⟩ := get4_ref w d _ _ h4
            obtain ⟨rz, hrz⟩ := get4_ref w d _ _ h5
            simp only [bind, Except.bind, hrx, hrz]
            constructor
            · intro m hm
              injection hm with hm
              refine ⟨_, rfl, ?_, rfl, rfl⟩
              rw [← hm, read_put _ d (put_own w d h rx _) (dir ++ "_zt_primes") rz hrz,
                read_put w d h (dir ++ "_xt_primes") rx hrx]
            · intro e he
              cases he

/-- One pass over a direction changes nothing but the arrays of that direction. -/
theorem dirMem_frame (p : Bool) (mxg d : ℕ) (w : Mem K) (dir : String) :
    (dirMem p mxg d w dir).1.dicts = w.dicts ∧ (dirMem p mxg d w dir).1.next = w.next ∧
    ∀ r, (∀ k ∈ (if p then [dir ++ "_xt_prime"] else [dir ++ "_xt_primes", dir ++ "_zt_primes"]),
      w.dicts d k ≠ some r) → (dirMem p mxg d w dir).1.objects r = w.objects r := by
  cases p with
  | true =>
    simp only [if_true, dirMem, List.mem_singleton, forall_eq]
    unfold markDirMem
    split
    · exact ⟨rfl, rfl, fun _ _ => rfl⟩
    · split
      · rename_i hr
        refine ⟨rfl, rfl, fun r' h => Function.update_of_ne ?_ _ _⟩
        rintro rfl
        exact h hr
      · exact ⟨rfl, rfl, fun _ _ => rfl⟩
      · exact ⟨rfl, rfl, fun _ _ => rfl⟩
  | false =>
    simp only [Bool.false_eq_true, if_false, dirMem]
    unfold filterDirMem
    split
    · exact ⟨rfl, rfl, fun _ _ => rfl⟩
    · split
      · exact ⟨rfl, rfl, fun _ _ => rfl⟩
      · split
        · exact ⟨rfl, rfl, fun _ _ => rfl⟩
        · split
          · exact ⟨rfl, rfl, fun _ _ => rfl⟩
          · split
            · rename_i rx rz hx hz
              refine ⟨rfl, rfl, fun r' h => ?_⟩
              have h1 : r' ≠ rx := by
                rintro rfl
                exact h _ (by simp) hx
              have h2 : r' ≠ rz := by
                rintro rfl
                exact h _ (by simp) hz
              exact (Function.update_of_ne h2 _ _).trans (Function.update_of_ne h1 _ _)
            · exact ⟨rfl, rfl, fun _ _ => rfl⟩

theorem addNew_frame (d : ℕ) (l : List (String × Val K)) (w : Mem K) :
    (∀ r < w.next, (l.foldl (Mem.addNew d) w).objects r = w.objects r) ∧
    ∀ d', d' ≠ d → (l.foldl (Mem.addNew d) w).dicts d' = w.dicts d' := by
  induction l generalizing w with
  | nil => exact ⟨fun _ _ => rfl, fun _ _ => rfl⟩
  | cons e l ih =>
    rw [List.foldl_cons]
    obtain ⟨h1, h2⟩ := ih (Mem.addNew d w e)
    constructor
    · intro r hr
      rw [h1 r (Nat.lt_succ_of_lt hr)]
      exact Function.update_of_ne (ne_of_lt hr) _ _
    · intro d' hd
      rw [h2 d' hd]
      exact Function.update_of_ne hd _ _

theorem popKey_frame (d : ℕ) (l : List String) (w : Mem K) :
    (l.foldl (Mem.popKey d) w).objects = w.objects ∧
    ∀ d', d' ≠ d → (l.foldl (Mem.popKey d) w).dicts d' = w.dicts d' := by
  induction l generalizing w with
  | nil => exact ⟨rfl, fun _ _ => rfl⟩
  | cons e l ih =>
    rw [List.foldl_cons]
    obtain ⟨h1, h2⟩ := ih (Mem.popKey d w e)
    exact ⟨h1, fun d' hd => (h2 d' hd).trans (Function.update_of_ne hd _ _)⟩

theorem addNew_read (d : ℕ) (l : List (String × Val K)) (w : Mem K)
    (h : ∀ k r, w.dicts d k = some r → r < w.next) :
    (l.foldl (Mem.addNew d) w).read d = l.foldl (fun m e => Dict.set m e.1 e.2) (w.read d) := by
  induction l generalizing w with
  | nil => rfl
  | cons e l ih =>
    rw [List.foldl_cons, List.foldl_cons, ih]
    · congr 1
      funext k
      show (Function.update w.dicts d ((w.dicts d).set e.1 w.next) d k).map
        (Function.update w.objects w.next e.2) = Function.update (w.read d) e.1 (some e.2) k
      rw [Function.update_self]
      unfold Dict.set
      by_cases hk : k = e.1
      · subst hk
        rw [Function.update_self, Function.update_self, Option.map_some, Function.update_self]
      · rw [Function.update_of_ne hk, Function.update_of_ne hk]
        unfold Mem.read
        cases hr : w.dicts d k with
        | none => rfl
        | some r =>
          rw [Option.map_some, Option.map_some, Function.update_of_ne (ne_of_lt (h k r hr))]
    · intro k r hk
      change Function.update w.dicts d ((w.dicts d).set e.1 w.next) d k = some r at hk
      rw [Function.update_self] at hk
      unfold Dict.set at hk
      by_cases e' : k = e.1
      · subst e'
        rw [Function.update_self] at hk
        injection hk with hk
        subst hk
        exact Nat.lt_succ_self _
      · rw [Function.update_of_ne e'] at hk
        exact Nat.lt_succ_of_lt (h k r hk)

theorem popKey_read (d : ℕ) (l : List String) (w : Mem K) :
    (l.foldl (Mem.popKey d) w).read d = l.foldl (fun m k => Dict.pop m k) (w.read d) := by
  induction l generalizing w with
  | nil => rfl
  | cons e l ih =>
    rw [List.foldl_cons, List.foldl_cons, ih]
    congr 1
    funext k
    show (Function.update w.dicts d ((w.dicts d).pop e) d k).map w.objects =
      Function.update (w.read d) e none k
    rw [Function.update_self]
    unfold Dict.pop
    by_cases hk : k = e
    · subst hk
      rw [Function.update_self, Function.update_self]
      rfl
    · rw [Function.update_of_ne hk, Function.update_of_ne hk]
      rfl

theorem Own.of_eq {w w' : Mem K} {d : ℕ} (h : Own w d) (h1 : w'.dicts = w.dicts)
    (h2 : w'.next = w.next) : Own w' d :=
  ⟨fun k r hk => by rw [h2]; rw [h1] at hk; exact h.used k r hk,
   fun k k' r hk hk' => by rw [h1] at hk hk'; exact h.inj k k' r hk hk'⟩

/-- **C18.** The returned dictionary is the same object as the one passed in, and no other
dictionary is changed, whether or not the call raises. -/
theorem C18_same_object (jc : ℕ → ℤ) (jw : ℕ → K) (w : Mem K) (d : ℕ) (p : Bool) :
    (∀ r, (modifyMapsMem jc jw w d p).2 = .ok r → r = d) ∧
    ∀ d', d' ≠ d → (modifyMapsMem jc jw w d p).1.dicts d' = w.dicts d' := by
  unfold modifyMapsMem
  cases hm : getMXG (w.read d) with
  | error e => exact ⟨fun r h => by simp at h, fun _ _ => rfl⟩
  | ok mxg =>
    dsimp only
    obtain ⟨a1, _⟩ := dirMem_frame p mxg d w "forward"
    generalize dirMem p mxg d w "forward" = s1 at *
    obtain ⟨w1, o1⟩ := s1
    cases o1 with
    | error e => exact ⟨fun r h => by simp at h, fun d' _ => congrFun a1 d'⟩
    | ok u =>
      dsimp only
      obtain ⟨b1, _⟩ := dirMem_frame p mxg d w1 "backward"
      generalize dirMem p mxg d w1 "backward" = s2 at *
      obtain ⟨w2, o2⟩ := s2
      cases o2 with
      | error e => exact ⟨fun r h => by simp at h, fun d' _ => congrFun (b1.trans a1) d'⟩
      | ok u =>
        dsimp only
        cases hc : calculateOps jc jw (w2.read d) with
        | error e => exact ⟨fun r h => by simp at h, fun d' _ => congrFun (b1.trans a1) d'⟩
        | ok o =>
          refine ⟨fun r h => by simpa using h.symm, fun d' hd => ?_⟩
          exact ((popKey_frame d _ _).2 d' hd).trans (((addNew_frame d _ _).2 d' hd).trans
            (congrFun (b1.trans a1) d'))

/-- **C18.** If no two names share an array, the dictionary has the content of
`Model/Weights.lean` afterwards, and the call raises exactly what is raised there. -/
theorem C18_content (jc : ℕ → ℤ) (jw : ℕ → K) (w : Mem K) (d : ℕ) (h : Own w d) (p : Bool) :
    (∀ m, modifyMaps jc jw (w.read d) p = .ok m →
      (modifyMapsMem jc jw w d p).2 = .ok d ∧ (modifyMapsMem jc jw w d p).1.read d = m) ∧
    ∀ e, modifyMaps jc jw (w.read d) p = .error e → (modifyMapsMem jc jw w d p).2 = .error e := by
  unfold modifyMapsMem modifyMaps
  cases hm : getMXG (w.read d) with
  | error e => simp [bind, Except.bind]
  | ok mxg =>
    simp only [bind, Except.bind, List.foldlM_cons, List.foldlM_nil, pure, Except.pure]
    obtain ⟨a1, a2⟩ := dirMem_spec p mxg d w h "forward"
    cases hf : (if p then markDir mxg else filterDir mxg) (w.read d) "forward" with
    | error e =>
      rw [a2 e hf]
      simp
    | ok m1 =>
      obtain ⟨w1, e1, r1, d1, n1⟩ := a1 m1 hf
      rw [e1]
      dsimp only
      have h1 : Own w1 d := h.of_eq d1 n1
      obtain ⟨b1, b2⟩ := dirMem_spec p mxg d w1 h1 "backward"
      rw [r1] at b1 b2
      cases hb : (if p then markDir mxg else filterDir mxg) m1 "backward" with
      | error e =>
        rw [b2 e hb]
        simp
      | ok m2 =>
        obtain ⟨w2, e2, r2, d2, n2⟩ := b1 m2 hb
        rw [e2]
        dsimp only
        have h2 : Own w2 d := h1.of_eq d2 n2
        rw [r2]
        cases hc : calculateOps jc jw m2 with
        | error e => simp
        | ok o =>
          constructor
          · intro m hm
            injection hm with hm
            refine ⟨rfl, ?_⟩
            rw [popKey_read, addNew_read d _ w2 h2.used, r2]
            exact hm
          · intro e he
            cases he

/-- **C281** `_partial`: whether or not the call raises, every object that was in memory keeps its
content, except for the two centre maps in `x` with partial boundaries, and the four sub-sample
arrays without. -/
theorem C281_others_partial (jc : ℕ → ℤ) (jw : ℕ → K) (w : Mem K) (d : ℕ) (p : Bool) (r : ℕ)
    (hr : r < w.next) (h : ∀ k ∈ changedNames p, w.dicts d k ≠ some r) :
    (modifyMapsMem jc jw w d p).1.objects r = w.objects r := by
  have hf : ∀ k ∈ (if p then ["forward" ++ "_xt_prime"] else
      ["forward" ++ "_xt_primes", "forward" ++ "_zt_primes"]), w.dicts d k ≠ some r := by
    intro k hk
    apply h
    cases p <;> simp [changedNames] at hk ⊢ <;> tauto
  have hb : ∀ k ∈ (if p then ["backward" ++ "_xt_prime"] else
      ["backward" ++ "_xt_primes", "backward" ++ "_zt_primes"]), w.dicts d k ≠ some r := by
    intro k hk
    apply h
    cases p <;> simp [changedNames] at hk ⊢ <;> tauto
  unfold modifyMapsMem
  cases hm : getMXG (w.read d) with
  | error e => rfl
  | ok mxg =>
    dsimp only
    obtain ⟨a1, a2, a3⟩ := dirMem_frame p mxg d w "forward"
    have a4 := a3 r hf
    clear a3
    generalize dirMem p mxg d w "forward" = s1 at *
    obtain ⟨w1, o1⟩ := s1
    cases o1 with
    | error e => exact a4
    | ok u =>
      dsimp only at a1 a2 a4 ⊢
      obtain ⟨b1, b2, b3⟩ := dirMem_frame p mxg d w1 "backward"
      have b4 := b3 r (by rw [a1]; exact hb)
      clear b3
      generalize dirMem p mxg d w1 "backward" = s2 at *
      obtain ⟨w2, o2⟩ := s2
      cases o2 with
      | error e => exact b4.trans a4
      | ok u =>
        dsimp only at b1 b2 b4 ⊢
        cases hc : calculateOps jc jw (w2.read d) with
        | error e => exact b4.trans a4
        | ok o =>
          dsimp only
          rw [(popKey_frame d _ _).1, (addNew_frame d _ _).1 r (by rw [b2, a2]; exact hr)]
          exact b4.trans a4

/-- Two arrays have the same shape and the same entries. -/
def Val.Same : Val K → Val K → Prop
  | .arr3 nx ny nz f, v => ∃ g, v = .arr3 nx ny nz g ∧
      ∀ c : Cell, c.1 < nx → c.2.1 < ny → c.2.2 < nz → f c = g c
  | .arr4 nx ny nz n f, v => ∃ g, v = .arr4 nx ny nz n g ∧
      ∀ c : Cell, c.1 < nx → c.2.1 < ny → c.2.2 < nz → ∀ s < n, f c s = g c s
  | u, v => u = v

theorem Val.Same.refl (u : Val K) : u.Same u := by
  cases u
  case arr3 => exact ⟨_, rfl, fun _ _ _ _ => rfl⟩
  case arr4 => exact ⟨_, rfl, fun _ _ _ _ _ _ => rfl⟩
  all_goals rfl

/-- After the call the arrays that were in the dictionary have the content that the loops over
directions gave them, even if the call raises later. -/
theorem modifyMapsMem_objects (jc : ℕ → ℤ) (jw : ℕ → K) (w : Mem K) (d : ℕ) (h : Own w d) (p : Bool)
    (mxg : ℕ) (hm : getMXG (w.read d) = .ok mxg) (m2 : MapDict K)
    (hd : ["forward", "backward"].foldlM (if p then markDir mxg else filterDir mxg) (w.read d) = .ok m2)
    (k : String) (r : ℕ) (hk : w.dicts d k = some r) :
    m2 k = some ((modifyMapsMem jc jw w d p).1.objects r) := by
  unfold modifyMapsMem
  rw [hm]
  dsimp only
  simp only [bind, Except.bind, List.foldlM_cons, List.foldlM_nil, pure, Except.pure] at hd
  obtain ⟨a1, a2⟩ := dirMem_spec p mxg d w h "forward"
  cases hf : (if p then markDir mxg else filterDir mxg) (w.read d) "forward" with
  | error e => rw [hf] at hd; simp at hd
  | ok m1 =>
    rw [hf] at hd
    obtain ⟨w1, e1, r1, d1, n1⟩ := a1 m1 hf
    rw [e1]
    dsimp only at hd ⊢
    have h1 : Own w1 d := h.of_eq d1 n1
    obtain ⟨b1, b2⟩ := dirMem_spec p mxg d w1 h1 "backward"
    rw [r1] at b1 b2
    cases hb : (if p then markDir mxg else filterDir mxg) m1 "backward" with
    | error e => rw [hb] at hd; simp at hd
    | ok m2' =>
      rw [hb] at hd
      injection hd with hd
      subst hd
      obtain ⟨w2, e2, r2, d2, n2⟩ := b1 m2' hb
      rw [e2]
      dsimp only
      have hv : m2' k = some (w2.objects r) := by
        rw [← r2]
        show (w2.dicts d k).map w2.objects = _
        rw [d2, d1, hk]
        rfl
      cases hc : calculateOps jc jw (w2.read d) with
      | error e => exact hv
      | ok o =>
        dsimp only
        rw [(popKey_frame d _ _).1, (addNew_frame d _ _).1 r (by rw [n2, n1]; exact h.used k r hk)]
        exact hv

theorem full_mxg (maps : MapDict K) (i : Input K) (cx cz : Bool → Cell → K) (h : Full maps i cx cz) :
    getMXG maps = .ok i.mxg := by
  simp [getMXG, Dict.get, h.mxg, bind, Except.bind]

theorem full_mid (maps : MapDict K) (i : Input K) (cx cz : Bool → Cell → K) (h : Full maps i cx cz)
    (p : Bool) : ["forward", "backward"].foldlM (if p then markDir i.mxg else filterDir i.mxg) maps =
      .ok (midMaps maps i cx cz p) := by
  have e1 : "forward" ++ "_xt_primes" = "forward_xt_primes" := rfl
  have e2 : "backward" ++ "_xt_primes" = "backward_xt_primes" := rfl
  have e3 : "forward" ++ "_xt_prime" = "forward_xt_prime" := rfl
  have e4 : "backward" ++ "_xt_prime" = "backward_xt_prime" := rfl
  have e5 : "forward" ++ "_zt_primes" = "forward_zt_primes" := rfl
  have e6 : "backward" ++ "_zt_primes" = "backward_zt_primes" := rfl
  have e7 : "forward" ++ "_zt_prime" = "forward_zt_prime" := rfl
  have e8 : "backward" ++ "_zt_prime" = "backward_zt_prime" := rfl
  cases p
  · simp only [Bool.false_eq_true, if_false, List.foldlM_cons, List.foldlM_nil, filterDir, get4,
      get3, Dict.get, e1, e2, e3, e4, e5, e6, e7, e8, h.fx, h.fz, h.bx, h.bz, h.cfx, h.cfz, h.cbx,
      h.cbz, bind, Except.bind, pure, Except.pure, get_set]
    simp [midMaps, filteredMaps, Input.filtered]
  · simp only [if_true, List.foldlM_cons, List.foldlM_nil, markDir, get4,
      get3, Dict.get, e1, e2, e3, e4, h.fx, h.bx, h.cfx, h.cbx,
      bind, Except.bind, pure, Except.pure, get_set]
    simp [midMaps, markedMaps]

variable (jc : ℕ → ℤ) (jw : ℕ → K) (w : Mem K) (d : ℕ) (i : Input K) (cx cz : Bool → Cell → K)

theorem read_ref {k : String} {v : Val K} (h : w.read d k = some v) :
    ∃ r, w.dicts d k = some r ∧ w.objects r = v := by
  unfold Mem.read at h
  cases hr : w.dicts d k with
  | none => rw [hr] at h; simp at h
  | some r => rw [hr] at h; exact ⟨r, rfl, by simpa using h⟩

/-- The entries of the centre maps after the marking loop. -/
theorem mark_value (fwd : Bool) (c : Cell) (hc : i.InGrid c) :
    ((loop3 0 i.nx i.ny i.nz).foldl (markStep i.nx i.mxg ⟨i.n, i.xs fwd⟩) (cx fwd) c) =
      if anyHit i.nx i.mxg ⟨i.n, i.xs fwd⟩ c = true then -1 else cx fwd c := by
  rw [foldl_markStep]
  have : c ∈ loop3 0 i.nx i.ny i.nz := by
    rw [mem_loop3]; exact ⟨⟨Nat.zero_le _, hc.1⟩, hc.2.1, hc.2.2⟩
  simp [this]

theorem full_cx (maps : MapDict K) (h : Full maps i cx cz) (fwd : Bool) :
    maps (xtPrimeKey fwd) = some (.arr3 i.nx i.ny i.nz (cx fwd)) := by
  cases fwd
  · exact h.cbx
  · exact h.cfx

theorem mid_cx (maps : MapDict K) (fwd : Bool) :
    midMaps maps i cx cz true (xtPrimeKey fwd) = some (.arr3 i.nx i.ny i.nz
      ((loop3 0 i.nx i.ny i.nz).foldl (markStep i.nx i.mxg ⟨i.n, i.xs fwd⟩) (cx fwd))) := by
  cases fwd <;> rfl

/-- **C281**, exactly, with partial boundaries: the arrays that were in memory have the content
that they had if and only if every cell with an escaping sub-sample was marked before.  (It does
not matter whether the call raises.) -/
theorem C281_marks_iff (h : Full (w.read d) i cx cz) (ho : Own w d) :
    (∀ r < w.next, ((modifyMapsMem jc jw w d true).1.objects r).Same (w.objects r)) ↔
      ∀ fwd c, i.InGrid c → i.SomeEscape fwd c → cx fwd c = -1 := by
  have hobj := fun k r hk => modifyMapsMem_objects jc jw w d ho true i.mxg (full_mxg _ _ _ _ h) _
    (full_mid _ _ _ _ h true) k r hk
  constructor
  · intro hs fwd c hc he
    obtain ⟨r, hr, hv⟩ := read_ref w d (full_cx i cx cz _ h fwd)
    have h1 := hobj _ r hr
    rw [mid_cx] at h1
    injection h1 with h1
    have h2 := hs r (ho.used _ _ hr)
    rw [← h1, hv] at h2
    obtain ⟨g, hg, h3⟩ := h2
    injection hg with _ _ _ hg
    have := h3 c hc.1 hc.2.1 hc.2.2
    rw [mark_value i cx fwd c hc, if_pos ((anyHit_iff i fwd c).2 he), ← hg] at this
    exact this.symm
  · intro hs r hr
    by_cases hk : ∀ k ∈ changedNames true, w.dicts d k ≠ some r
    · rw [C281_others_partial jc jw w d true r hr hk]
      exact Val.Same.refl _
    · push Not at hk
      obtain ⟨k, hk, hkr⟩ := hk
      obtain ⟨fwd, rfl⟩ : ∃ fwd, k = xtPrimeKey fwd := by
        simp only [changedNames, if_true, List.mem_cons, List.not_mem_nil, or_false] at hk
        rcases hk with rfl | rfl
        · exact ⟨true, rfl⟩
        · exact ⟨false, rfl⟩
      have h1 := hobj _ r hkr
      rw [mid_cx] at h1
      injection h1 with h1
      obtain ⟨r', hr', hv⟩ := read_ref w d (full_cx i cx cz _ h fwd)
      have : r' = r := by rw [hkr] at hr'; injection hr' with q; exact q.symm
      subst this
      rw [← h1, hv]
      refine ⟨_, rfl, fun c c1 c2 c3 => ?_⟩
      have hc : i.InGrid c := ⟨c1, c2, c3⟩
      rw [mark_value i cx fwd c hc]
      split
      · rename_i hh
        exact (hs fwd c hc ((anyHit_iff i fwd c).1 hh)).symm
      · rfl

/-- Keys of the sub-sample arrays of a direction. -/
def xtSubKey (fwd : Bool) : String := if fwd then "forward_xt_primes" else "backward_xt_primes"

/-- See `xtSubKey`. -/
def ztSubKey (fwd : Bool) : String := if fwd then "forward_zt_primes" else "backward_zt_primes"

theorem full_sub (maps : MapDict K) (h : Full maps i cx cz) (fwd : Bool) :
    maps (xtSubKey fwd) = some (.arr4 i.nx i.ny i.nz i.n (i.xs fwd)) ∧
    maps (ztSubKey fwd) = some (.arr4 i.nx i.ny i.nz i.n (i.zs fwd)) := by
  cases fwd
  · exact ⟨h.bx, h.bz⟩
  · exact ⟨h.fx, h.fz⟩

theorem mid_sub (maps : MapDict K) (fwd : Bool) :
    midMaps maps i cx cz false (xtSubKey fwd) =
      some (.arr4 i.nx i.ny i.nz i.n ((i.filtered cx cz).xs fwd)) ∧
    midMaps maps i cx cz false (ztSubKey fwd) =
      some (.arr4 i.nx i.ny i.nz i.n ((i.filtered cx cz).zs fwd)) := by
  cases fwd <;> exact ⟨rfl, rfl⟩

/-- **C281**, exactly, without partial boundaries: the arrays that were in memory have the content
that they had if and only if no cell has both escaping and staying sub-samples. -/
theorem C281_filter_iff (h : Full (w.read d) i cx cz) (ho : Own w d) :
    (∀ r < w.next, ((modifyMapsMem jc jw w d false).1.objects r).Same (w.objects r)) ↔
      ∀ fwd c, i.InGrid c → ¬ (i.SomeEscape fwd c ∧ i.SomeStay fwd c) := by
  have hobj := fun k r hk => modifyMapsMem_objects jc jw w d ho false i.mxg (full_mxg _ _ _ _ h) _
    (full_mid _ _ _ _ h false) k r hk
  have hfb := filtered_by (i := i) (cx := cx) (cz := cz)
  constructor
  · rintro hs fwd c hc ⟨he, hst⟩
    obtain ⟨r, hr, hv⟩ := read_ref w d (full_sub i cx cz _ h fwd).1
    have h1 := hobj _ r hr
    rw [(mid_sub i cx cz _ fwd).1] at h1
    injection h1 with h1
    have h2 := hs r (ho.used _ _ hr)
    rw [← h1, hv] at h2
    obtain ⟨g, hg, h3⟩ := h2
    injection hg with _ _ _ _ hg
    have h4 := h3 c hc.1 hc.2.1 hc.2.2
    rw [← hg] at h4
    by_cases hx : i.Escapes (cx fwd c)
    · obtain ⟨s, s1, s2⟩ := hst
      have h5 := (hfb.out fwd c hc he ⟨s, s1, s2⟩ hx s).1
      have h6 := h4 s s1
      rw [show (i.filtered cx cz).xs fwd c s = cx fwd c from h5] at h6
      rw [← h6] at s2
      exact s2 hx
    · obtain ⟨s, s1, s2⟩ := he
      have h5 := ((hfb.inn fwd c hc ⟨s, s1, s2⟩ hst hx s).1 s2).1
      have h6 := h4 s s1
      rw [show (i.filtered cx cz).xs fwd c s = cx fwd c from h5] at h6
      rw [← h6] at s2
      exact hx s2
  · intro hs r hr
    by_cases hk : ∀ k ∈ changedNames false, w.dicts d k ≠ some r
    · rw [C281_others_partial jc jw w d false r hr hk]
      exact Val.Same.refl _
    · push Not at hk
      obtain ⟨k, hk, hkr⟩ := hk
      have hkeep := fun fwd c (hc : i.InGrid c) => hfb.keep fwd c hc (hs fwd c hc)
      obtain ⟨fwd, hf⟩ : ∃ fwd, k = xtSubKey fwd ∨ k = ztSubKey fwd := by
        simp only [changedNames, Bool.false_eq_true, if_false, List.mem_cons, List.not_mem_nil,
          or_false] at hk
        rcases hk with rfl | rfl | rfl | rfl
        · exact ⟨true, Or.inl rfl⟩
        · exact ⟨true, Or.inr rfl⟩
        · exact ⟨false, Or.inl rfl⟩
        · exact ⟨false, Or.inr rfl⟩
      have h1 := hobj _ r hkr
      rcases hf with rfl | rfl
      · rw [(mid_sub i cx cz _ fwd).1] at h1
        injection h1 with h1
        obtain ⟨r', hr', hv⟩ := read_ref w d (full_sub i cx cz _ h fwd).1
        have : r' = r := by rw [hkr] at hr'; injection hr' with q; exact q.symm
        subst this
        rw [← h1, hv]
        exact ⟨_, rfl, fun c c1 c2 c3 s _ => congrFun (hkeep fwd c ⟨c1, c2, c3⟩).1 s⟩
      · rw [(mid_sub i cx cz _ fwd).2] at h1
        injection h1 with h1
        obtain ⟨r', hr', hv⟩ := read_ref w d (full_sub i cx cz _ h fwd).2
        have : r' = r := by rw [hkr] at hr'; injection hr' with q; exact q.symm
        subst this
        rw [← h1, hv]
        exact ⟨_, rfl, fun c c1 c2 c3 s _ => congrFun (hkeep fwd c ⟨c1, c2, c3⟩).2 s⟩

theorem addNew_next (d : ℕ) (l : List (String × Val K)) (w : Mem K) :
    w.next ≤ (l.foldl (Mem.addNew d) w).next := by
  induction l generalizing w with
  | nil => exact le_rfl
  | cons e l ih => exact (Nat.le_succ _).trans (ih (Mem.addNew d w e))

theorem popKey_next (d : ℕ) (l : List String) (w : Mem K) :
    (l.foldl (Mem.popKey d) w).next = w.next := by
  induction l generalizing w with
  | nil => rfl
  | cons e l ih => exact ih (Mem.popKey d w e)

theorem modifyMapsMem_next (p : Bool) : w.next ≤ (modifyMapsMem jc jw w d p).1.next := by
  unfold modifyMapsMem
  cases hm : getMXG (w.read d) with
  | error e => exact le_rfl
  | ok mxg =>
    dsimp only
    obtain ⟨_, a1, _⟩ := dirMem_frame p mxg d w "forward"
    generalize dirMem p mxg d w "forward" = s1 at *
    obtain ⟨w1, o1⟩ := s1
    cases o1 with
    | error e => exact le_of_eq a1.symm
    | ok u =>
      dsimp only
      obtain ⟨_, b1, _⟩ := dirMem_frame p mxg d w1 "backward"
      generalize dirMem p mxg d w1 "backward" = s2 at *
      obtain ⟨w2, o2⟩ := s2
      cases o2 with
      | error e => exact le_of_eq (b1.trans a1).symm
      | ok u =>
        dsimp only
        cases hc : calculateOps jc jw (w2.read d) with
        | error e => exact le_of_eq (b1.trans a1).symm
        | ok o =>
          dsimp only
          rw [popKey_next]
          exact (le_of_eq (b1.trans a1).symm).trans (addNew_next d _ w2)

theorem copy_read (d d' : ℕ) : (w.copy d d').read d' = w.read d := by
  funext k
  show (Function.update w.dicts d' (w.dicts d) d' k).map w.objects = _
  rw [Function.update_self]
  rfl

theorem copy_own (d d' : ℕ) (h : Own w d) : Own (w.copy d d') d' := by
  have e : (w.copy d d').dicts d' = w.dicts d := Function.update_self _ _ _
  constructor
  · intro k r hk
    rw [e] at hk
    exact h.used k r hk
  · intro k k' r hk hk'
    rw [e] at hk hk'
    exact h.inj k k' r hk hk'

/-- After a call on a shallow copy with partial boundaries, the dictionary of the caller has the
marked centre maps. -/
theorem read_after_copy (h : Full (w.read d) i cx cz) (ho : Own w d) (d1 : ℕ) (hd : d ≠ d1) :
    (modifyMapsMem jc jw (w.copy d d1) d1 true).1.read d = midMaps (w.read d) i cx cz true ∧
    Own (modifyMapsMem jc jw (w.copy d d1) d1 true).1 d := by
  have e1 : (modifyMapsMem jc jw (w.copy d d1) d1 true).1.dicts d = w.dicts d :=
    ((C18_same_object jc jw (w.copy d d1) d1 true).2 d hd).trans (Function.update_of_ne hd _ _)
  have hF : Full ((w.copy d d1).read d1) i cx cz := by rw [copy_read]; exact h
  have hO : Own (w.copy d d1) d1 := copy_own w d d1 ho
  constructor
  · funext k
    show ((modifyMapsMem jc jw (w.copy d d1) d1 true).1.dicts d k).map _ = _
    rw [e1]
    cases hk : w.dicts d k with
    | some r =>
      have := modifyMapsMem_objects jc jw (w.copy d d1) d1 hO true i.mxg (full_mxg _ _ _ _ hF) _
        (full_mid _ _ _ _ hF true) k r ((congrFun (Function.update_self _ _ _) k).trans hk)
      rw [copy_read] at this
      exact this.symm
    | none =>
      have hn : w.read d k = none := by unfold Mem.read; rw [hk]; rfl
      have n1 : k ≠ "forward_xt_prime" := by
        rintro rfl
        rw [h.cfx] at hn
        cases hn
      have n2 : k ≠ "backward_xt_prime" := by
        rintro rfl
        rw [h.cbx] at hn
        cases hn
      simp only [midMaps, if_true, markedMaps, get_set, if_neg n1, if_neg n2, hn]
      rfl
  · constructor
    · intro k r hk
      rw [e1] at hk
      exact (ho.used k r hk).trans_le (modifyMapsMem_next jc jw (w.copy d d1) d1 true)
    · intro k k' r hk hk'
      rw [e1] at hk hk'
      exact ho.inj k k' r hk hk'

/-- **C281** fails: someone who keeps the maps and calls `modify_maps(dict(maps), True)` and then
`modify_maps(dict(maps), False)` gets, in every inner cell with escaping and staying sub-samples
and a centre that stays, a boundary leg from the second call, which that call alone does not make. -/
theorem C281_fails_two_modes (h : Full (w.read d) i cx cz) (ho : Own w d) (hg : 2 * i.mxg ≤ i.nx)
    (hw : i.GoodWeights) (d1 d2 : ℕ) (hd1 : d ≠ d1) (fwd : Bool) (c : Cell) (hc : i.Interior c)
    (he : i.SomeEscape fwd c) (hs : i.SomeStay fwd c) (hx : ¬ i.Escapes (cx fwd c)) :
    ∃ o o', Exports ((modifyMapsMem jc jw (w.copy d d2) d2 false).1.read d2) o ∧
      Exports ((modifyMapsMem jc jw ((modifyMapsMem jc jw (w.copy d d1) d1 true).1.copy d d2) d2
        false).1.read d2) o' ∧
      ¬ 0 ≤ (o.legs fwd).legBoundary c ∧ 0 ≤ (o'.legs fwd).legBoundary c := by
  have hn : 0 < i.n := by
    obtain ⟨s, s1, _⟩ := he
    exact Nat.zero_lt_of_lt s1
  obtain ⟨m, hm⟩ := modifyMaps_succeeds jc jw (w.read d) i cx cz h false hg hw
  obtain ⟨o, hex, _, _, hl⟩ := C16_filter_single_leg jc jw (w.read d) i cx cz h hn m hm
  obtain ⟨hr, hO⟩ := read_after_copy jc jw w d i cx cz h ho d1 hd1
  set w1 := (modifyMapsMem jc jw (w.copy d d1) d1 true).1 with hw1
  have hF : Full (midMaps (w.read d) i cx cz true) i (fun fwd => (loop3 0 i.nx i.ny i.nz).foldl
      (markStep i.nx i.mxg ⟨i.n, i.xs fwd⟩) (cx fwd)) cz :=
    ⟨h.shape, h.mxg, h.fx, h.fz, h.bx, h.bz, rfl, h.cfz, rfl, h.cbz, h.w⟩
  obtain ⟨m', hm'⟩ := modifyMaps_succeeds jc jw _ i _ cz hF false hg hw
  obtain ⟨o', hex', _, _, hl'⟩ := C16_filter_single_leg jc jw _ i _ cz hF hn m' hm'
  refine ⟨o, o', ?_, ?_, ?_, ?_⟩
  · rw [((C18_content jc jw (w.copy d d2) d2 (copy_own w d d2 ho) false).1 m
      (by rw [copy_read]; exact hm)).2]
    exact hex
  · rw [((C18_content jc jw (w1.copy d d2) d2 (copy_own w1 d d2 hO) false).1 m'
      (by rw [copy_read, hr]; exact hm')).2]
    exact hex'
  · rw [(hl fwd c hc).1]
    rintro ⟨_, q | q⟩
    · exact q hs
    · exact hx q
  · rw [(hl' fwd c hc).1]
    refine ⟨he, Or.inr ?_⟩
    dsimp only
    rw [mark_value i cx fwd c ⟨lt_of_le_of_lt (Nat.le_add_right _ _) hc.2.1, hc.2.2⟩, if_pos ((anyHit_iff i fwd c).2 he)]
    exact Or.inl (by have : (0 : K) ≤ i.mxg := Nat.cast_nonneg _; linarith)

/-- The names in the dictionary of the example. -/
def exKeys : List String :=
  ["R", "MXG", "forward_xt_primes", "forward_zt_primes", "backward_xt_primes", "backward_zt_primes",
    "forward_xt_prime", "forward_zt_prime", "backward_xt_prime", "backward_zt_prime",
    "subcell_weights"]

/-- A memory with the dictionary `exMaps` at address 0. -/
def exMem : Mem ℚ where
  objects := fun r => (exMaps (exKeys.getD r "")).getD (.nat 0)
  dicts := fun _ k => if k ∈ exKeys then some (exKeys.idxOf k) else none
  next := 11

theorem exMem_own : Own exMem 0 where
  used := by
    intro k r h
    simp only [exMem] at h
    split at h
    · rename_i hk
      injection h with h
      subst h
      exact List.idxOf_lt_length_iff.2 hk
    · cases h
  inj := by
    intro k k' r h h'
    simp only [exMem] at h h'
    split at h
    · rename_i hk
      split at h'
      · rename_i hk'
        injection h with h
        injection h' with h'
        exact (List.idxOf_inj hk).1 (h.trans h'.symm)
      · cases h'
    · cases h

theorem exMem_full : Full (exMem.read 0) exIn exCx exCz where
  shape := ⟨_, rfl⟩
  mxg := rfl
  fx := rfl
  fz := rfl
  bx := rfl
  bz := rfl
  cfx := rfl
  cfz := rfl
  cbx := rfl
  cbz := rfl
  w := rfl

theorem ex_escape : exIn.SomeEscape true (3, 0, 0) :=
  ⟨1, by decide, Or.inr (by simp [exIn, Input.xs]; norm_num)⟩

theorem ex_stay : exIn.SomeStay true (3, 0, 0) :=
  ⟨0, by decide, by simp [exIn, Input.xs, Input.Escapes]; norm_num⟩

/-- In the example both calls change arrays of the caller, and the order of the calls matters. -/
example (jc : ℕ → ℤ) (jw : ℕ → ℚ) :
    (¬ ∀ r < exMem.next, ((modifyMapsMem jc jw exMem 0 true).1.objects r).Same (exMem.objects r)) ∧
    (¬ ∀ r < exMem.next, ((modifyMapsMem jc jw exMem 0 false).1.objects r).Same (exMem.objects r)) ∧
    ∃ o o', Exports ((modifyMapsMem jc jw (exMem.copy 0 2) 2 false).1.read 2) o ∧
      Exports ((modifyMapsMem jc jw ((modifyMapsMem jc jw (exMem.copy 0 1) 1 true).1.copy 0 2) 2
        false).1.read 2) o' ∧
      ¬ 0 ≤ (o.legs true).legBoundary (3, 0, 0) ∧ 0 ≤ (o'.legs true).legBoundary (3, 0, 0) := by
  refine ⟨?_, ?_, ?_⟩
  · rw [C281_marks_iff jc jw exMem 0 exIn exCx exCz exMem_full exMem_own]
    intro h
    have := h true (3, 0, 0) (by unfold Input.InGrid; decide) ex_escape
    simp only [exCx, if_true] at this
    norm_num at this
  · rw [C281_filter_iff jc jw exMem 0 exIn exCx exCz exMem_full exMem_own]
    intro h
    exact h true (3, 0, 0) (by unfold Input.InGrid; decide) ⟨ex_escape, ex_stay⟩
  · exact C281_fails_two_modes jc jw exMem 0 exIn exCx exCz exMem_full exMem_own exIn_guards
      exIn_goodWeights 1 2 (by decide) true (3, 0, 0) (by unfold Input.Interior; decide) ex_escape ex_stay
      (by simp [exIn, exCx, Input.Escapes]; norm_num)

end Zoidberg.Weights
