import Verif.Model.AddDagp

/-! # C40, C103: `add_dagp` and interruptions -/

namespace Zoidberg

variable {P V : Type}

/-- The coefficient `k` of plane `i` is `v`. -/
def Coeff (doit : P → List (String × V)) (planes : List P) (i : ℕ) (k : String) (v : V) : Prop :=
  ∃ pol, planes[i]? = some pol ∧ (k, v) ∈ doit pol

/-- Value of variable `k` at plane `i` of a file. -/
def DagpFile.at (s : DagpFile V) (k : String) (i : ℕ) : Option V := (s.vars k).bind fun a => a i

/-- The number of planes that are skipped. -/
def DagpFile.progVal (s : DagpFile V) : ℕ := match s.prog with
  | some (some n) => n
  | _ => 0

theorem skips_eq (s : DagpFile V) (i : ℕ) : s.skips i = decide (i < s.progVal) := by
  unfold DagpFile.skips DagpFile.progVal
  cases s.prog with
  | none => simp
  | some o => cases o <;> simp

/-- The states that occur while working on plane `m`, starting from `s0`: the planes
below `m` are complete, plane `m` may be begun, the others are as they were. -/
structure DagpInv (doit : P → List (String × V)) (planes : List P) (s0 s : DagpFile V) (m : ℕ) : Prop where
  le : m ≤ planes.length
  kept : ∀ k, s0.vars k ≠ none → s.vars k ≠ none
  done : ∀ i < m, ∀ k v, Coeff doit planes i k v → s.at k i = some v
  begun : ∀ k i, s.at k i = s0.at k i ∨ (i ≤ m ∧ ∃ v, Coeff doit planes i k v ∧ s.at k i = some v)
  made : ∀ k, s.vars k ≠ none → s0.vars k ≠ none ∨ ∃ i v, Coeff doit planes i k v

section
variable {doit : P → List (String × V)} {planes : List P} {s0 s : DagpFile V} {m : ℕ}

theorem DagpInv.start (s0 : DagpFile V) : DagpInv doit planes s0 s0 0 :=
  ⟨Nat.zero_le _, fun _ h => h, fun i hi => absurd hi (Nat.not_lt_zero i), fun _ _ => Or.inl rfl,
    fun _ h => Or.inl h⟩

theorem at_create (s : DagpFile V) (k : String) (h : s.vars k = none) (k' : String) (i : ℕ) :
    (s.apply (.create k)).at k' i = s.at k' i := by
  unfold DagpFile.at DagpFile.apply
  simp only
  by_cases e : k' = k
  · subst e; simp [h]
  · rw [if_neg e]

theorem at_write (s : DagpFile V) (k : String) (ind : ℕ) (v : V) (k' : String) (i : ℕ) :
    (s.apply (.write k ind v)).at k' i =
      if k' = k ∧ i = ind ∧ s.vars k ≠ none then some v else s.at k' i := by
  unfold DagpFile.at DagpFile.apply
  simp only
  by_cases e : k' = k
  · subst e
    rw [if_pos rfl]
    cases h : s.vars k' with
    | none => simp
    | some a =>
      by_cases e2 : i = ind <;> simp [e2]
  · rw [if_neg e, if_neg (fun h => e h.1)]

theorem vars_write (s : DagpFile V) (k : String) (ind : ℕ) (v : V) (k' : String) :
    (s.apply (.write k ind v)).vars k' = none ↔ s.vars k' = none := by
  unfold DagpFile.apply
  simp only
  split <;> simp

theorem DagpInv.create (h : DagpInv doit planes s0 s m) {k : String} {v : V}
    (hk : Coeff doit planes m k v) (hn : s.vars k = none) :
    DagpInv doit planes s0 (s.apply (.create k)) m := by
  refine ⟨h.le, ?_, ?_, ?_, ?_⟩
  · intro k' hk'
    unfold DagpFile.apply
    simp only
    split
    · simp
    · exact h.kept k' hk'
  · intro i hi k' v' hc
    rw [at_create s k hn]
    exact h.done i hi k' v' hc
  · intro k' i
    rw [at_create s k hn]
    exact h.begun k' i
  · intro k' hk'
    by_cases e : k' = k
    · subst e; exact Or.inr ⟨m, v, hk⟩
    · apply h.made k'
      unfold DagpFile.apply at hk'
      simp only [if_neg e] at hk'
      exact hk'

theorem DagpInv.write (h : DagpInv doit planes s0 s m) {k : String} {v : V}
    (hk : Coeff doit planes m k v) : DagpInv doit planes s0 (s.apply (.write k m v)) m := by
  refine ⟨h.le, ?_, ?_, ?_, ?_⟩
  · intro k' hk' hc
    exact h.kept k' hk' ((vars_write _ _ _ _ _).1 hc)
  · intro i hi k' v' hc
    rw [at_write, if_neg (by omega)]
    exact h.done i hi k' v' hc
  · intro k' i
    rw [at_write]
    split
    · rename_i e
      obtain ⟨rfl, rfl, _⟩ := e
      exact Or.inr ⟨le_refl _, v, hk, rfl⟩
    · exact h.begun k' i
  · intro k' hk'
    exact h.made k' fun hc => hk' ((vars_write _ _ _ _ _).2 hc)

theorem DagpInv.setProg (h : DagpInv doit planes s0 s m) (n : ℕ) :
    DagpInv doit planes s0 (s.apply (.setProg n)) m := ⟨h.le, h.kept, h.done, h.begun, h.made⟩

theorem DagpInv.next (h : DagpInv doit planes s0 s m) (hm : m < planes.length)
    (hd : ∀ k v, Coeff doit planes m k v → s.at k m = some v) : DagpInv doit planes s0 s (m + 1) := by
  refine ⟨hm, h.kept, ?_, ?_, h.made⟩
  · intro i hi k v hc
    by_cases e : i = m
    · subst e; exact hd k v hc
    · exact h.done i (by omega) k v hc
  · intro k i
    rcases h.begun k i with a | ⟨a, b⟩
    · exact Or.inl a
    · exact Or.inr ⟨by omega, b⟩

theorem DagpRun.op_cases (r : DagpRun V) (o : DagpOp V) :
    ((r.op o).file = r.file ∧ (r.op o).dead = true) ∨
      ((r.op o).file = r.file.apply o ∧ (r.op o).dead = false ∧ r.dead = false) := by
  unfold DagpRun.op
  cases hd : r.dead with
  | true => left; simp [hd]
  | false =>
    simp only [Bool.false_eq_true, if_false]
    cases hb : r.budget with
    | none => right; simp
    | some n =>
      cases n with
      | zero => left; simp
      | succ n => right; simp

/-- With unlimited budget nothing stops the run. -/
theorem DagpRun.op_none (r : DagpRun V) (h : r.budget = none) (hd : r.dead = false) (o : DagpOp V) :
    (r.op o).budget = none ∧ (r.op o).dead = false := by
  unfold DagpRun.op
  rw [hd, h]
  simp

theorem progVal_create (s : DagpFile V) (k : String) : (s.apply (.create k)).progVal = s.progVal := rfl

theorem progVal_write (s : DagpFile V) (k : String) (i : ℕ) (v : V) :
    (s.apply (.write k i v)).progVal = s.progVal := rfl

/-- State of a run between the entries of plane `m`. -/
structure PlaneState (doit : P → List (String × V)) (planes : List P) (s0 : DagpFile V) (m : ℕ)
    (r : DagpRun V) (done : List (String × V)) : Prop where
  inv : DagpInv doit planes s0 r.file m
  prog : r.file.progVal = m
  done : r.dead = false → ∀ p ∈ done, r.file.at p.1 m = some p.2

theorem entry_step {r : DagpRun V} {done : List (String × V)} (h : PlaneState doit planes s0 m r done)
    {k : String} {v : V} (hk : Coeff doit planes m k v) (hn : k ∉ done.map (·.1)) :
    PlaneState doit planes s0 m ((r.getHandle k).op (.write k m v)) (done ++ [(k, v)]) := by
  -- the handle
  have h1 : PlaneState doit planes s0 m (r.getHandle k) done ∧
      ((r.getHandle k).dead = false → (r.getHandle k).file.vars k ≠ none) := by
    unfold DagpRun.getHandle
    split
    · rename_i a ha
      exact ⟨h, fun _ => by rw [ha]; simp⟩
    · rename_i ha
      rcases DagpRun.op_cases r (.create k) with ⟨a, b⟩ | ⟨a, b, c⟩
      · refine ⟨⟨by rw [a]; exact h.inv, by rw [a]; exact h.prog, by rw [b]; simp⟩, by rw [b]; simp⟩
      · refine ⟨⟨by rw [a]; exact h.inv.create hk ha, by rw [a, progVal_create]; exact h.prog, ?_⟩, ?_⟩
        · intro _ p hp
          rw [a, at_create _ _ ha]
          exact h.done c p hp
        · intro _
          rw [a]
          simp [DagpFile.apply]
  obtain ⟨h1, h2⟩ := h1
  rcases DagpRun.op_cases (r.getHandle k) (.write k m v) with ⟨a, b⟩ | ⟨a, b, c⟩
  · exact ⟨by rw [a]; exact h1.inv, by rw [a]; exact h1.prog, by rw [b]; simp⟩
  · refine ⟨by rw [a]; exact h1.inv.write hk, by rw [a, progVal_write]; exact h1.prog, ?_⟩
    intro _ p hp
    rw [a, at_write]
    rcases List.mem_append.1 hp with hp | hp
    · rw [if_neg]
      · exact h1.done c p hp
      · rintro ⟨e, _⟩
        exact hn (List.mem_map.2 ⟨p, hp, e⟩)
    · rw [List.mem_singleton] at hp
      subst hp
      rw [if_pos ⟨rfl, rfl, h2 c⟩]

theorem plane_steps (l : List (String × V)) : ∀ (r : DagpRun V) (done : List (String × V)),
    PlaneState doit planes s0 m r done → (∀ p ∈ l, Coeff doit planes m p.1 p.2) →
    ((done ++ l).map (·.1)).Nodup →
    PlaneState doit planes s0 m (r.plane m l) (done ++ l) := by
  induction l with
  | nil => intro r done h _ _; simpa [DagpRun.plane] using h
  | cons p t ih =>
    intro r done h hl hn
    have e : done ++ p :: t = (done ++ [p]) ++ t := by simp
    rw [e] at hn ⊢
    refine ih _ (done ++ [p]) (entry_step h (hl p List.mem_cons_self) ?_)
      (fun q hq => hl q (List.mem_cons_of_mem _ hq)) hn
    rw [List.map_append, List.map_append, List.nodup_append] at hn
    have := (List.nodup_append.1 hn.1).2.2
    intro hc
    exact this p.1 hc p.1 (by simp) rfl

/-- State of a run between planes. -/
structure RunState (doit : P → List (String × V)) (planes : List P) (s0 : DagpFile V) (i : ℕ)
    (r : DagpRun V) : Prop where
  inv : DagpInv doit planes s0 r.file r.file.progVal
  prog : r.dead = false → i ≤ r.file.progVal

theorem plane_dead (l : List (String × V)) : ∀ r : DagpRun V, r.dead = true → ∀ i, (r.plane i l) = r := by
  have hop : ∀ (r : DagpRun V) o, r.dead = true → r.op o = r := by
    intro r o h
    unfold DagpRun.op
    rw [if_pos h]
  induction l with
  | nil => intro r _ i; rfl
  | cons p t ih =>
    intro r h i
    have hg : r.getHandle p.1 = r := by
      unfold DagpRun.getHandle
      split
      · rfl
      · exact hop r _ h
    have : r.plane i (p :: t) = DagpRun.plane ((r.getHandle p.1).op (.write p.1 i p.2)) i t := rfl
    rw [this, hg, hop r _ h]
    exact ih r h i

theorem run_step (hnd : ∀ p ∈ planes, ((doit p).map (·.1)).Nodup) {i : ℕ} {r : DagpRun V}
    (h : RunState doit planes s0 i r) {pol : P} (hp : planes[i]? = some pol) :
    RunState doit planes s0 (i + 1) (if r.file.skips i then r else
      (r.plane i (doit pol)).op (.setProg (i + 1))) := by
  have hlt : i < planes.length := by
    by_contra hc
    rw [List.getElem?_eq_none (by omega)] at hp
    simp at hp
  rw [skips_eq]
  by_cases hs : i < r.file.progVal
  · rw [if_pos (by simpa using hs)]
    exact ⟨h.inv, fun hd => by omega⟩
  · rw [if_neg (by simpa using hs)]
    cases hd : r.dead with
    | true =>
      rw [plane_dead _ r hd]
      unfold DagpRun.op
      rw [if_pos hd]
      exact ⟨h.inv, by rw [hd]; simp⟩
    | false =>
      have hi : r.file.progVal = i := by have := h.prog hd; omega
      have hmem : ∀ p ∈ doit pol, Coeff doit planes i p.1 p.2 := fun p hp' => ⟨pol, hp, hp'⟩
      have hpm : pol ∈ planes := List.mem_of_getElem? hp
      have st : PlaneState doit planes s0 i r [] :=
        ⟨by have := h.inv; rw [hi] at this; exact this, hi, fun _ p hp => by simp at hp⟩
      have st2 := plane_steps (doit pol) r [] st hmem (by simpa using hnd pol hpm)
      rw [List.nil_append] at st2
      have hpv : (r.plane i (doit pol)).file.progVal = i := st2.prog
      rcases DagpRun.op_cases (r.plane i (doit pol)) (.setProg (i + 1)) with ⟨a, b⟩ | ⟨a, b, c⟩
      · refine ⟨?_, by rw [b]; simp⟩
        rw [a, hpv]
        exact st2.inv
      · have e : ((r.plane i (doit pol)).file.apply (.setProg (i + 1))).progVal = i + 1 := rfl
        refine ⟨?_, ?_⟩
        · rw [a, e]
          refine (st2.inv.next hlt ?_).setProg _
          rintro k v ⟨pol', h1, h2⟩
          rw [hp] at h1
          injection h1 with h1
          subst h1
          exact st2.done c (k, v) h2
        · intro _
          rw [a, e]

theorem getProg_state {r : DagpRun V} (h : DagpInv doit planes s0 r.file r.file.progVal) :
    RunState doit planes s0 0 r.getProg := by
  unfold DagpRun.getProg
  split
  · exact ⟨h, fun _ => Nat.zero_le _⟩
  · rename_i hn
    have h0 : r.file.progVal = 0 := by unfold DagpFile.progVal; rw [hn]
    rw [h0] at h
    have h1 : DagpInv doit planes s0 (r.op .createProg).file 0 ∧ (r.op .createProg).file.progVal = 0 := by
      rcases DagpRun.op_cases r .createProg with ⟨a, _⟩ | ⟨a, _⟩
      · rw [a]; exact ⟨h, h0⟩
      · rw [a]; exact ⟨⟨h.le, h.kept, h.done, h.begun, h.made⟩, rfl⟩
    rcases DagpRun.op_cases (r.op .createProg) (.setProg 0) with ⟨a, _⟩ | ⟨a, _⟩
    · exact ⟨by rw [a, h1.2]; exact h1.1, fun _ => Nat.zero_le _⟩
    · refine ⟨?_, fun _ => Nat.zero_le _⟩
      rw [a]
      exact h1.1.setProg 0

theorem addDagp_state (hnd : ∀ p ∈ planes, ((doit p).map (·.1)).Nodup) {r : DagpRun V}
    (h : DagpInv doit planes s0 r.file r.file.progVal) :
    RunState doit planes s0 planes.length (r.addDagp doit planes) := by
  unfold DagpRun.addDagp
  have key : ∀ n ≤ planes.length, RunState doit planes s0 n ((List.range n).foldl (fun r ind =>
      match planes[ind]? with
      | none => r
      | some pol =>
        if r.file.skips ind then r else (r.plane ind (doit pol)).op (.setProg (ind + 1))) r.getProg) := by
    intro n
    induction n with
    | zero => intro _; exact getProg_state h
    | succ n ih =>
      intro hn
      rw [List.range_succ, List.foldl_append, List.foldl_cons, List.foldl_nil]
      have := ih (by omega)
      have hp : planes[n]? = some (planes[n]'(by omega)) := List.getElem?_eq_getElem _
      rw [hp]
      exact run_step hnd this hp
  exact key planes.length (le_refl _)

theorem plane_alive (i : ℕ) (l : List (String × V)) : ∀ r : DagpRun V, r.budget = none → r.dead = false →
    (r.plane i l).budget = none ∧ (r.plane i l).dead = false := by
  induction l with
  | nil => intro r h1 h2; exact ⟨h1, h2⟩
  | cons p t ih =>
    intro r h1 h2
    have hg : (r.getHandle p.1).budget = none ∧ (r.getHandle p.1).dead = false := by
      unfold DagpRun.getHandle
      split
      · exact ⟨h1, h2⟩
      · exact DagpRun.op_none r h1 h2 _
    have := DagpRun.op_none _ hg.1 hg.2 (.write p.1 i p.2)
    exact ih _ this.1 this.2

theorem addDagp_alive (doit : P → List (String × V)) (planes : List P) (s : DagpFile V) :
    (DagpRun.addDagp doit planes ⟨s, none, false⟩).dead = false := by
  unfold DagpRun.addDagp
  have h0 : (DagpRun.getProg ⟨s, none, false⟩).budget = none ∧
      (DagpRun.getProg ⟨s, none, false⟩).dead = false := by
    unfold DagpRun.getProg
    split
    · exact ⟨rfl, rfl⟩
    · have := DagpRun.op_none ⟨s, none, false⟩ rfl rfl .createProg
      exact DagpRun.op_none _ this.1 this.2 _
  generalize DagpRun.getProg ⟨s, none, false⟩ = r at h0
  have key : ∀ (l : List ℕ) (r : DagpRun V), r.budget = none ∧ r.dead = false → (l.foldl (fun r ind =>
      match planes[ind]? with
      | none => r
      | some pol =>
        if r.file.skips ind then r else (r.plane ind (doit pol)).op (.setProg (ind + 1))) r).dead = false := by
    intro l
    induction l with
    | nil => intro r h; exact h.2
    | cons a t ih =>
      intro r h
      rw [List.foldl_cons]
      apply ih
      split
      · exact h
      · split
        · exact h
        · have := plane_alive a (doit (by assumption)) r h.1 h.2
          exact DagpRun.op_none _ this.1 this.2 _
  exact key _ r h0

/-- A finished state is determined by the initial one. -/
theorem DagpInv.final (h : DagpInv doit planes s0 s planes.length) {s' : DagpFile V}
    (h' : DagpInv doit planes s0 s' planes.length) : s.vars = s'.vars := by
  have hat : ∀ k i, s.at k i = s'.at k i := by
    intro k i
    by_cases hc : ∃ v, Coeff doit planes i k v
    · obtain ⟨v, hc⟩ := hc
      have hi : i < planes.length := by
        obtain ⟨pol, hp, _⟩ := hc
        by_contra hge
        rw [List.getElem?_eq_none (by omega)] at hp
        simp at hp
      rw [h.done i hi k v hc, h'.done i hi k v hc]
    · have e1 : s.at k i = s0.at k i := by
        rcases h.begun k i with a | ⟨_, v, a, _⟩
        · exact a
        · exact absurd ⟨v, a⟩ hc
      have e2 : s'.at k i = s0.at k i := by
        rcases h'.begun k i with a | ⟨_, v, a, _⟩
        · exact a
        · exact absurd ⟨v, a⟩ hc
      rw [e1, e2]
  have hnone : ∀ {a b : DagpFile V}, DagpInv doit planes s0 a planes.length →
      DagpInv doit planes s0 b planes.length → ∀ k, a.vars k ≠ none → b.vars k ≠ none := by
    intro a b ha hb k hk
    rcases ha.made k hk with q | ⟨i, v, q⟩
    · exact hb.kept k q
    · have hi : i < planes.length := by
        obtain ⟨pol, hp, _⟩ := q
        by_contra hge
        rw [List.getElem?_eq_none (by omega)] at hp
        simp at hp
      have := hb.done i hi k v q
      intro hn
      unfold DagpFile.at at this
      rw [hn] at this
      simp at this
  funext k
  cases hs : s.vars k with
  | none =>
    cases hs' : s'.vars k with
    | none => rfl
    | some a => exact absurd hs (hnone h' h k (by rw [hs']; simp))
  | some a =>
    cases hs' : s'.vars k with
    | none => exact absurd hs' (hnone h h' k (by rw [hs]; simp))
    | some b =>
      congr 1
      funext i
      have := hat k i
      unfold DagpFile.at at this
      rw [hs, hs'] at this
      exact this

theorem interrupted_inv (hnd : ∀ p ∈ planes, ((doit p).map (·.1)).Nodup) (l : List ℕ) : ∀ s : DagpFile V,
    DagpInv doit planes s0 s s.progVal →
    DagpInv doit planes s0 (l.foldl (fun s b => dagpFile doit planes s (some b)) s)
      (l.foldl (fun s b => dagpFile doit planes s (some b)) s).progVal := by
  induction l with
  | nil => intro s h; exact h
  | cons b t ih =>
    intro s h
    exact ih _ (addDagp_state hnd (r := ⟨s, some b, false⟩) h).inv

end

/-- **C40.** Runs that are stopped after any numbers of write operations, followed by one
complete run, leave in the file the same variables as one complete run, whatever was
in the file before (if it had no finished planes). -/
theorem C40_interruptions (doit : P → List (String × V)) (planes : List P)
    (hnd : ∀ p ∈ planes, ((doit p).map (·.1)).Nodup) (s0 : DagpFile V)
    (h0 : s0.prog = none) (budgets : List ℕ) :
    (dagpFile doit planes (budgets.foldl (fun s b => dagpFile doit planes s (some b)) s0) none).vars =
      (dagpFile doit planes s0 none).vars := by
  have hz : s0.progVal = 0 := by unfold DagpFile.progVal; rw [h0]
  have hi : DagpInv doit planes s0 s0 s0.progVal := by rw [hz]; exact DagpInv.start s0
  have fin : ∀ s, DagpInv doit planes s0 s s.progVal →
      DagpInv doit planes s0 (dagpFile doit planes s none) planes.length := by
    intro s h
    have st := addDagp_state hnd (r := ⟨s, none, false⟩) h
    have hp := st.prog (addDagp_alive doit planes s)
    have := st.inv
    have e : (DagpRun.addDagp doit planes ⟨s, none, false⟩).file.progVal = planes.length :=
      Nat.le_antisymm this.le hp
    rw [e] at this
    exact this
  exact (fin _ (interrupted_inv hnd budgets s0 hi)).final (fin _ hi)

/-- **C40.** The result of a complete run: every coefficient of every plane is in the file,
and nothing else has been changed. -/
theorem C40_complete (doit : P → List (String × V)) (planes : List P)
    (hnd : ∀ p ∈ planes, ((doit p).map (·.1)).Nodup) (s0 : DagpFile V)
    (h0 : s0.prog = none) (i : ℕ) (k : String) :
    (∀ pol v, planes[i]? = some pol → (k, v) ∈ doit pol →
      ∃ a, (dagpFile doit planes s0 none).vars k = some a ∧ a i = some v) ∧
    ((∀ pol, planes[i]? = some pol → k ∉ (doit pol).map (·.1)) →
      ((dagpFile doit planes s0 none).vars k).bind (fun a => a i) = (s0.vars k).bind fun a => a i) := by
  have hz : s0.progVal = 0 := by unfold DagpFile.progVal; rw [h0]
  have hi : DagpInv doit planes s0 s0 s0.progVal := by rw [hz]; exact DagpInv.start s0
  have st := addDagp_state hnd (r := ⟨s0, none, false⟩) hi
  have hp := st.prog (addDagp_alive doit planes s0)
  have inv := st.inv
  have e : (DagpRun.addDagp doit planes ⟨s0, none, false⟩).file.progVal = planes.length :=
    Nat.le_antisymm inv.le hp
  rw [e] at inv
  constructor
  · intro pol v h1 h2
    have hlt : i < planes.length := by
      by_contra hge
      rw [List.getElem?_eq_none (by omega)] at h1
      simp at h1
    have := inv.done i hlt k v ⟨pol, h1, h2⟩
    unfold DagpFile.at at this
    obtain ⟨a, q1, q2⟩ := Option.bind_eq_some_iff.1 this
    exact ⟨a, q1, q2⟩
  · intro hno
    rcases inv.begun k i with a | ⟨_, v, ⟨pol, q1, q2⟩, _⟩
    · exact a
    · exact absurd (List.mem_map.2 ⟨_, q2, rfl⟩) (hno pol q1)

/-- Two planes with two coefficients each, stopped in the middle of the first plane
and then between the value of the last coefficient and the counter. -/
example : ((dagpFile (fun p : ℕ => [("a", p), ("b", p + 1)]) [10, 20]
    ([5, 3].foldl (fun s b => dagpFile (fun p : ℕ => [("a", p), ("b", p + 1)]) [10, 20] s (some b))
      ⟨none, fun _ => none⟩) none).vars "b").map (fun a => (a 0, a 1, a 2)) =
    some (some 11, some 21, none) := by decide

/-- **C103**, the claim: after a complete run of `add_dagp` the file has the coefficients
of the current grid. -/
def DagpUpToDate (doit : P → List (String × V)) (planes : List P) (s : DagpFile V) : Prop :=
  ∀ i k v, Coeff doit planes i k v → (dagpFile doit planes s none).at k i = some v

/-- **C103** for files on which `add_dagp` was never run.  Missing: files that have
coefficients of another grid, for which it is false (`C103_fails`). -/
theorem C103_new_file_partial (doit : P → List (String × V)) (planes : List P)
    (hnd : ∀ p ∈ planes, ((doit p).map (·.1)).Nodup) (s : DagpFile V) (h0 : s.prog = none) :
    DagpUpToDate doit planes s := by
  rintro i k v ⟨pol, h1, h2⟩
  obtain ⟨a, q1, q2⟩ := (C40_complete doit planes hnd s h0 i k).1 pol v h1 h2
  unfold DagpFile.at
  rw [q1]
  exact q2

/-- **C103** is false: the counter in the file is not tied to the grid, so after a run for
one grid a run for another one (opened with `create=False`) changes nothing. -/
theorem C103_fails : ∃ (doit : ℕ → List (String × ℕ)) (old new : List ℕ) (s : DagpFile ℕ),
    s.prog = none ∧ (∀ p, ((doit p).map (·.1)).Nodup) ∧
    ¬ DagpUpToDate doit new (dagpFile doit old s none) := by
  refine ⟨fun p => [("a", p)], [1], [2], ⟨none, fun _ => none⟩, rfl, by simp, ?_⟩
  intro h
  have := h 0 "a" 2 ⟨2, rfl, by simp⟩
  revert this
  decide

/-- The general form: after a run for a grid with at least as many planes, nothing at
all is written. -/
theorem C103_nothing_written (doit : P → List (String × V)) (old new : List P)
    (hnd : ∀ p ∈ old, ((doit p).map (·.1)).Nodup) (s : DagpFile V) (h0 : s.prog = none)
    (hlen : new.length ≤ old.length) (hpos : old ≠ []) :
    dagpFile doit new (dagpFile doit old s none) none = dagpFile doit old s none := by
  have hz : s.progVal = 0 := by unfold DagpFile.progVal; rw [h0]
  have hi : DagpInv doit old s s s.progVal := by rw [hz]; exact DagpInv.start s
  have st := addDagp_state hnd (r := ⟨s, none, false⟩) hi
  have hp := st.prog (addDagp_alive doit old s)
  change old.length ≤ (dagpFile doit old s none).progVal at hp
  generalize dagpFile doit old s none = t at hp ⊢
  have hl : 0 < old.length := List.length_pos_iff.2 hpos
  have hprog : ∃ n, t.prog = some (some n) ∧ new.length ≤ n := by
    unfold DagpFile.progVal at hp
    split at hp
    · rename_i n hn
      exact ⟨n, hn, by omega⟩
    · omega
  obtain ⟨n, hn, hle⟩ := hprog
  unfold dagpFile DagpRun.addDagp DagpRun.getProg
  simp only [hn]
  have key : ∀ m ≤ new.length, ((List.range m).foldl (fun (r : DagpRun V) ind =>
      match new[ind]? with
      | none => r
      | some pol =>
        if r.file.skips ind then r else (r.plane ind (doit pol)).op (.setProg (ind + 1)))
      ⟨t, none, false⟩) = ⟨t, none, false⟩ := by
    intro m
    induction m with
    | zero => intro _; rfl
    | succ m ih =>
      intro hm
      rw [List.range_succ, List.foldl_append, List.foldl_cons, List.foldl_nil, ih (by omega)]
      rw [List.getElem?_eq_getElem (by omega)]
      simp only
      rw [if_pos]
      unfold DagpFile.skips
      simp only [hn]
      simp
      omega
  exact congrArg DagpRun.file (key _ (le_refl _))

end Zoidberg
