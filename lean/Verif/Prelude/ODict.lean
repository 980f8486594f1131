import Verif.Prelude.Basic
import Mathlib.Data.List.Nodup

/-!
# Ordered dictionaries

Python dictionaries with string keys where the insertion order matters.  Nothing
here models zoidberg itself.
-/

namespace Zoidberg

/-- Entries in insertion order. -/
abbrev ODict (V : Type) := List (String × V)

namespace ODict

variable {V W : Type}

/-- The keys in order. -/
def keys (d : ODict V) : List String := d.map (·.1)

/-- `d.get(k)`. -/
def get? (d : ODict V) (k : String) : Option V :=
  match d with
  | [] => none
  | (k', v) :: t => if k' = k then some v else get? t k

/-- `d[k]`, raising `KeyError`. -/
def getE (d : ODict V) (k : String) : Except Err V :=
  match d.get? k with
  | some v => .ok v
  | none => .error (.key k)

/-- `d[k] = v`: an existing entry keeps its place, a new one goes to the end. -/
def set (d : ODict V) (k : String) (v : V) : ODict V :=
  match d with
  | [] => [(k, v)]
  | (k', v') :: t => if k' = k then (k, v) :: t else (k', v') :: set t k v

/-- `{k: v for k, v in l}` or a sequence of assignments: later ones win. -/
def ofList (l : List (String × V)) : ODict V := l.foldl (fun d p => set d p.1 p.2) []

/-- `del d[k]` for an existing key (no effect for others). -/
def del (d : ODict V) (k : String) : ODict V := d.filter fun p => p.1 ≠ k

/-- Same operation on all values. -/
def mapV (f : V → W) (d : ODict V) : ODict W := d.map fun p => (p.1, f p.2)

@[simp] theorem get?_nil (k : String) : get? ([] : ODict V) k = none := rfl

theorem get?_cons (k' : String) (v : V) (t : ODict V) (k : String) :
    get? ((k', v) :: t) k = if k' = k then some v else get? t k := rfl

theorem get?_set (d : ODict V) (k : String) (v : V) (k' : String) :
    (d.set k v).get? k' = if k = k' then some v else d.get? k' := by
  induction d with
  | nil => simp [set, get?]
  | cons p t ih =>
    obtain ⟨a, b⟩ := p
    unfold set
    by_cases h : a = k
    · subst h
      rw [if_pos rfl, get?_cons, get?_cons]
      split <;> rfl
    · rw [if_neg h, get?_cons, ih, get?_cons]
      by_cases h1 : a = k'
      · subst h1
        rw [if_pos rfl, if_neg (Ne.symm h), if_pos rfl]
      · rw [if_neg h1, if_neg h1]

@[simp] theorem get?_set_self (d : ODict V) (k : String) (v : V) : (d.set k v).get? k = some v := by
  rw [get?_set, if_pos rfl]

theorem get?_set_ne (d : ODict V) {k k' : String} (v : V) (h : k' ≠ k) :
    (d.set k v).get? k' = d.get? k' := by
  rw [get?_set, if_neg (Ne.symm h)]

theorem mem_keys_iff (d : ODict V) (k : String) : k ∈ d.keys ↔ d.get? k ≠ none := by
  induction d with
  | nil => simp [keys]
  | cons p t ih =>
    obtain ⟨a, b⟩ := p
    rw [get?_cons]
    simp only [keys, List.map_cons, List.mem_cons] at ih ⊢
    by_cases h : a = k
    · simp [h]
    · rw [if_neg h, ← ih]
      constructor
      · rintro (h' | h')
        · exact absurd h'.symm h
        · exact h'
      · exact Or.inr

theorem keys_set (d : ODict V) (k : String) (v : V) :
    (d.set k v).keys = if k ∈ d.keys then d.keys else d.keys ++ [k] := by
  induction d with
  | nil => simp [set, keys]
  | cons p t ih =>
    obtain ⟨a, b⟩ := p
    unfold set
    by_cases h : a = k
    · subst h; simp [keys]
    · rw [if_neg h]
      simp only [keys, List.map_cons, List.mem_cons] at ih ⊢
      rw [ih]
      have : ¬ k = a := fun h' => h h'.symm
      by_cases h' : k ∈ t.map (·.1)
      · simp [h', this]
      · simp [h', this]

theorem nodup_set (d : ODict V) (k : String) (v : V) (h : d.keys.Nodup) : (d.set k v).keys.Nodup := by
  rw [keys_set]
  split
  · exact h
  · rename_i hk
    rw [List.nodup_append]
    refine ⟨h, by simp, ?_⟩
    intro a ha b hb
    simp only [List.mem_singleton] at hb
    subst hb
    rintro rfl
    exact hk ha

theorem set_of_not_mem (d : ODict V) (k : String) (v : V) (h : k ∉ d.keys) :
    d.set k v = d ++ [(k, v)] := by
  induction d with
  | nil => rfl
  | cons p t ih =>
    obtain ⟨a, b⟩ := p
    simp only [keys, List.map_cons, List.mem_cons, not_or] at h ih
    unfold set
    rw [if_neg (Ne.symm h.1), ih h.2]
    rfl

theorem foldl_set_nodup (l : List (String × V)) : ∀ d : ODict V, (d.keys ++ l.map (·.1)).Nodup →
    l.foldl (fun d p => set d p.1 p.2) d = d ++ l := by
  induction l with
  | nil => intro d _; simp
  | cons p t ih =>
    intro d hd
    obtain ⟨a, b⟩ := p
    simp only [List.map_cons] at hd
    rw [List.foldl_cons]
    have hna : a ∉ d.keys := by
      intro h
      exact (List.nodup_append.1 hd).2.2 a h a (by simp) rfl
    rw [set_of_not_mem _ _ _ hna, ih]
    · simp
    · have : keys (d ++ [(a, b)]) = d.keys ++ [a] := by simp [keys]
      rw [this]
      simpa using hd

theorem ofList_nodup (l : List (String × V)) (h : (l.map (·.1)).Nodup) : ofList l = l := by
  unfold ofList
  rw [foldl_set_nodup l [] (by simpa [keys] using h)]
  simp

theorem nodup_foldl_set (l : List (String × V)) : ∀ d : ODict V, d.keys.Nodup →
    (keys (l.foldl (fun d p => set d p.1 p.2) d)).Nodup := by
  induction l with
  | nil => intro d h; exact h
  | cons p t ih => intro d h; exact ih _ (nodup_set _ _ _ h)

theorem nodup_ofList (l : List (String × V)) : (ofList l).keys.Nodup :=
  nodup_foldl_set l [] (by simp [keys])

theorem mem_keys_foldl_set (l : List (String × V)) (k : String) : ∀ d : ODict V,
    k ∈ keys (l.foldl (fun d p => set d p.1 p.2) d) ↔ k ∈ d.keys ∨ k ∈ l.map (·.1) := by
  induction l with
  | nil => intro d; simp
  | cons p t ih =>
    intro d
    rw [List.foldl_cons, ih, keys_set, List.map_cons, List.mem_cons]
    split
    · rename_i h
      constructor
      · rintro (h' | h')
        · exact Or.inl h'
        · exact Or.inr (Or.inr h')
      · rintro (h' | h' | h')
        · exact Or.inl h'
        · subst h'; exact Or.inl h
        · exact Or.inr h'
    · rw [List.mem_append, List.mem_singleton, or_assoc]

theorem mem_keys_ofList (l : List (String × V)) (k : String) :
    k ∈ (ofList l).keys ↔ k ∈ l.map (·.1) := by
  unfold ofList
  rw [mem_keys_foldl_set]
  simp [keys]

theorem get?_foldl_set_of_not_mem (l : List (String × V)) (k : String) (h : k ∉ l.map (·.1)) :
    ∀ d : ODict V, get? (l.foldl (fun d p => set d p.1 p.2) d) k = d.get? k := by
  induction l with
  | nil => intro d; rfl
  | cons p t ih =>
    intro d
    simp only [List.map_cons, List.mem_cons, not_or] at h
    rw [List.foldl_cons, ih h.2, get?_set_ne _ _ h.1]

/-- In a dictionary with distinct keys an entry is what `get?` finds. -/
theorem get?_eq_some_iff (d : ODict V) (h : d.keys.Nodup) (k : String) (v : V) :
    d.get? k = some v ↔ (k, v) ∈ d := by
  induction d with
  | nil => simp
  | cons p t ih =>
    obtain ⟨a, b⟩ := p
    simp only [keys, List.map_cons, List.nodup_cons] at h ih
    rw [get?_cons]
    by_cases hk : a = k
    · subst hk
      rw [if_pos rfl]
      constructor
      · intro e; injection e with e; subst e; simp
      · intro e
        rcases List.mem_cons.1 e with e | e
        · injection e with _ e; rw [e]
        · exact absurd (List.mem_map.2 ⟨(a, v), e, rfl⟩) h.1
    · rw [if_neg hk, ih h.2]
      constructor
      · exact fun h => List.mem_cons.2 (Or.inr h)
      · intro e
        rcases List.mem_cons.1 e with e | e
        · injection e with e _; exact absurd e.symm hk
        · exact e

theorem get?_mapV (f : V → W) (d : ODict V) (k : String) :
    (d.mapV f).get? k = (d.get? k).map f := by
  induction d with
  | nil => rfl
  | cons p t ih =>
    obtain ⟨a, b⟩ := p
    change get? ((a, f b) :: mapV f t) k = _
    rw [get?_cons, get?_cons, ih]
    split <;> rfl

theorem keys_mapV (f : V → W) (d : ODict V) : (d.mapV f).keys = d.keys := by
  simp [keys, mapV]

theorem keys_set_of_mem (d : ODict V) (k : String) (v : V) (h : k ∈ d.keys) :
    (d.set k v).keys = d.keys := by
  rw [keys_set, if_pos h]

theorem mem_keys_of_getE {d : ODict V} {k : String} {v : V} (h : d.getE k = .ok v) : k ∈ d.keys := by
  rw [mem_keys_iff]
  unfold getE at h
  intro hn
  rw [hn] at h
  simp at h

theorem getE_of_get? {d : ODict V} {k : String} {v : V} (h : d.get? k = some v) :
    d.getE k = .ok v := by
  unfold getE; rw [h]

/-- Dictionaries with the same keys in the same order and the same values are
equal. -/
theorem ext (d e : ODict V) (hk : d.keys = e.keys) (hn : d.keys.Nodup)
    (hv : ∀ k, d.get? k = e.get? k) : d = e := by
  induction d generalizing e with
  | nil =>
    cases e with
    | nil => rfl
    | cons p t => simp [keys] at hk
  | cons p t ih =>
    cases e with
    | nil => simp [keys] at hk
    | cons q u =>
      obtain ⟨a, b⟩ := p
      obtain ⟨a', b'⟩ := q
      simp only [keys, List.map_cons, List.cons.injEq, List.nodup_cons] at hk hn
      obtain ⟨rfl, hk⟩ := hk
      have h1 := hv a
      rw [get?_cons, get?_cons, if_pos rfl, if_pos rfl] at h1
      injection h1 with h1
      subst h1
      congr 1
      refine ih u hk hn.2 ?_
      intro k
      by_cases hka : a = k
      · subst hka
        have n1 : get? t a = none := by
          by_contra h
          exact hn.1 ((mem_keys_iff t a).2 h)
        have n2 : get? u a = none := by
          by_contra h
          have := (mem_keys_iff u a).2 h
          rw [keys, ← hk] at this
          exact hn.1 this
        rw [n1, n2]
      · have := hv k
        rwa [get?_cons, get?_cons, if_neg hka, if_neg hka] at this

theorem get?_eq_none_iff (d : ODict V) (k : String) : d.get? k = none ↔ k ∉ d.keys := by
  rw [mem_keys_iff]; simp

/-- Writing all entries of a dictionary over another one. -/
theorem get?_foldl_set (l : ODict V) (hn : l.keys.Nodup) (k : String) : ∀ d : ODict V,
    get? (l.foldl (fun d p => set d p.1 p.2) d) k = (l.get? k).or (d.get? k) := by
  induction l with
  | nil => intro d; simp
  | cons p t ih =>
    intro d
    obtain ⟨a, b⟩ := p
    simp only [keys, List.map_cons, List.nodup_cons] at hn
    rw [List.foldl_cons, ih hn.2, get?_set, get?_cons]
    by_cases h : a = k
    · subst h
      have : get? t a = none := (get?_eq_none_iff t a).2 hn.1
      rw [if_pos rfl, if_pos rfl, this]
      rfl
    · rw [if_neg h, if_neg h]

end ODict

end Zoidberg
