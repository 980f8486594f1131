import Verif.Model.Final
import Verif.Props.SliceNames
import Mathlib.Data.List.Perm.Subperm

/-! # C41, C104: attributes of an updated file -/

namespace Zoidberg

variable {A : Type}

theorem oldName_toList (k : String) (j : ℕ) : ∃ d : List Char, '_' ∉ d ∧
    (oldName k j).toList = "old".toList ++ d ++ '_' :: k.toList ∧
    d = (match j with | 0 => [] | j + 1 => (toString j).toList) := by
  cases j with
  | zero => exact ⟨[], by simp, by simp [oldName, String.toList_append], rfl⟩
  | succ j => exact ⟨(toString j).toList, digits_no_underscore j, by
      simp [oldName, String.toList_append], rfl⟩

theorem toString_ne_nil (j : ℕ) : (toString j).toList ≠ [] := by
  have e : (toString j).toList = Nat.toDigits 10 j := by
    change (Nat.repr j).toList = _
    exact Nat.toList_repr
  rw [e]
  exact Nat.toDigits_ne_nil

/-- Split at the first underscore. -/
theorem split_first {a b u v : List Char} (ha : '_' ∉ a) (hb : '_' ∉ b)
    (h : a ++ '_' :: u = b ++ '_' :: v) : a = b ∧ u = v := by
  induction a generalizing b with
  | nil =>
    cases b with
    | nil => simpa using h
    | cons c t =>
      simp only [List.nil_append, List.cons_append, List.cons.injEq] at h
      exact absurd (by rw [h.1]; simp) hb
  | cons c t ih =>
    cases b with
    | nil =>
      simp only [List.nil_append, List.cons_append, List.cons.injEq] at h
      exact absurd (by rw [← h.1]; simp) ha
    | cons c' t' =>
      simp only [List.cons_append, List.cons.injEq] at h
      obtain ⟨q1, q2⟩ := ih (fun hc => ha (List.mem_cons_of_mem _ hc))
        (fun hc => hb (List.mem_cons_of_mem _ hc)) h.2
      exact ⟨by rw [h.1, q1], q2⟩

/-- Different attributes or counters give different names. -/
theorem oldName_inj {k k' : String} {j j' : ℕ} (h : oldName k j = oldName k' j') : k = k' ∧ j = j' := by
  obtain ⟨d, hd, e, ed⟩ := oldName_toList k j
  obtain ⟨d', hd', e', ed'⟩ := oldName_toList k' j'
  have h := congrArg String.toList h
  rw [e, e', List.append_assoc, List.append_assoc] at h
  obtain ⟨q1, q2⟩ := split_first hd hd' (List.append_cancel_left h)
  refine ⟨String.toList_inj.1 q2, ?_⟩
  rw [ed, ed'] at q1
  cases j with
  | zero =>
    cases j' with
    | zero => rfl
    | succ j' => exact absurd q1.symm (toString_ne_nil j')
  | succ j =>
    cases j' with
    | zero => exact absurd q1 (toString_ne_nil j)
    | succ j' => rw [digits_inj q1]

theorem freshName_some (old : List String) (k : String) : ∀ fuel j,
    (∃ i, i < fuel ∧ oldName k (j + i) ∉ old) →
    ∃ i, freshName old k fuel j = some (oldName k i) ∧ oldName k i ∉ old := by
  intro fuel
  induction fuel with
  | zero => rintro j ⟨i, hi, _⟩; omega
  | succ n ih =>
    rintro j ⟨i, hi, h⟩
    unfold freshName
    by_cases hm : oldName k j ∈ old
    · rw [if_pos hm]
      refine ih (j + 1) ?_
      cases i with
      | zero => exact absurd hm h
      | succ i => exact ⟨i, by omega, by rw [show j + 1 + i = j + (i + 1) by omega]; exact h⟩
    · rw [if_neg hm]
      exact ⟨j, rfl, hm⟩

/-- The loop ends: one of the first `|old| + 1` names is free. -/
theorem freshName_ends (old : List String) (k : String) :
    ∃ i, freshName old k (old.length + 1) 0 = some (oldName k i) ∧ oldName k i ∉ old := by
  apply freshName_some
  by_contra hc
  push Not at hc
  have hsub : ((List.range (old.length + 1)).map (oldName k)) ⊆ old := by
    intro s hs
    obtain ⟨i, hi, rfl⟩ := List.mem_map.1 hs
    have := hc i (List.mem_range.1 hi)
    rwa [Nat.zero_add] at this
  have hnd : ((List.range (old.length + 1)).map (oldName k)).Nodup :=
    (List.nodup_map_iff_inj_on List.nodup_range).2 fun a _ b _ h => (oldName_inj h).2
  have := (hnd.subperm hsub).length_le
  simp at this

/-- The names of the attributes that are always written. -/
def attrNames : List String := ["title", "software_name", "software_version", "id", "grid_id"]

theorem oldName_not_attr (k : String) (j : ℕ) : oldName k j ∉ attrNames := by
  intro h
  obtain ⟨d, _, e, _⟩ := oldName_toList k j
  have h' : (oldName k j).toList.take 3 ∈ attrNames.map fun s => s.toList.take 3 :=
    List.mem_map.2 ⟨_, h, rfl⟩
  rw [e] at h'
  have : ("old".toList ++ d ++ '_' :: k.toList).take 3 = ['o', 'l', 'd'] := by simp
  rw [this] at h'
  revert h'
  decide

/-- Invariant of the loop collecting old attributes: new attributes first, then
fresh names for the old values. -/
structure Collected (attrs file : ODict A) (done : List String) (a : ODict A) : Prop where
  keep : ∀ k ∈ attrs.keys, a.get? k = attrs.get? k
  saved : ∀ k ∈ done, ∀ v, file.get? k = some v → ∃ j, oldName k j ∉ file.keys ∧
    a.get? (oldName k j) = some v
  only : ∀ n ∈ a.keys, n ∈ attrs.keys ∨ ∃ k j, k ∈ done ∧ n = oldName k j ∧ n ∉ file.keys
  nodup : a.keys.Nodup

theorem collect (attrs file : ODict A) (hattr : ∀ k ∈ attrs.keys, k ∈ attrNames) (l : List String) :
    ∀ (done : List String) (a : ODict A), (done ++ l).Nodup → Collected attrs file done a →
    ∃ r, l.foldlM (fun a k =>
      match file.get? k with
      | none => some a
      | some v => (freshName file.keys k (file.keys.length + 1) 0).map fun n => a.set n v) a = some r ∧
      Collected attrs file (done ++ l) r := by
  induction l with
  | nil => intro done a _ h; exact ⟨a, rfl, by simpa using h⟩
  | cons k t ih =>
    intro done a hnd h
    have hk : k ∉ done := by
      intro hc
      have := (List.nodup_append.1 hnd).2.2
      exact this k hc k (by simp) rfl
    have e : done ++ k :: t = (done ++ [k]) ++ t := by simp
    rw [List.foldlM_cons]
    cases hf : file.get? k with
    | none =>
      have hc : Collected attrs file (done ++ [k]) a := by
        refine ⟨h.keep, ?_, ?_, h.nodup⟩
        · intro k' hk' v hv
          rcases List.mem_append.1 hk' with hk' | hk'
          · exact h.saved k' hk' v hv
          · rw [List.mem_singleton] at hk'
            subst hk'
            rw [hf] at hv
            simp at hv
        · intro n hn
          rcases h.only n hn with q | ⟨k', j, q1, q2, q3⟩
          · exact Or.inl q
          · exact Or.inr ⟨k', j, List.mem_append_left _ q1, q2, q3⟩
      obtain ⟨r, hr, hr2⟩ := ih (done ++ [k]) a (by rw [← e]; exact hnd) hc
      rw [e]
      exact ⟨r, hr, hr2⟩
    | some v =>
      obtain ⟨i, hi, hi2⟩ := freshName_ends file.keys k
      rw [hi]
      have hc : Collected attrs file (done ++ [k]) (a.set (oldName k i) v) := by
        refine ⟨?_, ?_, ?_, ODict.nodup_set _ _ _ h.nodup⟩
        · intro k' hk'
          rw [ODict.get?_set_ne _ _ (fun hc => oldName_not_attr k i (by rw [← hc]; exact hattr k' hk')), h.keep k' hk']
        · intro k' hk' v' hv'
          rcases List.mem_append.1 hk' with hkd | hk'
          · obtain ⟨j, q1, q2⟩ := h.saved k' hkd v' hv'
            refine ⟨j, q1, ?_⟩
            rw [ODict.get?_set_ne, q2]
            intro hc
            have := (oldName_inj hc).1
            subst this
            exact hk hkd
          · rw [List.mem_singleton] at hk'
            subst hk'
            rw [hf] at hv'
            injection hv' with hv'
            subst hv'
            exact ⟨i, hi2, ODict.get?_set_self _ _ _⟩
        · intro n hn
          rw [ODict.mem_keys_iff, ODict.get?_set] at hn
          split at hn
          · rename_i e
            subst e
            exact Or.inr ⟨k, i, by simp, rfl, hi2⟩
          · rcases h.only n ((ODict.mem_keys_iff _ _).2 hn) with q | ⟨k', j, q1, q2, q3⟩
            · exact Or.inl q
            · exact Or.inr ⟨k', j, List.mem_append_left _ q1, q2, q3⟩
      obtain ⟨r, hr, hr2⟩ := ih (done ++ [k]) (a.set (oldName k i) v) (by rw [← e]; exact hnd) hc
      rw [e]
      exact ⟨r, hr, hr2⟩

theorem collected (title software version id : A) (file : ODict A) :
    ∃ r, updateAttrs (newAttrs title software version id) file = some r ∧
      Collected (newAttrs title software version id) file attrNames r := by
  have hk : (newAttrs title software version id).keys = attrNames := rfl
  obtain ⟨r, h1, h2⟩ := collect (newAttrs title software version id) file (by rw [hk]; exact fun _ h => h)
    attrNames [] (newAttrs title software version id) (by decide)
    ⟨fun _ _ => rfl, by simp, fun n hn => Or.inl hn, by rw [hk]; decide⟩
  refine ⟨r, ?_, by simpa using h2⟩
  unfold updateAttrs
  rw [hk]
  exact h1

theorem writeAttrs_all (a file : ODict A) (hn : a.keys.Nodup) (k : String) :
    (writeAttrs a file a.length).get? k = (a.get? k).or (file.get? k) := by
  unfold writeAttrs
  rw [List.take_length]
  exact ODict.get?_foldl_set a hn k file

/-- **C41.** `_final(update=True)` terminates; every attribute value that was in the file is
still there, under its own name or, if that is one of the names written, under a
name that was not in use; the new values are in the file. -/
theorem C41_keeps_old (title software version id : A) (file : ODict A) :
    ∃ file', finalFile true (newAttrs title software version id) file = some file' ∧
      (∀ k v, file.get? k = some v → k ∉ attrNames → file'.get? k = some v) ∧
      (∀ k v, file.get? k = some v → k ∈ attrNames →
        ∃ j, oldName k j ∉ file.keys ∧ file'.get? (oldName k j) = some v) ∧
      (∀ k v, (newAttrs title software version id).get? k = some v → file'.get? k = some v) ∧
      ∀ k ∈ file'.keys, k ∈ file.keys ∨ k ∈ attrNames ∨ ∃ k0 ∈ attrNames, ∃ j, k = oldName k0 j := by
  obtain ⟨r, h1, h2⟩ := collected title software version id file
  have hr := writeAttrs_all r file h2.nodup
  refine ⟨writeAttrs r file r.length, ?_, ?_, ?_, ?_, ?_⟩
  · unfold finalFile finalAttrs
    rw [if_pos rfl, h1]
    rfl
  · intro k v hv hk
    have hkf : k ∈ file.keys := (ODict.mem_keys_iff _ _).2 (by rw [hv]; simp)
    rw [hr, (ODict.get?_eq_none_iff _ _).2, Option.none_or, hv]
    intro hc
    rcases h2.only k hc with q | ⟨_, _, _, _, q⟩
    · exact hk q
    · exact q hkf
  · intro k v hv hk
    obtain ⟨j, q1, q2⟩ := h2.saved k hk v hv
    exact ⟨j, q1, by rw [hr, q2]; rfl⟩
  · intro k v hv
    have hk : k ∈ (newAttrs title software version id).keys := (ODict.mem_keys_iff _ _).2 (by rw [hv]; simp)
    rw [hr, h2.keep k hk, hv]
    rfl
  · intro k hk
    rw [ODict.mem_keys_iff, hr] at hk
    cases hrk : r.get? k with
    | none =>
      rw [hrk, Option.none_or] at hk
      exact Or.inl ((ODict.mem_keys_iff _ _).2 hk)
    | some v =>
      rcases h2.only k ((ODict.mem_keys_iff _ _).2 (by rw [hrk]; simp)) with q | ⟨k0, j, q1, q2, _⟩
      · exact Or.inr (Or.inl q)
      · exact Or.inr (Or.inr ⟨k0, q1, j, q2⟩)

/-- **C41**, histories: after any number of updates every attribute value that was ever in
the file is still present. -/
theorem C41_histories (l : List (A × A × A × A)) (file : ODict A) :
    ∃ file', l.foldlM (fun f (p : A × A × A × A) =>
        finalFile true (newAttrs p.1 p.2.1 p.2.2.1 p.2.2.2) f) file = some file' ∧
      ∀ k v, file.get? k = some v → ∃ k', file'.get? k' = some v := by
  induction l generalizing file with
  | nil => exact ⟨file, rfl, fun k v h => ⟨k, h⟩⟩
  | cons p t ih =>
    obtain ⟨f1, h1, h2, h3, _⟩ := C41_keeps_old p.1 p.2.1 p.2.2.1 p.2.2.2 file
    obtain ⟨f2, h4, h5⟩ := ih f1
    refine ⟨f2, ?_, ?_⟩
    · rw [List.foldlM_cons, h1]
      exact h4
    · intro k v hv
      by_cases hk : k ∈ attrNames
      · obtain ⟨j, _, q⟩ := h3 k v hv hk
        exact h5 _ v q
      · exact h5 k v (h2 k v hv hk)

/-- Two updates of a file that has an attribute of its own. -/
example : (do
    let f ← finalFile false (newAttrs "grid" "zoidberg" "1" "a") [("author", "me")]
    let f ← finalFile true (newAttrs "grid" "zoidberg" "2" "b") f
    finalFile true (newAttrs "grid" "zoidberg" "3" "c") f).map (fun f =>
      (ODict.get? f "id", ODict.get? f "old_id", ODict.get? f "old0_id", ODict.get? f "author")) =
    some (some "c", some "a", some "b", some "me") := by decide +kernel

/-- **C104**, the claim: a process that is stopped between two writes has not lost an
attribute value either. -/
def CrashSafe (attrs file : ODict A) : Prop :=
  ∀ a, finalAttrs true attrs file = some a → ∀ n k v, file.get? k = some v →
    ∃ k', (writeAttrs a file n).get? k' = some v

/-- **C104** before anything and after everything has been written.  Missing: the states in
between, for which it is false (`C104_fails`). -/
theorem C104_ends_partial (title software version id : A) (file : ODict A) (a : ODict A)
    (ha : finalAttrs true (newAttrs title software version id) file = some a) (n : ℕ)
    (hn : n = 0 ∨ a.length ≤ n) (k : String) (v : A) (hv : file.get? k = some v) :
    ∃ k', (writeAttrs a file n).get? k' = some v := by
  rcases hn with rfl | hn
  · exact ⟨k, hv⟩
  · have e : writeAttrs a file n = writeAttrs a file a.length := by
      unfold writeAttrs
      rw [List.take_of_length_le hn, List.take_length]
    rw [e]
    obtain ⟨f', h1, h2, h3, _⟩ := C41_keeps_old title software version id file
    unfold finalFile at h1
    rw [ha] at h1
    simp only [Option.map_some, Option.some.injEq] at h1
    rw [h1]
    by_cases hk : k ∈ attrNames
    · obtain ⟨j, _, q⟩ := h3 k v hv hk
      exact ⟨_, q⟩
    · exact ⟨k, h2 k v hv hk⟩

/-- **C104** is false: the new values are written before the old ones are saved. -/
theorem C104_fails : ∃ file : ODict String,
    ¬ CrashSafe (newAttrs "t" "zoidberg" "2" "b") file := by
  refine ⟨[("id", "a")], ?_⟩
  intro h
  obtain ⟨a, ha, hc⟩ : ∃ a, finalAttrs true (newAttrs "t" "zoidberg" "2" "b") [("id", "a")] = some a ∧
      (writeAttrs a [("id", "a")] 4).map (·.2) = ["b", "t", "zoidberg", "2"] := by
    refine ⟨_, rfl, ?_⟩
    decide +kernel
  obtain ⟨k', hk'⟩ := h a ha 4 "id" "a" rfl
  have : "a" ∈ (writeAttrs a [("id", "a")] 4).map (·.2) := by
    generalize writeAttrs a [("id", "a")] 4 = d at hk' ⊢
    clear hc ha h
    induction d with
    | nil => simp at hk'
    | cons p t ih =>
      obtain ⟨k1, v1⟩ := p
      rw [ODict.get?_cons] at hk'
      split at hk'
      · injection hk' with hk'
        subst hk'
        simp
      · exact List.mem_cons_of_mem _ (ih hk')
  rw [hc] at this
  revert this
  decide

end Zoidberg
