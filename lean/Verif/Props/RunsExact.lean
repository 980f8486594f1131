import Verif.Props.Smooth
import Verif.Props.FastLine

/-!
# Exact conditions for the lengths of the runs (C88) and for `line_from_points_fast` (C230)
-/

set_option linter.unusedSectionVars false

namespace Zoidberg

/-! ## C88 -/

theorem consecutive_le (m : List ℤ) (h : m.IsChain fun a b => a + 1 = b) (x : ℤ) (hx : m.getLast? = some x) :
    ∀ y, y ∈ m ↔ x - m.length < y ∧ y ≤ x := by
  induction m with
  | nil => cases hx
  | cons a m ih =>
    cases m with
    | nil =>
      simp at hx
      subst hx
      intro y
      simp
      omega
    | cons b m =>
      rw [List.isChain_cons_cons] at h
      rw [List.getLast?_cons_cons] at hx
      have := ih h.2 hx
      intro y
      rw [List.mem_cons, this y]
      have hb := (this b).1 (by simp)
      have ha := this a
      have hna : a ∉ b :: m := by
        intro hmem
        have hc : ∀ (l : List ℤ) (c : ℤ), (c :: l).IsChain (fun a b => a + 1 = b) → ∀ z ∈ c :: l, c ≤ z := by
          intro l
          induction l with
          | nil => intro c _ z hz; simp at hz; omega
          | cons d l ih2 =>
            intro c hc z hz
            rw [List.isChain_cons_cons] at hc
            rcases List.mem_cons.1 hz with rfl | hz
            · exact le_rfl
            · have := ih2 d hc.2 z hz
              omega
        have := hc m b h.2 a hmem
        omega
      simp only [List.length_cons] at this ha hb ⊢
      push_cast at this ha hb ⊢
      have h1 := h.1
      have : ¬ (x - (m.length + 1) < a ∧ a ≤ x) := fun hh => hna (ha.2 hh)
      constructor
      · rintro (rfl | h2) <;> omega
      · intro h2
        omega

/-- The windows of the outliers beyond the end leave a whole run at the end, or touch nothing. -/
def EndCovered (b len : ℕ) (outliers : List ℤ) : Prop :=
  (∃ d ∈ outliers, (len : ℤ) ≤ d ∧ d - b < len) → ∀ x : ℤ, (len : ℤ) - 1 - b ≤ x → x < len → ∃ d ∈ outliers, d - b ≤ x ∧ x ≤ d + b

/-- **C88, the exact condition** for the last part: all runs have at least `bounds + 1` entries exactly if, where the window of an outlier beyond the end reaches into the array, the last
`bounds + 1` points are all in some window. -/
theorem C88_iff (b len : ℕ) (outliers : List ℤ) (runs : List (List ℤ)) (h : pointsToSmooth b outliers len = .ok runs) :
    (∀ m ∈ runs, b + 1 ≤ m.length) ↔ EndCovered b len outliers := by
  obtain ⟨hs, hg, hmem⟩ := C88_runs b len outliers runs h
  have count : ∀ (m : List ℤ) (lo : ℤ), (∀ y, lo ≤ y → y ≤ lo + b → y ∈ m) → b + 1 ≤ m.length := by
    intro m lo hall
    have hsub : ((List.range (b + 1)).map fun i : ℕ => lo + (i : ℤ)) ⊆ m := by
      intro y hy
      obtain ⟨i, hi, rfl⟩ := List.mem_map.mp hy
      rw [List.mem_range] at hi
      exact hall _ (by omega) (by omega)
    have hnd : ((List.range (b + 1)).map fun i : ℕ => lo + (i : ℤ)).Nodup := List.nodup_range.map fun i j hij => by simpa using hij
    have := (hnd.subperm hsub).length_le
    simpa using this
  constructor
  · rintro hl ⟨d, hd, h1, h2⟩ x hx1 hx2
    have hin : ((len : ℤ) - 1) ∈ runs.flatten := (hmem _).2 ⟨⟨d, hd, by omega, by omega⟩, by omega⟩
    obtain ⟨m, hm, hme⟩ := List.mem_flatten.1 hin
    obtain ⟨hne, hch⟩ := hg.2.1 m hm
    have hlast : ∀ y ∈ m, y < len := fun y hy => ((hmem y).1 (List.mem_flatten.2 ⟨m, hm, hy⟩)).2
    have hg2 := List.getLast?_eq_some_getLast hne
    have hc := consecutive_le m hch _ hg2
    have e1 := hlast _ (List.getLast_mem hne)
    have e2 := (hc _).1 hme
    have hlen := hl m hm
    have hxm : x ∈ m := (hc x).2 ⟨by omega, by omega⟩
    obtain ⟨⟨d', hd', h3, h4⟩, -⟩ := (hmem x).1 (List.mem_flatten.2 ⟨m, hm, hxm⟩)
    exact ⟨d', hd', h3, h4⟩
  · intro hcov m hm
    obtain ⟨x, hx⟩ := List.exists_mem_of_ne_nil _ (hg.2.1 m hm).1
    obtain ⟨⟨d, hd, h1, h2⟩, h3⟩ := (hmem x).mp (List.mem_flatten.mpr ⟨m, hm, hx⟩)
    rcases lt_or_ge d (len : ℤ) with hdl | hdl
    · have hint := run_interval runs hs hg m hm (d - b) (min (d + b) (len - 1)) x hx h1 (by omega) fun y hy1 hy2 =>
        (hmem y).mpr ⟨⟨d, hd, hy1, by omega⟩, by omega⟩
      exact count m (d - b) fun y hy1 hy2 => hint y hy1 (by omega)
    · have hc := hcov ⟨d, hd, hdl, by omega⟩
      have hint := run_interval runs hs hg m hm (min (d - b) ((len : ℤ) - 1 - b)) (len - 1) x hx (by omega) (by omega) fun y hy1 hy2 => by
        rcases lt_or_ge y (d - b) with h | h
        · exact (hmem y).2 ⟨hc y (by omega) (by omega), by omega⟩
        · exact (hmem y).2 ⟨⟨d, hd, h, by omega⟩, by omega⟩
      exact count m ((len : ℤ) - 1 - b) fun y hy1 hy2 => hint y (by omega) (by omega)

/-- A number beyond the end that does no harm, since another window is next to it. -/
example : EndCovered 2 10 [7, 11] := by
  rintro - x h1 h2
  push_cast at h1 h2
  exact ⟨7, by simp, by push_cast; omega, by push_cast; omega⟩

/-- One that does. -/
example : ¬ EndCovered 2 10 [11] := by
  intro h
  obtain ⟨d, hd, h1, h2⟩ := h ⟨11, by simp, by norm_num, by norm_num⟩ 8 (by norm_num) (by norm_num)
  simp at hd
  subst hd
  norm_num at h1

/-! ## C230 -/

/-- The angles about `m` along the line, from some point of it, increase or decrease. -/
def AnglesMonotone (p : List (ℝ × ℝ)) (m : ℝ × ℝ) : Prop :=
  ∃ j, ((p.rotate j).map (fastAngle m)).Pairwise (· < ·) ∨ (((p.rotate j).reverse).map (fastAngle m)).Pairwise (· < ·)

theorem pairwise_lt_of_le {f : ℝ × ℝ → ℝ} {t : List (ℝ × ℝ)} (h : (t.map f).Pairwise (· ≤ ·)) (hn : (t.map f).Nodup) : (t.map f).Pairwise (· < ·) := by
  have := List.Pairwise.and h hn
  exact this.imp fun ⟨h1, h2⟩ => lt_of_le_of_ne h1 h2

/-- **C230, the exact condition**: an anticlockwise line whose points are seen from their mean at different angles is found again from its points in any order exactly if these angles are
monotone along it. -/
theorem C230_iff (e : RzEnv ℝ) (he : SplrepTotal e) (argsort : List ℝ → List ℕ) (ha : IsArgsort argsort) (p : List (ℝ × ℝ))
    (hn : (p.map (fastAngle (meanPt p))).Nodup) (harea : 0 < signedArea p) (pts : List (ℝ × ℝ)) (hp : pts.Perm p) (order smooth : Option ℕ) :
    (∃ l k, lineFromPointsFast e (fun y x => Complex.arg ⟨x, y⟩) argsort pts order smooth = .ok l ∧ l.pts = p.rotate k) ↔ AnglesMonotone p (meanPt p) := by
  set q := takePts pts (argsort (pts.map (fastAngle (meanPt pts)))) with hq
  have hperm : q.Perm pts := takePts_perm (by
    have := (ha (pts.map (fastAngle (meanPt pts)))).1
    rwa [List.length_map] at this)
  have hfast : lineFromPointsFast e (fun y x => Complex.arg ⟨x, y⟩) argsort pts order smooth = RZLine.ofPts e q true order smooth := by
    unfold lineFromPointsFast
    rfl
  have hsort : (q.map (fastAngle (meanPt p))).Pairwise (· ≤ ·) := by
    rw [← meanPt_perm hp]
    exact takePts_sorted ha
  have hnq : (q.map (fastAngle (meanPt p))).Nodup := (((hperm.trans hp).map (fastAngle (meanPt p))).nodup_iff).2 hn
  have hlt := pairwise_lt_of_le hsort hnq
  rw [hfast]
  constructor
  · rintro ⟨l, k, hl, hk⟩
    refine ⟨k, ?_⟩
    obtain ⟨-, h2 | h2⟩ := C54_anticlockwise _ _ _ _ _ hl
    · left
      rw [← hk, h2]
      exact hlt
    · right
      rw [← hk, h2, List.reverse_reverse]
      exact hlt
  · rintro ⟨j, hj | hj⟩
    · have ht : q = p.rotate j := sorted_unique (f := fastAngle (meanPt p)) ((hperm.trans hp).trans (List.rotate_perm p j).symm) hsort hj
      have hpos : signedArea q = signedArea p := by rw [ht, signedArea_rotate]
      obtain ⟨l, hl⟩ := ofPts_ok he (p := q) (by rw [hpos]; exact harea.ne') order smooth
      refine ⟨l, j, hl, ?_⟩
      obtain ⟨h1, h2 | h2⟩ := C54_anticlockwise _ _ _ _ _ hl
      · rw [h2, ht]
      · rw [h2, signedArea_reverse, hpos] at h1; linarith
    · have ht : q = (p.rotate j).reverse :=
        sorted_unique (f := fastAngle (meanPt p)) ((hperm.trans hp).trans ((List.rotate_perm p j).symm.trans (List.reverse_perm _).symm)) hsort hj
      have hneg : signedArea q = -signedArea p := by rw [ht, signedArea_reverse, signedArea_rotate]
      obtain ⟨l, hl⟩ := ofPts_ok he (p := q) (by rw [hneg]; linarith) order smooth
      refine ⟨l, j, hl, ?_⟩
      obtain ⟨h1, h2 | h2⟩ := C54_anticlockwise _ _ _ _ _ hl
      · rw [h2, hneg] at h1; linarith
      · rw [h2, ht, List.reverse_reverse]

/-- Star-shaped lines meet both conditions. -/
example (p : List (ℝ × ℝ)) (hs : StarShaped p (meanPt p)) : AnglesMonotone p (meanPt p) ∧ (p.map (fastAngle (meanPt p))).Nodup := by
  obtain ⟨j, hj⟩ := star_sorted hs
  refine ⟨⟨j, Or.inr hj⟩, ?_⟩
  have h1 : (((p.rotate j).reverse).map (fastAngle (meanPt p))).Nodup := hj.imp fun h => h.ne
  exact ((((List.reverse_perm _).trans (List.rotate_perm p j)).map _).nodup_iff).1 h1

end Zoidberg
