import Verif.Props.SmoothLoop
import Verif.Props.Plot

/-!
# C168 and C175: exact conditions
-/

set_option linter.unusedSectionVars false

namespace Zoidberg

/-- A run has no gaps. -/
theorem chain_fills : ∀ (m : List ℤ), m.IsChain (fun a b => a + 1 = b) → ∀ i ∈ m, ∀ j ∈ m, ∀ c, i ≤ c → c ≤ j → c ∈ m := by
  intro m hc i hi j hj c h1 h2
  cases hh : m.head? with
  | none =>
    rw [List.head?_eq_none_iff] at hh
    subst hh
    cases hi
  | some s =>
    have e := chain_eq m s hh hc
    rw [e] at hi hj ⊢
    obtain ⟨a, ha, rfl⟩ := List.mem_map.1 hi
    obtain ⟨b, hb, rfl⟩ := List.mem_map.1 hj
    refine List.mem_map.2 ⟨(c - s).toNat, List.mem_range.2 ?_, ?_⟩
    · have := List.mem_range.1 hb
      omega
    · omega

/-- **C168, the exact condition.** No point belongs to two runs exactly if for all points of the windows that are the same point of the closed line, all points between them belong
to windows as well. -/
theorem C168_iff (b len : ℕ) (outliers : List ℤ) (runs : List (List ℤ)) (h : pointsToSmooth b outliers len = .ok runs) :
    (∀ m ∈ runs, ∀ n ∈ runs, m ≠ n → ∀ i ∈ m, ∀ j ∈ n, i % (len : ℤ) ≠ j % (len : ℤ)) ↔
      ∀ i j : ℤ, ((∃ d ∈ outliers, d - b ≤ i ∧ i ≤ d + b) ∧ i < len) → ((∃ d ∈ outliers, d - b ≤ j ∧ j ≤ d + b) ∧ j < len) → i < j → i % (len : ℤ) = j % (len : ℤ) →
        ∀ c, i < c → c < j → ∃ d ∈ outliers, d - b ≤ c ∧ c ≤ d + b := by
  obtain ⟨h1, h2, h3⟩ := C88_runs b len outliers runs h
  constructor
  · intro hd i j hi hj hij he c hc1 hc2
    obtain ⟨m, hm, him⟩ := List.mem_flatten.1 ((h3 i).2 hi)
    obtain ⟨n, hn, hjn⟩ := List.mem_flatten.1 ((h3 j).2 hj)
    have hmn : m = n := by
      by_contra hne
      exact hd m hm n hn hne i him j hjn he
    subst hmn
    exact ((h3 c).1 (List.mem_flatten.2 ⟨m, hm, chain_fills m (h2.2.1 m hm).2 i him j hjn c hc1.le hc2.le⟩)).1
  · intro hw
    have key : ∀ m ∈ runs, ∀ n ∈ runs, ∀ i ∈ m, ∀ j ∈ n, i < j → i % (len : ℤ) = j % (len : ℤ) → m = n := by
      intro m hm n hn i hi j hj hij he
      have hwi := (h3 i).1 (List.mem_flatten.2 ⟨m, hm, hi⟩)
      have hwj := (h3 j).1 (List.mem_flatten.2 ⟨n, hn, hj⟩)
      have hall : ∀ k : ℕ, i + k ≤ j → i + (k : ℤ) ∈ m := by
        intro k
        induction k with
        | zero => intro _; simpa using hi
        | succ k ih =>
          intro hk
          push_cast at hk ⊢
          have := ih (by omega)
          rw [← add_assoc]
          refine run_next runs h1 h2 m hm _ this ((h3 _).2 ?_)
          rcases lt_or_eq_of_le (by omega : i + (k : ℤ) + 1 ≤ j) with h5 | h5
          · exact ⟨hw i j hwi hwj hij he _ (by omega) h5, by have := hwj.2; omega⟩
          · rw [h5]; exact hwj
      have hjm := hall (j - i).toNat (by omega)
      rw [show i + ((j - i).toNat : ℤ) = j by omega] at hjm
      exact run_unique runs h1 m n hm hn j hjm hj
    intro m hm n hn hne i hi j hj he
    rcases lt_trichotomy i j with h5 | h5 | h5
    · exact hne (key m hm n hn i hi j hj h5 he)
    · subst h5
      exact hne (run_unique runs h1 m n hm hn i hi hj)
    · exact hne (key n hn m hm j hj i hi h5 he.symm).symm

/-- Cases: overlapping runs, and runs that do not overlap although there is an outlier near the start. -/
example : (pointsToSmooth 2 [0, 6] 10).toOption = some [[-2, -1, 0, 1, 2], [4, 5, 6, 7, 8]] ∧ (pointsToSmooth 2 [0, 5] 10).toOption = some [[-2, -1, 0, 1, 2, 3, 4, 5, 6, 7]] := by
  decide +kernel

variable {K : Type} [Field K] [LinearOrder K] [IsStrictOrderedRing K]

/-- **C175 on rectangular grids, the exact condition**: which positions have the marks that they should have.  `d` is the spacing. -/
theorem C175_iff (nx nz mxg : ℕ) (h1 : 2 * mxg < nx) (h2 : 1 ≤ nz) (Lx Lz Rc Zc : K) (hL : 0 < Lx) (g : RectPol K) (hg : RectPol.init nx nz Lx Lz Rc Zc mxg = .ok g) (R Z : K) :
    (((g.findIndex R Z).1 < 0 ↔ R < Rc - Lx / 2) ↔ ¬ (R < Rc - g.dR * ((nx : K) - 1) / 2 ∧ Rc - Lx / 2 ≤ R) ∧ ¬ (Rc - g.dR * ((nx : K) - 1) / 2 ≤ R ∧ R < Rc - Lx / 2)) ∧
    (((g.findIndex R Z).1 > (nx : K) - 1 / 2 ↔ R > Rc + Lx / 2) ↔ ¬ (Rc + Lx / 2 < R ∧ R ≤ Rc + Lx / 2 + mxg * g.dR)) := by
  have hn : ¬ (nx = 2 * mxg ∨ nz = 0) := by omega
  have hK : (0 : K) < (nx : K) - 2 * mxg := by
    have : ((2 * mxg : ℕ) : K) < nx := by exact_mod_cast h1
    push_cast at this
    linarith
  unfold RectPol.init at hg
  rw [if_neg hn] at hg
  injection hg with hg
  subst hg
  dsimp only [RectPol.findIndex]
  set d : K := Lx / ((nx : K) - 2 * mxg) with hd
  have hdp : 0 < d := div_pos hL hK
  have hL' : Lx = d * ((nx : K) - 2 * mxg) := by rw [hd]; field_simp
  have hm : (0 : K) ≤ mxg * d := by positivity
  rw [div_lt_iff₀ hdp, zero_mul, sub_lt_zero, gt_iff_lt, gt_iff_lt, lt_div_iff₀ hdp]
  constructor
  · constructor
    · intro h
      exact ⟨fun ⟨a, c⟩ => absurd (h.1 a) (not_lt.2 c), fun ⟨a, c⟩ => absurd (h.2 c) (not_lt.2 a)⟩
    · rintro ⟨h3, h4⟩
      constructor
      · intro h
        by_contra hc
        exact h3 ⟨h, not_lt.1 hc⟩
      · intro h
        by_contra hc
        exact h4 ⟨not_lt.1 hc, h⟩
  · have e : ((nx : K) - 1 / 2) * d < R - (Rc - d * ((nx : K) - 1) / 2) ↔ Rc + Lx / 2 + mxg * d < R := by
      rw [hL']
      constructor <;> intro h <;> nlinarith
    rw [e]
    constructor
    · rintro h ⟨a, c⟩
      exact absurd (h.2 a) (not_lt.2 c)
    · intro h
      refine ⟨fun a => by linarith, fun a => ?_⟩
      by_contra hc
      exact h ⟨a, not_lt.1 hc⟩

/-- A case: a grid with two guard cells. -/
example : (RectPol.init 8 4 (4 : ℚ) 1 2 0 2).toBool = true := by decide +kernel

end Zoidberg
