import Verif.Lemmas.Hodrick
import Mathlib.Tactic.IntervalCases

/-!
# C53: the Hodrick-Prescott filter gives the trend of the series
-/
namespace Iode.Hodrick.C53

open Iode.Hodrick Iode.Spec.Hodrick Finset

variable {K : Type} [Field K] [LinearOrder K]

/-- The weights for which the filter is exact: zero, or at least twice the threshold under which `M_solve` takes a number for zero. -/
def Weight (l : K) : Prop := l = 0 ∨ 2 / 10 ^ 25 ≤ l

theorem firstKnown_eq (f : Nat → Option K) :
    ∀ (c i b : Nat), i ≤ b → b < i + c → (∀ k, i ≤ k → k < b → f k = none) → (f b).isSome → firstKnown f c i = b
  | 0, i, b, h1, h2, _, _ => by omega
  | c + 1, i, b, h1, h2, hn, hs => by
    rw [firstKnown]
    by_cases h : i = b
    · subst h
      rw [if_neg (by cases hfi : f i <;> simp_all)]
    · rw [hn i (le_refl _) (by omega)]
      simp only [Option.isNone_none, if_true]
      exact firstKnown_eq f c (i + 1) b (by omega) (by omega) (fun k hk => hn k (by omega)) hs

theorem firstMissing_eq (f : Nat → Option K) :
    ∀ (c i e : Nat), i ≤ e → e ≤ i + c → (∀ k, i ≤ k → k < e → (f k).isSome) → (e < i + c → f e = none) →
      firstMissing f c i = e
  | 0, i, e, h1, h2, _, _ => by rw [firstMissing]; omega
  | c + 1, i, e, h1, h2, hs, hn => by
    rw [firstMissing]
    by_cases h : i = e
    · subst h
      rw [hn (by omega)]
      rfl
    · rw [if_pos (hs i (le_refl _) (by omega))]
      exact firstMissing_eq f c (i + 1) e (by omega) (by omega) (fun k hk => hs k (by omega)) (fun he => hn (by omega))

theorem hpTest_run {nb : Nat} {f : Nat → Option K} {b d : Nat} {y : Nat → K} (h : FirstRun nb f b d y) (hd : 0 < d) :
    hpTest nb f = (b, d) := by
  have h1 : firstKnown f nb 0 = b :=
    firstKnown_eq f nb 0 b (by omega) (by have := h.inside; omega) (fun k _ hk => h.before k hk)
      (by have := h.known 0 hd; rw [Nat.add_zero] at this; rw [this]; rfl)
  have h2 : firstMissing f (nb - b) b = b + d :=
    firstMissing_eq f (nb - b) b (b + d) (by omega) (by have := h.inside; omega)
      (fun k hk hk' => by
        obtain ⟨m, rfl⟩ : ∃ m, k = b + m := ⟨k - b, by omega⟩
        rw [h.known m (by omega)]; rfl)
      (fun he => h.after (by omega))
  rw [hpTest]
  simp only [h1, h2, Nat.add_sub_cancel_left]

variable [IsStrictOrderedRing K]

theorem weight_iff (l : K) : Weight l ↔ (l = 0 ∨ 2 * (1 / 10 ^ 25) ≤ l) := by
  rw [Weight, mul_one_div]

theorem weight_nonneg {l : K} (h : Weight l) : 0 ≤ l := by
  have he : (0 : K) < 2 / 10 ^ 25 := by positivity
  rcases h with h | h <;> linarith

omit [IsStrictOrderedRing K] in
theorem solves_congr {n : Nat} {a : Nat → Nat → K} {b b' x : Nat → K} (h : ∀ i, i < n → b i = b' i)
    (hs : Spec.Linear.Solves n a b x) : Spec.Linear.Solves n a b' x := fun i hi => (hs i hi).trans (h i hi)

omit [IsStrictOrderedRing K] in
/-- The values put in the result, whatever `HP_calc` makes of the run. -/
theorem series_eq (log exp : K → K) (std : Bool) {nb : Nat} {f : Nat → Option K} {b d : Nat} {y : Nat → K}
    (h : FirstRun nb f b d y) (hd : 0 < d) (l : K) (i : Nat) :
    hpSeries log exp std nb f l i
      = if i < b ∨ b + d ≤ i then none else (hpCalc log exp std d (fun k => (f (b + k)).getD 0) l).2 (i - b) := by
  rw [hpSeries]
  simp only [hpTest_run h hd]

/-- **C53** In level (`hpstd()`, `$WsTrendStd`).  When the first values known of a series are at least four in a row, the filter gives
    over these the only series that minimises the distance plus `l` times the roughness, and nothing anywhere else. -/
theorem C53_level (log exp : K → K) {nb : Nat} {f : Nat → Option K} {b d : Nat} {y : Nat → K} (h : FirstRun nb f b d y)
    (hd : 4 ≤ d) {l : K} (hl : Weight l) :
    ∃ g, IsTrend d l y g ∧ ∀ i, hpSeries log exp true nb f l i = if b ≤ i ∧ i < b + d then some (g (i - b)) else none := by
  obtain ⟨g, hg, hs⟩ := mSolve_weights hd ((weight_iff l).1 hl) (fun i => (f (b + i)).getD 0) (fun _ => 0)
  have hs' : Spec.Linear.Solves d (weights d l) y g :=
    solves_congr (fun i hi => by rw [h.known i hi]; rfl) hs
  refine ⟨g, trend_of_solves hd (weight_nonneg hl) hs', fun i => ?_⟩
  rw [series_eq log exp true h (by omega)]
  by_cases hi : b ≤ i ∧ i < b + d
  · rw [if_neg (by omega), if_pos hi, hpCalc, if_neg (by omega)]
    simp only [Bool.not_true, Bool.false_and, Bool.false_eq_true, if_false]
    rw [hg]
    rfl
  · rw [if_neg hi, if_pos (by omega)]

/-- **C53** With logarithms (`hp()`, `$WsTrend`): the exponential of the trend of the logarithms, when the values are positive. -/
theorem C53_log (log exp : K → K) {nb : Nat} {f : Nat → Option K} {b d : Nat} {y : Nat → K} (h : FirstRun nb f b d y)
    (hd : 4 ≤ d) {l : K} (hl : Weight l) (hpos : ∀ k, k < d → 0 < y k) :
    ∃ g, IsTrend d l (fun k => log (y k)) g ∧
      ∀ i, hpSeries log exp false nb f l i = if b ≤ i ∧ i < b + d then some (exp (g (i - b))) else none := by
  obtain ⟨g, hg, hs⟩ := mSolve_weights hd ((weight_iff l).1 hl) (fun i => log ((f (b + i)).getD 0)) (fun _ => 0)
  have hs' : Spec.Linear.Solves d (weights d l) (fun k => log (y k)) g :=
    solves_congr (fun i hi => by rw [h.known i hi]; rfl) hs
  refine ⟨g, trend_of_solves hd (weight_nonneg hl) hs', fun i => ?_⟩
  rw [series_eq log exp false h (by omega)]
  by_cases hi : b ≤ i ∧ i < b + d
  · rw [if_neg (by omega), if_pos hi, hpCalc, if_neg (by omega)]
    have hany : (List.range d).any (fun i => decide ((f (b + i)).getD 0 ≤ 0)) = false := by
      rw [List.any_eq_false]
      intro k hk
      rw [h.known k (List.mem_range.1 hk)]
      simpa using hpos k (List.mem_range.1 hk)
    simp only [hany, Bool.not_false, Bool.and_false, Bool.false_eq_true, if_false, if_true]
    rw [hg]
    rfl
  · rw [if_neg hi, if_pos (by omega)]

omit [IsStrictOrderedRing K] in
/-- **C53** With logarithms, one value that is not positive among the first values known leaves no result at all. -/
theorem C53_log_none (log exp : K → K) {nb : Nat} {f : Nat → Option K} {b d : Nat} {y : Nat → K} (h : FirstRun nb f b d y)
    (l : K) {k : Nat} (hk : k < d) (hy : y k ≤ 0) (i : Nat) : hpSeries log exp false nb f l i = none := by
  rw [series_eq log exp false h (by omega)]
  split
  · rfl
  · rw [hpCalc]
    split
    · rfl
    · have hany : (List.range d).any (fun i => decide ((f (b + i)).getD 0 ≤ 0)) = true := by
        rw [List.any_eq_true]
        exact ⟨k, List.mem_range.2 hk, by rw [h.known k hk]; simpa using hy⟩
      simp only [hany, Bool.not_false, Bool.and_self, if_true]

omit [IsStrictOrderedRing K] in
/-- **C53** With one, two or three values in the first run there is no result at all, in level or with logarithms. -/
theorem C53_short (log exp : K → K) (std : Bool) {nb : Nat} {f : Nat → Option K} {b d : Nat} {y : Nat → K}
    (h : FirstRun nb f b d y) (hd : 0 < d) (h4 : d < 4) (l : K) (i : Nat) : hpSeries log exp std nb f l i = none := by
  rw [series_eq log exp std h hd]
  split
  · rfl
  · rw [hpCalc, if_pos h4]

/-- **C53** The function of LEC: at `t` between `first` and `last` it is the value at `t` of the filter over these periods, provided that
    there are five values at least in the first run; otherwise there is no value. -/
theorem C53_formula (log exp : K → K) (std : Bool) (l : K) (e : Int → Option K) {first last t : Int} {b d : Nat} {y : Nat → K}
    (h : FirstRun (last - first + 1).toNat (fun i : Nat => e (first + i)) b d y) (hd : 0 < d) :
    hpAll log exp std (some l) e first last t
      = if first ≤ t ∧ t ≤ last ∧ 5 ≤ d then
          hpSeries log exp std (last - first + 1).toNat (fun i : Nat => e (first + i)) l (t - first).toNat
        else none := by
  have hin := h.inside
  rw [hpAll]
  simp only [hpTest_run h hd]
  by_cases h1 : t < first ∨ t > last
  · rw [if_pos h1, if_neg (by omega)]
  · rw [if_neg h1]
    by_cases h2 : (last - first + 1).toNat < 5
    · rw [if_pos h2, if_neg (by omega)]
    · rw [if_neg h2]
      by_cases h3 : d < 5
      · rw [if_pos h3, if_neg (by omega)]
      · rw [if_neg h3, if_pos (by omega)]

/-- A straight line has no bend. -/
theorem bend_line (c s : K) (i : Nat) : bend (fun k => c + s * k) i = 0 := by
  rw [bend]
  push_cast
  ring

/-- **C53** The trend keeps the sum of the values and their first moment: the difference is orthogonal to every straight line. -/
theorem C53_moments {n : Nat} {l : K} {y g : Nat → K} (h : IsTrend n l y g) (c s : K) :
    ∑ i ∈ range n, (y i - g i) * (c + s * i) = 0 := by
  set v : Nat → K := fun k => c + s * k with hv
  by_contra hne
  set A := ∑ i ∈ range n, (y i - g i) * v i with hA
  set B := ∑ i ∈ range n, v i ^ 2 with hB
  have hB0 : 0 ≤ B := sum_nonneg fun i _ => sq_nonneg _
  have hcost : ∀ t : K, cost n l y (fun i => g i + t * v i) = cost n l y g - 2 * t * A + t ^ 2 * B := by
    intro t
    have h1 : ∑ i ∈ range n, (y i - (g i + t * v i)) ^ 2 = ∑ i ∈ range n, (y i - g i) ^ 2 - 2 * t * A + t ^ 2 * B := by
      rw [hA, hB, mul_sum, mul_sum, ← sum_sub_distrib, ← sum_add_distrib]
      exact sum_congr rfl fun i _ => by ring
    have h2 : ∀ k, bend (fun i => g i + t * v i) k = bend g k := by
      intro k
      have := bend_line c s k
      rw [bend] at this ⊢
      rw [bend]
      simp only [hv]
      linear_combination t * this
    rw [cost, h1, cost]
    simp only [h2]
    ring
  have hA0 : 0 < A ^ 2 := by positivity
  have h1 := (h (fun i => g i + A / (B + 1) * v i)).1
  rw [hcost] at h1
  have hB1 : 0 < B + 1 := by linarith
  have h2 : -(2 * (A / (B + 1)) * A) + (A / (B + 1)) ^ 2 * B = -(A ^ 2 * (B + 2)) / (B + 1) ^ 2 := by
    field_simp
    ring
  have h3 : -(A ^ 2 * (B + 2)) / (B + 1) ^ 2 < 0 := by
    apply div_neg_of_neg_of_pos
    · nlinarith
    · positivity
  linarith

/-- **C53** A series without bends is its own trend. -/
theorem C53_straight {n : Nat} {l : K} (hl : 0 ≤ l) {y g : Nat → K} (h : IsTrend n l y g)
    (hy : ∀ i, i < n - 2 → bend y i = 0) : ∀ i, i < n → g i = y i := by
  have h0 : cost n l y y = 0 := by
    rw [cost, sum_eq_zero (fun i _ => by ring), sum_eq_zero (fun i hi => by rw [hy i (mem_range.1 hi)]; ring)]
    ring
  have h1 : 0 ≤ cost n l y g :=
    add_nonneg (sum_nonneg fun i _ => sq_nonneg _) (mul_nonneg hl (sum_nonneg fun i _ => sq_nonneg _))
  intro i hi
  exact ((h y).2 (by rw [h0]; exact h1) i hi).symm

/-- **C53** Without roughness to pay, the trend is the series. -/
theorem C53_zero {n : Nat} {y g : Nat → K} (h : IsTrend n 0 y g) : ∀ i, i < n → g i = y i := by
  have h0 : cost n 0 y y = 0 := by
    rw [cost, sum_eq_zero (fun i _ => by ring)]
    ring
  have h1 : 0 ≤ cost n 0 y g := by
    rw [cost, zero_mul, add_zero]
    exact sum_nonneg fun i _ => sq_nonneg _
  intro i hi
  exact ((h y).2 (by rw [h0]; exact h1) i hi).symm

/-! ### Examples -/

/-- Five values after two missing ones. -/
def sample5 : Nat → Option Rat
  | 0 => none | 1 => none | 2 => some 1 | 3 => some 4 | 4 => some 2 | 5 => some 8 | 6 => some 5 | _ => none

def sample5y : Nat → Rat
  | 0 => 1 | 1 => 4 | 2 => 2 | 3 => 8 | _ => 5

example : FirstRun 8 sample5 2 5 sample5y :=
  ⟨by decide, fun i hi => by interval_cases i <;> rfl, fun k hk => by interval_cases k <;> rfl, fun _ => rfl⟩
example : Weight (1600 : Rat) := Or.inr (by norm_num)
example : ∃ g, IsTrend 5 1600 sample5y g ∧
    ∀ i, hpSeries id id true 8 sample5 1600 i = if 2 ≤ i ∧ i < 2 + 5 then some (g (i - 2)) else none :=
  C53_level id id
    ⟨by decide, fun i hi => by interval_cases i <;> rfl, fun k hk => by interval_cases k <;> rfl, fun _ => rfl⟩ (by decide)
    (Or.inr (by norm_num))
example : (List.range 8).map (hpSeries id id true 8 sample5 1) =
    [none, none, some (11/8), some (35/12), some (49/12), some (67/12), some (145/24), none] := by decide +kernel

example : hpAll id id true (some 1) (fun t => sample5 t.toNat) 0 7 3 = some (35/12) := by decide +kernel
example : hpAll id id true (some 1) (fun t => sample5 t.toNat) 3 7 3 = none := by decide +kernel
example : ∑ i ∈ range 4, ((if i = 1 then 1 else 0) - (if i = 1 then (1 : Rat) else 0)) * (1 + 0 * i) = 0 := by decide +kernel
/-- A line of four points and its trend. -/
example : (List.range 4).map (hpSeries id id true 4 (fun i => some (3 + 2 * (i : Rat))) 7)
    = [some 3, some 5, some 7, some 9] := by decide +kernel
example : hpSeries id id false 5 (fun i => some ((i : Rat) - 2)) 7 4 = none :=
  C53_log_none id id (b := 0) (y := fun i => (i : Rat) - 2)
    ⟨by decide, fun _ h => by omega, fun k _ => by rw [Nat.zero_add], fun h => by omega⟩ 7 (k := 0) (d := 5) (by decide) (by norm_num) 4

/-- Three values known. -/
example : hpSeries id id true 5 (fun i => if i < 3 then some (i : Rat) else none) 7 1 = none :=
  C53_short id id true (b := 0) (d := 3) (y := fun i => (i : Rat))
    ⟨by decide, fun _ h => by omega, fun k hk => by simp [hk], fun _ => by simp⟩ (by decide) (by decide) 7 1

/-! ### Where the filter does not give the trend -/

/-- **C53** The values known after a gap are lost: here ten values are known, and the last five get no result. -/
theorem C53_gap_counterexample : ∃ (f : Nat → Option Rat), (∀ i, i < 11 → i ≠ 5 → (f i).isSome) ∧
    (∀ i, i < 5 → (hpSeries id id true 11 f 1 i).isSome) ∧ ∀ i, 5 ≤ i → i < 11 → hpSeries id id true 11 f 1 i = none := by
  refine ⟨fun i => if i = 5 then none else some (i : Rat), fun i _ h => by simp [h], ?_, ?_⟩
  · decide +kernel
  · decide +kernel

/-- **C53** A weight above zero but below `1e-25` is not taken into account as it should: half of the matrix is ignored, and the result
    does not even have the sum of the series. -/
theorem C53_small_counterexample : ∃ (l : Rat) (y g : Nat → Rat), 0 < l ∧
    (∀ i, i < 4 → (hpCalc id id true 4 y l).2 i = some (g i)) ∧ ¬ IsTrend 4 l y g := by
  refine ⟨1 / 10 ^ 26, fun i => if i = 1 then 1 else 0,
    fun i => ((hpCalc id id true 4 (fun i => if i = 1 then 1 else 0) (1 / 10 ^ 26 : Rat)).2 i).getD 0, by norm_num, ?_, ?_⟩
  · decide +kernel
  · intro h
    have := C53_moments h 1 0
    revert this
    decide +kernel

/-- **C53** With a negative weight the system may have no solution: `HP_calc` reports success and gives zeros. -/
theorem C53_negative_counterexample : ∃ (l : Rat) (y : Nat → Rat), y 1 = 1 ∧ (hpCalc id id true 4 y l).1 = true ∧
    ∀ i, i < 4 → (hpCalc id id true 4 y l).2 i = some 0 :=
  ⟨-1 / 2, fun i => if i = 1 then 1 else 0, rfl, by decide +kernel, by decide +kernel⟩

/-- **C53** Four values are enough for `$WsTrendStd`, not for `hpstd()`. -/
theorem C53_four_counterexample : ∃ (f : Nat → Option Rat), (∀ i, i < 4 → (hpSeries id id true 6 f 1 i).isSome) ∧
    ∀ t : Int, hpAll id id true (some 1) (fun t => f t.toNat) 0 5 t = none := by
  refine ⟨fun i => if i < 4 then some (i : Rat) else none, by decide +kernel, fun t => ?_⟩
  rw [C53_formula id id true 1 _ (y := fun i => (i : Rat)) (b := 0) (d := 4)
    ⟨by decide, fun _ h => by omega, fun k hk => ?_, fun _ => by simp⟩ (by decide), if_neg (by omega)]
  simp [hk]

end Iode.Hodrick.C53
