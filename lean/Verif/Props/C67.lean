import Verif.Model.Mtfn
import Verif.Spec.Mtfn
import Mathlib.Algebra.Order.BigOperators.Group.Finset
import Mathlib.Algebra.Order.BigOperators.Ring.Finset
import Mathlib.Algebra.BigOperators.Field
import Mathlib.Analysis.SpecialFunctions.Pow.Real
import Mathlib.Tactic.FieldSimp
import Mathlib.Tactic.Ring
import Mathlib.Tactic.Linarith
import Mathlib.Tactic.NormNum

/-!
# C67: the functions of several series
-/
namespace Iode.Mtfn

open Iode.Lec (upTo)

variable {K : Type} [Field K] [LinearOrder K]

/-! ## Sums -/

theorem upTo_nil {a b : Int} (h : b < a) : upTo a b = [] := by
  have : (b - a + 1).toNat = 0 := by omega
  simp [upTo, this]

theorem upTo_cons {a b : Int} (h : a ≤ b) : upTo a b = a :: upTo (a + 1) b := by
  obtain ⟨n, hn⟩ : ∃ n : Nat, (b - a + 1).toNat = n + 1 := ⟨(b - a).toNat, by omega⟩
  have h2 : (b - (a + 1) + 1).toNat = n := by omega
  rw [upTo, upTo, hn, h2, List.range_succ_eq_map]
  simp only [List.map_cons, List.map_map, Nat.cast_zero, add_zero, List.cons.injEq, true_and]
  refine List.map_congr_left fun i _ => ?_
  simp only [Function.comp_apply, Nat.succ_eq_add_one, Nat.cast_add, Nat.cast_one]
  omega

theorem mem_upTo {a b j : Int} : j ∈ upTo a b ↔ a ≤ j ∧ j ≤ b := by
  simp only [upTo, List.mem_map, List.mem_range]
  constructor
  · rintro ⟨i, hi, rfl⟩; omega
  · rintro ⟨h1, h2⟩; exact ⟨(j - a).toNat, by omega, by omega⟩

theorem Icc_cons {a b : Int} (h : a ≤ b) (f : Int → K) : ∑ j ∈ Finset.Icc a b, f j = f a + ∑ j ∈ Finset.Icc (a + 1) b, f j := by
  have : Finset.Icc a b = insert a (Finset.Icc (a + 1) b) := by
    ext j; simp only [Finset.mem_Icc, Finset.mem_insert]; omega
  rw [this, Finset.sum_insert (by simp)]

theorem sumOver_known {f : Int → Option K} {g : Int → K} (n : Nat) : ∀ {a b : Int}, (b - a + 1).toNat = n → (∀ j, a ≤ j → j ≤ b → f j = some (g j)) →
    ∀ acc, sumOver f (upTo a b) acc = some (acc + ∑ j ∈ Finset.Icc a b, g j) := by
  induction n with
  | zero =>
    intro a b hn hf acc
    rw [upTo_nil (by omega), Finset.Icc_eq_empty (by omega)]
    simp [sumOver]
  | succ n ih =>
    intro a b hn hf acc
    have hab : a ≤ b := by omega
    rw [upTo_cons hab, sumOver, hf a (le_refl a) hab, Icc_cons hab]
    simp only []
    rw [ih (by omega) (fun j h1 h2 => hf j (by omega) h2), add_assoc]

theorem sum_known {f : Int → Option K} {g : Int → K} {a b : Int} (h : ∀ j, a ≤ j → j ≤ b → f j = some (g j)) :
    sumOver f (upTo a b) 0 = some (∑ j ∈ Finset.Icc a b, g j) := by
  rw [sumOver_known _ rfl h, zero_add]

theorem sum_missing {f : Int → Option K} {l : List Int} (h : ∃ j ∈ l, f j = none) : ∀ acc, sumOver f l acc = none := by
  induction l with
  | nil => simp at h
  | cons i l ih =>
    intro acc
    rw [sumOver]
    cases hi : f i with
    | none => rfl
    | some v =>
      obtain ⟨j, hj, hn⟩ := h
      rcases List.mem_cons.mp hj with rfl | hj
      · rw [hn] at hi; simp at hi
      · exact ih ⟨j, hj, hn⟩ _

theorem mean_known {x : Int → Option K} {u : Int → K} {a b : Int} (hab : a ≤ b) (h : Known x u a b) : mean x a b = some (Mean u a b) := by
  have : (1 + b - a : Int) = b - a + 1 := by omega
  rw [mean, sum_known h, Option.bind_some, if_neg (by omega), this]
  rfl

theorem mean_missing {x : Int → Option K} {a b : Int} (h : ∃ j, a ≤ j ∧ j ≤ b ∧ x j = none) : mean x a b = none := by
  obtain ⟨j, h1, h2, h3⟩ := h
  rw [mean, sum_missing ⟨j, mem_upTo.mpr ⟨h1, h2⟩, h3⟩]
  rfl

theorem pair_known {x y : Int → Option K} {u v : Int → K} {a b : Int} (hx : Known x u a b) (hy : Known y v a b) (f : K → K → K) :
    ∀ j, a ≤ j → j ≤ b → pair x y f j = some (f (u j) (v j)) := fun j h1 h2 => by
  rw [pair, hx j h1 h2]
  simp only []
  rw [hy j h1 h2]

/-- The covariance is the one of the manual. -/
theorem C67_covar {x y : Int → Option K} {u v : Int → K} {a b : Int} (hab : a ≤ b) (hx : Known x u a b) (hy : Known y v a b) :
    covar false x y a b = some (Covar u v a b) := by
  have : (1 + b - a : Int) = b - a + 1 := by omega
  rw [covar, if_neg (by omega), mean_known hab hx, Option.bind_some, mean_known hab hy, Option.bind_some, sum_known (pair_known hx hy _), Option.bind_some, this]
  rfl

/-- The covariance around the origin is the mean of the products. -/
theorem C67_covar0 {x y : Int → Option K} {u v : Int → K} {a b : Int} (hab : a ≤ b) (hx : Known x u a b) (hy : Known y v a b) :
    covar true x y a b = some (Mean (fun j => u j * v j) a b) := by
  have : (1 + b - a : Int) = b - a + 1 := by omega
  rw [covar, if_neg (by omega), mean_known hab hx, Option.bind_some, mean_known hab hy, Option.bind_some, sum_known (pair_known hx hy _), Option.bind_some, this]
  rfl

/-- With a missing value there is no covariance, correlation or deviation. -/
theorem C67_missing {x y : Int → Option K} {a b : Int} (h : ∃ j, a ≤ j ∧ j ≤ b ∧ (x j = none ∨ y j = none)) (orig : Bool) (sqrt : K → K) :
    covar orig x y a b = none ∧ corr sqrt x y a b = none := by
  obtain ⟨j, h1, h2, h3⟩ := h
  have hn : ¬ (1 + b - a = 0) := by omega
  rcases h3 with h3 | h3
  · have hm : mean x a b = none := mean_missing ⟨j, h1, h2, h3⟩
    simp [covar, corr, hm]
  · have hm : mean y a b = none := mean_missing ⟨j, h1, h2, h3⟩
    simp [covar, corr, hm]

section
variable [IsStrictOrderedRing K]

theorem count_pos {a b : Int} (h : a ≤ b) : (0 : K) < ((b - a + 1 : Int) : K) := by
  have : (0 : Int) < b - a + 1 := by omega
  exact_mod_cast this

/-- A variance is not negative. -/
theorem C67_var_nonneg (u : Int → K) {a b : Int} (hab : a ≤ b) : 0 ≤ Covar u u a b := by
  unfold Covar
  exact div_nonneg (Finset.sum_nonneg fun j _ => mul_self_nonneg _) (count_pos hab).le

/-- A covariance is the mean of the products less the product of the means. -/
theorem C67_products (u v : Int → K) {a b : Int} (hab : a ≤ b) : Covar u v a b = Mean (fun j => u j * v j) a b - Mean u a b * Mean v a b := by
  have hn := (count_pos (K := K) hab).ne'
  have hc : ((Finset.Icc a b).card : K) = ((b - a + 1 : Int) : K) := by
    rw [Int.card_Icc]
    have : ((b + 1 - a).toNat : Int) = b - a + 1 := by omega
    exact_mod_cast congrArg (Int.cast : Int → K) this
  have hu : ∑ j ∈ Finset.Icc a b, u j = Mean u a b * ((b - a + 1 : Int) : K) := by rw [Mean, div_mul_cancel₀ _ hn]
  have hv : ∑ j ∈ Finset.Icc a b, v j = Mean v a b * ((b - a + 1 : Int) : K) := by rw [Mean, div_mul_cancel₀ _ hn]
  have : ∑ j ∈ Finset.Icc a b, (u j - Mean u a b) * (v j - Mean v a b) =
      ∑ j ∈ Finset.Icc a b, u j * v j - Mean u a b * Mean v a b * ((b - a + 1 : Int) : K) := by
    have e : ∀ j, (u j - Mean u a b) * (v j - Mean v a b) = u j * v j - Mean u a b * v j - (u j * Mean v a b - Mean u a b * Mean v a b) := fun j => by ring
    simp only [e, Finset.sum_sub_distrib, ← Finset.mul_sum, ← Finset.sum_mul, hu, hv, Finset.sum_const, nsmul_eq_mul, hc]
    ring
  rw [Covar, this, sub_div, mul_div_cancel_right₀ _ hn]
  rfl

/-- `index` gives the first position whose value is the one looked for, provided that no value before it is missing. -/
theorem C67_index (x y : Int → Option K) {a b : Int} (hab : a ≤ b) (t j : Int) :
    index x y a b t = some j ↔ a ≤ j ∧ j ≤ b ∧ ∃ u v, x t = some u ∧ y j = some v ∧ |u - v| < 1 / 10 ^ 30 ∧
      ∀ i, a ≤ i → i < j → ∃ w, y i = some w ∧ ¬ |u - w| < 1 / 10 ^ 30 := by
  rw [index, if_neg (by omega)]
  cases hx : x t with
  | none => simp
  | some u =>
    simp only [Option.some.injEq]
    have go : ∀ (n : Nat) (a : Int), (b - a + 1).toNat = n → (indexLoop u y (upTo a b) = some j ↔ a ≤ j ∧ j ≤ b ∧ ∃ v, y j = some v ∧ |u - v| < 1 / 10 ^ 30 ∧
        ∀ i, a ≤ i → i < j → ∃ w, y i = some w ∧ ¬ |u - w| < 1 / 10 ^ 30) := by
      intro n
      induction n with
      | zero =>
        intro a hn
        rw [upTo_nil (by omega)]
        simp only [indexLoop, reduceCtorEq, false_iff, not_and]
        intro h1 h2; omega
      | succ n ih =>
        intro a hn
        rw [upTo_cons (by omega), indexLoop]
        cases hy : y a with
        | none =>
          simp only [reduceCtorEq, false_iff, not_and, not_exists]
          intro h1 h2 v hv _ hi
          rcases Int.lt_or_eq_of_le h1 with h | h
          · obtain ⟨w, hw, _⟩ := hi a (le_refl a) h
            rw [hy] at hw; simp at hw
          · rw [← h, hy] at hv; simp at hv
        | some v =>
          simp only []
          by_cases hc : |u - v| < 1 / 10 ^ 30
          · rw [if_pos hc]
            simp only [Option.some.injEq]
            constructor
            · rintro rfl
              exact ⟨le_refl a, by omega, v, hy, hc, fun i h1 h2 => by omega⟩
            · rintro ⟨h1, h2, w, hw, hc', hi⟩
              rcases Int.lt_or_eq_of_le h1 with h | h
              · obtain ⟨w', hw', hc''⟩ := hi a (le_refl a) h
                rw [hy, Option.some.injEq] at hw'
                rw [← hw'] at hc''
                exact absurd hc hc''
              · exact h
          · rw [if_neg hc, ih (a + 1) (by omega)]
            constructor
            · rintro ⟨h1, h2, w, hw, hc', hi⟩
              refine ⟨by omega, h2, w, hw, hc', fun i h3 h4 => ?_⟩
              rcases Int.lt_or_eq_of_le h3 with h | h
              · exact hi i (by omega) h4
              · exact ⟨v, by rw [← h, hy], hc⟩
            · rintro ⟨h1, h2, w, hw, hc', hi⟩
              rcases Int.lt_or_eq_of_le h1 with h | h
              · exact ⟨by omega, h2, w, hw, hc', fun i h3 h4 => hi i (by omega) h4⟩
              · rw [← h, hy, Option.some.injEq] at hw
                rw [hw] at hc; exact absurd hc' hc
    rw [go _ a rfl]
    constructor
    · rintro ⟨h1, h2, v, h⟩; exact ⟨h1, h2, u, v, rfl, h⟩
    · rintro ⟨h1, h2, u', v, rfl, h⟩; exact ⟨h1, h2, v, h⟩

omit [IsStrictOrderedRing K] in
/-- The autocorrelation. -/
theorem C67_acf {toInt : K → Option Int} {x y : Int → Option K} {v : Int → K} {a b t k : Int} {u : K} (hab : a ≤ b) (hx : x t = some u) (hk : toInt u = some k)
    (h0 : 0 ≤ k) (h4 : 4 * k ≤ b - a + 1) (hy : Known y v a b) (hv : Covar v v a b ≠ 0) :
    acf toInt x y a b t = .num ((∑ j ∈ Finset.Icc a (b - k), (v j - Mean v a b) * (v (j + k) - Mean v a b)) /
      ∑ j ∈ Finset.Icc a b, (v j - Mean v a b) * (v j - Mean v a b)) := by
  rw [acf, if_neg (by omega), hx]
  simp only []
  rw [hk]
  simp only []
  have hq : ¬ (k < 0 ∨ k > (1 + b - a).tdiv 4) := by
    rw [Int.tdiv_eq_ediv_of_nonneg (by omega)]; omega
  rw [if_neg hq, mean_known hab hy]
  simp only []
  rw [sum_known (pair_known (u := v) (v := fun j => v (j + k)) (fun j h1 h2 => hy j h1 (by omega)) (fun j h1 h2 => hy (j + k) (by omega) (by omega)) _),
    sum_known (pair_known hy hy _)]
  simp only []
  rw [if_neg]
  intro h
  apply hv
  rw [Covar, h, zero_div]

omit [IsStrictOrderedRing K] in
/-- No autocorrelation of a degree above a quarter of the number of periods, nor of a negative one. -/
theorem C67_acf_degree {toInt : K → Option Int} {x y : Int → Option K} {a b t k : Int} {u : K} (hab : a ≤ b) (hx : x t = some u) (hk : toInt u = some k)
    (h : k < 0 ∨ b - a + 1 < 4 * k) : acf toInt x y a b t = .na := by
  rw [acf, if_neg (by omega), hx]
  simp only []
  rw [hk]
  simp only []
  have hq : (k < 0 ∨ k > (1 + b - a).tdiv 4) := by
    rw [Int.tdiv_eq_ediv_of_nonneg (by omega)]; omega
  rw [if_pos hq]

/-- The autocorrelation lies between -1 and 1. -/
theorem C67_acf_bound {v : Int → K} {a b k : Int} (h0 : 0 ≤ k) :
    |∑ j ∈ Finset.Icc a (b - k), (v j - Mean v a b) * (v (j + k) - Mean v a b)| ≤ ∑ j ∈ Finset.Icc a b, (v j - Mean v a b) * (v j - Mean v a b) := by
  set g : Int → K := fun j => v j - Mean v a b with hg
  have key : ∀ s : K, s = 1 ∨ s = -1 → s * ∑ j ∈ Finset.Icc a (b - k), g j * g (j + k) ≤ ∑ j ∈ Finset.Icc a b, g j * g j := by
    intro s hs
    have hss : s * s = 1 := by rcases hs with rfl | rfl <;> ring
    have h1 : ∑ j ∈ Finset.Icc a (b - k), g j * g j ≤ ∑ j ∈ Finset.Icc a b, g j * g j :=
      Finset.sum_le_sum_of_subset_of_nonneg (Finset.Icc_subset_Icc_right (by omega)) fun j _ _ => mul_self_nonneg _
    have h2 : ∑ j ∈ Finset.Icc a (b - k), g (j + k) * g (j + k) ≤ ∑ j ∈ Finset.Icc a b, g j * g j := by
      have e : ∑ j ∈ Finset.Icc a (b - k), g (j + k) * g (j + k) = ∑ j ∈ Finset.Icc (a + k) b, g j * g j := by
        refine Finset.sum_bij (fun j _ => j + k) ?_ ?_ ?_ ?_
        · intro j hj; simp only [Finset.mem_Icc] at hj ⊢; omega
        · intro i _ j _ h; omega
        · intro j hj; simp only [Finset.mem_Icc] at hj; exact ⟨j - k, by simp only [Finset.mem_Icc]; omega, by omega⟩
        · intro j _; rfl
      rw [e]
      exact Finset.sum_le_sum_of_subset_of_nonneg (Finset.Icc_subset_Icc_left (by omega)) fun j _ _ => mul_self_nonneg _
    have h3 : s * ∑ j ∈ Finset.Icc a (b - k), g j * g (j + k) ≤ ∑ j ∈ Finset.Icc a (b - k), (g j * g j + g (j + k) * g (j + k)) / 2 := by
      rw [Finset.mul_sum]
      refine Finset.sum_le_sum fun j _ => ?_
      have := mul_self_nonneg (g j - s * g (j + k))
      have e : (g j - s * g (j + k)) * (g j - s * g (j + k)) = g j * g j - 2 * (s * (g j * g (j + k))) + s * s * (g (j + k) * g (j + k)) := by ring
      rw [e, hss] at this
      linarith
    rw [← Finset.sum_div, Finset.sum_add_distrib] at h3
    linarith
  rw [abs_le]
  have := key 1 (Or.inl rfl)
  have := key (-1) (Or.inr rfl)
  constructor <;> linarith

end

/-! ## Standard deviation and correlation -/

/-- The standard deviation is the root of the variance. -/
theorem C67_stddev {x : Int → Option ℝ} {u : Int → ℝ} {a b : Int} (hab : a ≤ b) (hx : Known x u a b) :
    stddev Real.sqrt x a b = some (Real.sqrt (Covar u u a b)) := by
  rw [stddev, var, C67_covar hab hx hx, Option.bind_some, if_neg (not_lt.mpr (C67_var_nonneg u hab))]

/-- The correlation is the covariance divided by the root of the product of the variances; there is none when a series is constant. -/
theorem C67_corr {x y : Int → Option ℝ} {u v : Int → ℝ} {a b : Int} (hab : a ≤ b) (hx : Known x u a b) (hy : Known y v a b) :
    corr Real.sqrt x y a b = if Covar u u a b = 0 ∨ Covar v v a b = 0 then none else some (Covar u v a b / Real.sqrt (Covar u u a b * Covar v v a b)) := by
  have hn := count_pos (K := ℝ) hab
  set n : ℝ := ((b - a + 1 : Int) : ℝ) with hnd
  have e : ∀ p q : Int → ℝ, ∑ j ∈ Finset.Icc a b, (p j - Mean p a b) * (q j - Mean q a b) = n * Covar p q a b := fun p q => by
    rw [Covar, ← hnd]; field_simp
  have hu := C67_var_nonneg u hab
  have hv := C67_var_nonneg v hab
  rw [corr, mean_known hab hx, Option.bind_some, mean_known hab hy, Option.bind_some, sum_known (pair_known hx hy _), Option.bind_some,
    sum_known (pair_known hx hy _), Option.bind_some, sum_known (pair_known hx hy _), Option.bind_some]
  simp only [e]
  have hprod : n * Covar u u a b * (n * Covar v v a b) = n ^ 2 * (Covar u u a b * Covar v v a b) := by ring
  by_cases h : Covar u u a b = 0 ∨ Covar v v a b = 0
  · rw [if_pos h, if_pos]
    rcases h with h | h <;> simp [h]
  · rw [if_neg h]
    rw [not_or] at h
    have hp : 0 < Covar u u a b * Covar v v a b := mul_pos (lt_of_le_of_ne hu (Ne.symm h.1)) (lt_of_le_of_ne hv (Ne.symm h.2))
    rw [if_neg (by rw [hprod, not_le]; positivity), hprod, Real.sqrt_mul (by positivity), Real.sqrt_sq hn.le]
    congr 1
    have := (Real.sqrt_pos.mpr hp).ne'
    field_simp

/-- A correlation lies between -1 and 1. -/
theorem C67_corr_bound {x y : Int → Option ℝ} {u v : Int → ℝ} {a b : Int} (hab : a ≤ b) (hx : Known x u a b) (hy : Known y v a b) {r : ℝ}
    (h : corr Real.sqrt x y a b = some r) : -1 ≤ r ∧ r ≤ 1 := by
  rw [C67_corr hab hx hy] at h
  split at h
  · simp at h
  rename_i hne
  rw [not_or] at hne
  simp only [Option.some.injEq] at h
  have hu := C67_var_nonneg u hab
  have hv := C67_var_nonneg v hab
  have hn := count_pos (K := ℝ) hab
  have hp : 0 < Covar u u a b * Covar v v a b := mul_pos (lt_of_le_of_ne hu (Ne.symm hne.1)) (lt_of_le_of_ne hv (Ne.symm hne.2))
  have cs : Covar u v a b ^ 2 ≤ Covar u u a b * Covar v v a b := by
    have := Finset.sum_mul_sq_le_sq_mul_sq (Finset.Icc a b) (fun j => u j - Mean u a b) (fun j => v j - Mean v a b)
    unfold Covar
    rw [div_pow, div_mul_div_comm, ← pow_two]
    refine div_le_div_of_nonneg_right ?_ (by positivity)
    simpa [pow_two] using this
  have hs : 0 < Real.sqrt (Covar u u a b * Covar v v a b) := Real.sqrt_pos.mpr hp
  have habs : |Covar u v a b| ≤ Real.sqrt (Covar u u a b * Covar v v a b) := Real.abs_le_sqrt cs
  rw [abs_le] at habs
  rw [← h, le_div_iff₀ hs, div_le_iff₀ hs]
  constructor <;> linarith [habs.1, habs.2]

/-! ## The nearest values -/

theorem scan_up (x : Int → Option K) (good : K → Bool) (stop n : Int) (c : Nat) : ∀ (j : Int) (last : Option K), (n - 1 - j + 1).toNat = c →
    (∃ q v, IsAfter x (fun v => good v = true) n (j - 1) q v ∧ scan x good stop (upTo j (n - 1)) last = (q, some v)) ∨
      (NoneAfter x (fun v => good v = true) n (j - 1) ∧ (scan x good stop (upTo j (n - 1)) last).1 = stop ∧
        ((∀ v, good v = true) → last = none → (scan x good stop (upTo j (n - 1)) last).2 = none)) := by
  induction c with
  | zero =>
    intro j last hc
    right
    rw [upTo_nil (by omega)]
    exact ⟨fun i h1 h2 => by omega, rfl, fun _ h => h⟩
  | succ c ih =>
    intro j last hc
    rw [upTo_cons (by omega), scan]
    have step : ∀ last', (∀ w, x j = some w → ¬ good w = true) → (((∀ v, good v = true) → last' = none)) →
        ((∃ q v, IsAfter x (fun v => good v = true) n (j - 1) q v ∧ scan x good stop (upTo (j + 1) (n - 1)) last' = (q, some v)) ∨
      (NoneAfter x (fun v => good v = true) n (j - 1) ∧ (scan x good stop (upTo (j + 1) (n - 1)) last').1 = stop ∧
        ((∀ v, good v = true) → last = none → (scan x good stop (upTo (j + 1) (n - 1)) last').2 = none))) := by
      intro last' hj hl
      rcases ih (j + 1) last' (by omega) with ⟨q, v, ⟨h1, h2, h3, h4, h5⟩, he⟩ | ⟨h1, h2, h3⟩
      · refine Or.inl ⟨q, v, ⟨by omega, h2, h3, h4, fun i hi hq => ?_⟩, he⟩
        rcases Int.lt_or_eq_of_le (show j ≤ i by omega) with h | h
        · exact h5 i (by omega) hq
        · rw [← h]; exact hj
      · refine Or.inr ⟨fun i hi hn => ?_, h2, fun hg _ => h3 hg (hl hg)⟩
        rcases Int.lt_or_eq_of_le (show j ≤ i by omega) with h | h
        · exact h1 i (by omega) hn
        · rw [← h]; exact hj
    cases hx : x j with
    | none => exact step none (by simp [hx]) fun _ => rfl
    | some v =>
      simp only []
      by_cases hg : good v = true
      · rw [if_pos hg]
        exact Or.inl ⟨j, v, ⟨by omega, by omega, hx, hg, fun i h1 h2 => by omega⟩, rfl⟩
      · rw [if_neg hg]
        refine step (some v) (fun w hw => ?_) fun hall => absurd (hall v) hg
        rw [hx, Option.some.injEq] at hw
        rw [← hw]; exact hg

theorem upTo_snoc {a b : Int} (h : a ≤ b) : upTo a b = upTo a (b - 1) ++ [b] := by
  obtain ⟨n, hn⟩ : ∃ n : Nat, (b - a + 1).toNat = n + 1 := ⟨(b - a).toNat, by omega⟩
  have h2 : (b - 1 - a + 1).toNat = n := by omega
  rw [upTo, upTo, hn, h2, List.range_succ, List.map_append]
  congr 1
  simp only [List.map_cons, List.map_nil, List.cons.injEq, and_true]
  omega

theorem downTo_nil {j : Int} (h : j < 0) : downTo j = [] := by rw [downTo, upTo_nil h, List.reverse_nil]

theorem downTo_cons {j : Int} (h : 0 ≤ j) : downTo j = j :: downTo (j - 1) := by
  rw [downTo, upTo_snoc h, List.reverse_append, downTo]
  rfl

theorem scan_down (x : Int → Option K) (good : K → Bool) (stop : Int) (c : Nat) : ∀ (j : Int) (last : Option K), (j + 1).toNat = c →
    (∃ q v, IsBefore x (fun v => good v = true) (j + 1) q v ∧ scan x good stop (downTo j) last = (q, some v)) ∨
      (NoneBefore x (fun v => good v = true) (j + 1) ∧ (scan x good stop (downTo j) last).1 = stop ∧
        ((∀ v, good v = true) → last = none → (scan x good stop (downTo j) last).2 = none)) := by
  induction c with
  | zero =>
    intro j last hc
    right
    rw [downTo_nil (by omega)]
    exact ⟨fun i h1 h2 => by omega, rfl, fun _ h => h⟩
  | succ c ih =>
    intro j last hc
    rw [downTo_cons (by omega), scan]
    have step : ∀ last', (∀ w, x j = some w → ¬ good w = true) → (((∀ v, good v = true) → last' = none)) →
        ((∃ q v, IsBefore x (fun v => good v = true) (j + 1) q v ∧ scan x good stop (downTo (j - 1)) last' = (q, some v)) ∨
      (NoneBefore x (fun v => good v = true) (j + 1) ∧ (scan x good stop (downTo (j - 1)) last').1 = stop ∧
        ((∀ v, good v = true) → last = none → (scan x good stop (downTo (j - 1)) last').2 = none))) := by
      intro last' hj hl
      rcases ih (j - 1) last' (by omega) with ⟨q, v, ⟨h1, h2, h3, h4, h5⟩, he⟩ | ⟨h1, h2, h3⟩
      · refine Or.inl ⟨q, v, ⟨h1, by omega, h3, h4, fun i hi hq => ?_⟩, he⟩
        rcases Int.lt_or_eq_of_le (show i ≤ j by omega) with h | h
        · exact h5 i hi (by omega)
        · rw [h]; exact hj
      · refine Or.inr ⟨fun i hi hn => ?_, h2, fun hg _ => h3 hg (hl hg)⟩
        rcases Int.lt_or_eq_of_le (show i ≤ j by omega) with h | h
        · exact h1 i hi (by omega)
        · rw [h]; exact hj
    cases hx : x j with
    | none => exact step none (by simp [hx]) fun _ => rfl
    | some v =>
      simp only []
      by_cases hg : good v = true
      · rw [if_pos hg]
        exact Or.inl ⟨j, v, ⟨by omega, by omega, hx, hg, fun i h1 h2 => by omega⟩, rfl⟩
      · rw [if_neg hg]
        refine step (some v) (fun w hw => ?_) fun hall => absurd (hall v) hg
        rw [hx, Option.some.injEq] at hw
        rw [← hw]; exact hg

theorem IsAfter.unique {x : Int → Option K} {G : K → Prop} {n t q q' : Int} {v v' : K} (h : IsAfter x G n t q v) (h' : IsAfter x G n t q' v') : q = q' ∧ v = v' := by
  obtain ⟨h1, h2, h3, h4, h5⟩ := h
  obtain ⟨g1, g2, g3, g4, g5⟩ := h'
  have : q = q' := by
    rcases Int.lt_trichotomy q q' with h | h | h
    · exact absurd h4 (g5 q h1 h v h3)
    · exact h
    · exact absurd g4 (h5 q' g1 h v' g3)
  subst this
  rw [h3, Option.some.injEq] at g3
  exact ⟨rfl, g3⟩

theorem IsBefore.unique {x : Int → Option K} {G : K → Prop} {t q q' : Int} {v v' : K} (h : IsBefore x G t q v) (h' : IsBefore x G t q' v') : q = q' ∧ v = v' := by
  obtain ⟨h1, h2, h3, h4, h5⟩ := h
  obtain ⟨g1, g2, g3, g4, g5⟩ := h'
  have : q = q' := by
    rcases Int.lt_trichotomy q q' with h | h | h
    · exact absurd g4 (h5 q' h g2 v' g3)
    · exact h
    · exact absurd h4 (g5 q h h2 v h3)
  subst this
  rw [h3, Option.some.injEq] at g3
  exact ⟨rfl, g3⟩

theorem after_found {x : Int → Option K} {good : K → Bool} {n t q : Int} {v : K} (h : IsAfter x (fun v => good v = true) n t q v) : after x good n (t + 1) = (q, some v) := by
  rcases scan_up x good (max (t + 1) n) n _ (t + 1) none rfl with ⟨q', v', h', he⟩ | ⟨h', _⟩
  · rw [show t + 1 - 1 = t by omega] at h'
    obtain ⟨rfl, rfl⟩ := h.unique h'
    exact he
  · obtain ⟨h1, h2, h3, h4, _⟩ := h
    exact absurd h4 (h' q (by omega) h2 v h3)

theorem after_none {x : Int → Option K} {good : K → Bool} {n t : Int} (h : NoneAfter x (fun v => good v = true) n t) :
    n ≤ (after x good n (t + 1)).1 ∧ t < (after x good n (t + 1)).1 ∧ ((∀ v, good v = true) → (after x good n (t + 1)).2 = none) := by
  rcases scan_up x good (max (t + 1) n) n _ (t + 1) none rfl with ⟨q', v', ⟨h1, h2, h3, h4, _⟩, he⟩ | ⟨_, h2, h3⟩
  · exact absurd h4 (h q' (by omega) h2 v' h3)
  · exact ⟨by rw [after, h2]; omega, by rw [after, h2]; omega, fun hg => h3 hg rfl⟩

theorem before_found {x : Int → Option K} {good : K → Bool} {t q : Int} {v : K} (h : IsBefore x (fun v => good v = true) t q v) : before x good (t - 1) = (q, some v) := by
  rcases scan_down x good (min (t - 1) (-1)) _ (t - 1) none rfl with ⟨q', v', h', he⟩ | ⟨h', _⟩
  · rw [show t - 1 + 1 = t by omega] at h'
    obtain ⟨rfl, rfl⟩ := h.unique h'
    exact he
  · obtain ⟨h1, h2, h3, h4, _⟩ := h
    exact absurd h4 (h' q h1 (by omega) v h3)

theorem before_none {x : Int → Option K} {good : K → Bool} {t : Int} (h : NoneBefore x (fun v => good v = true) t) :
    (before x good (t - 1)).1 < 0 ∧ ((∀ v, good v = true) → (before x good (t - 1)).2 = none) := by
  rcases scan_down x good (min (t - 1) (-1)) _ (t - 1) none rfl with ⟨q', v', ⟨h1, h2, h3, h4, _⟩, he⟩ | ⟨_, h2, h3⟩
  · exact absurd h4 (h q' h1 (by omega) v' h3)
  · exact ⟨by rw [before, h2]; omega, fun hg => h3 hg rfl⟩

theorem any_eq : (fun v : K => (fun _ : K => true) v = true) = Any := by funext v; simp [Any]

/-! ## Interpolation -/

/-- A value that is known is kept. -/
theorem C67_kept {x y : Int → Option K} {n t : Int} {v : K} (h : x t = some v) (pow : K → K → K) :
    interpol x n t = .num v ∧ app pow x y n t = .num v ∧ dapp x y n t = .num v := by
  refine ⟨?_, ?_, ?_⟩
  · rw [interpol, h]
  · rw [app, h]
  · rw [dapp, h]

section
variable [IsStrictOrderedRing K]

theorem line_eq {p q t : Int} (hpq : p < q) (v w : K) : (v * (q : K) - w * (p : K)) / ((q - p : Int) : K) + (t : K) * (w - v) / ((q - p : Int) : K) = Line p v q w t := by
  have h : ((q - p : Int) : K) ≠ 0 := by
    have : q - p ≠ 0 := by omega
    exact_mod_cast this
  have hq : (q : K) - (p : K) ≠ 0 := by push_cast at h; exact h
  unfold Line
  push_cast
  field_simp
  ring

/-- Between two known values the result lies on the line through the nearest ones. -/
theorem C67_interpol {x : Int → Option K} {n t p q : Int} {v w : K} (ht : x t = none) (hp : IsBefore x Any t p v) (hq : IsAfter x Any n t q w) :
    interpol x n t = .num (Line p v q w t) := by
  rw [← any_eq] at hp hq
  have hc : calcvals x (fun _ => true) n t = ((p, some v), (q, some w)) := by
    simp only [calcvals, after_found hq, before_found hp]
  obtain ⟨p0, pt, _⟩ := hp
  obtain ⟨tq, qn, _⟩ := hq
  rw [interpol, ht]
  simp only [hc]
  rw [if_neg (by simp), if_neg (by omega), if_neg (by omega), if_neg (by omega), line_eq (by omega)]

/-- After the last known value the result lies on the line through the last two ones. -/
theorem C67_interpol_last {x : Int → Option K} {n t p p2 : Int} {v v2 : K} (htn : t < n) (ht : x t = none) (hn : NoneAfter x Any n t) (hp : IsBefore x Any t p v)
    (hp2 : IsBefore x Any p p2 v2) : interpol x n t = .num (Line p2 v2 p v t) := by
  rw [← any_eq] at hp hp2 hn
  have hc : calcvals x (fun _ => true) n t = ((p2, some v2), (p, some v)) := by
    simp only [calcvals, before_found hp, (after_none hn).2.2 (fun _ => rfl), before_found hp2]
  obtain ⟨p0, pt, _⟩ := hp
  obtain ⟨p20, p2p, _⟩ := hp2
  rw [interpol, ht]
  simp only [hc]
  rw [if_neg (by simp), if_neg (by omega), if_neg (by omega), if_neg (by omega), line_eq (by omega)]

/-- Before the first known value the result lies on the line through the first two ones. -/
theorem C67_interpol_first {x : Int → Option K} {n t q q2 : Int} {w w2 : K} (h0 : 0 ≤ t) (ht : x t = none) (hn : NoneBefore x Any t) (hq : IsAfter x Any n t q w)
    (hq2 : IsAfter x Any n q q2 w2) : interpol x n t = .num (Line q w q2 w2 t) := by
  rw [← any_eq] at hq hq2 hn
  have hc : calcvals x (fun _ => true) n t = ((q, some w), (q2, some w2)) := by
    simp only [calcvals, after_found hq, (before_none hn).2 (fun _ => rfl), after_found hq2]
  obtain ⟨tq, qn, _⟩ := hq
  obtain ⟨qq2, q2n, _⟩ := hq2
  rw [interpol, ht]
  simp only [hc]
  rw [if_neg (by simp), if_neg (by omega), if_neg (by omega), if_neg (by omega), line_eq (by omega)]

omit [IsStrictOrderedRing K] in
/-- With one known value the result is this value. -/
theorem C67_interpol_one {x : Int → Option K} {n t p : Int} {v : K} (h0 : 0 ≤ t) (htn : t < n) (ht : x t = none) (hp0 : 0 ≤ p) (hpn : p < n) (hp : x p = some v)
    (hu : ∀ j, 0 ≤ j → j < n → j ≠ p → x j = none) : interpol x n t = .num v := by
  have hne : p ≠ t := fun e => by rw [e, ht] at hp; simp at hp
  rw [interpol, ht]
  simp only []
  rcases Int.lt_or_gt_of_ne hne with h | h
  · have hb : IsBefore x (fun _ => true = true) t p v := ⟨hp0, h, hp, rfl, fun j h1 h2 w hw => by rw [hu j (by omega) (by omega) (by omega)] at hw; simp at hw⟩
    have hn : NoneAfter x (fun _ => true = true) n t := fun j h1 h2 w hw => by rw [hu j (by omega) (by omega) (by omega)] at hw; simp at hw
    have hn2 : NoneBefore x (fun _ => true = true) p := fun j h1 h2 w hw => by rw [hu j (by omega) (by omega) (by omega)] at hw; simp at hw
    have hc : calcvals x (fun _ => true) n t = (before x (fun _ => true) (p - 1), (p, some v)) := by
      simp only [calcvals, before_found (good := fun _ => true) hb, (after_none (good := fun _ => true) hn).2.2 (fun _ => rfl)]
    simp only [hc]
    rw [if_neg (by simp), if_pos (before_none (good := fun _ => true) hn2).1]
    rfl
  · have hb : IsAfter x (fun _ => true = true) n t p v := ⟨h, hpn, hp, rfl, fun j h1 h2 w hw => by rw [hu j (by omega) (by omega) (by omega)] at hw; simp at hw⟩
    have hn : NoneBefore x (fun _ => true = true) t := fun j h1 h2 w hw => by rw [hu j (by omega) (by omega) (by omega)] at hw; simp at hw
    have hn2 : NoneAfter x (fun _ => true = true) n p := fun j h1 h2 w hw => by rw [hu j (by omega) (by omega) (by omega)] at hw; simp at hw
    have hc : calcvals x (fun _ => true) n t = ((p, some v), after x (fun _ => true) n (p + 1)) := by
      simp only [calcvals, after_found (good := fun _ => true) hb, (before_none (good := fun _ => true) hn).2 (fun _ => rfl)]
    simp only [hc]
    rw [if_neg (by simp), if_neg (by omega), if_pos (after_none (good := fun _ => true) hn2).1]
    rfl

omit [IsStrictOrderedRing K] in
/-- Without known values there is no result. -/
theorem C67_nothing {x y : Int → Option K} {n t : Int} (h0 : 0 ≤ t) (htn : t < n) (hu : ∀ j, 0 ≤ j → j < n → x j = none) (pow : K → K → K) :
    interpol x n t = .na ∧ app pow x y n t = .na ∧ dapp x y n t = .na := by
  have none' : ∀ good : K → Bool, (before x good (t - 1)).2 = none ∧ (after x good n (t + 1)).2 = none := by
    intro good
    have all : ∀ (l : List Int) (stop : Int), (∀ j ∈ l, x j = none) → (scan x good stop l none).2 = none := by
      intro l
      induction l with
      | nil => intro _ _; rfl
      | cons j l ih => intro stop h; rw [scan, h j (by simp)]; exact ih stop fun i hi => h i (by simp [hi])
    constructor
    · refine all _ _ fun j hj => ?_
      rw [downTo, List.mem_reverse, mem_upTo] at hj
      exact hu j hj.1 (by omega)
    · refine all _ _ fun j hj => ?_
      rw [mem_upTo] at hj
      exact hu j (by omega) (by omega)
  have hc : ∀ good : K → Bool, (calcvals x good n t).1.2 = none ∧ (calcvals x good n t).2.2 = none := fun good => by
    simp only [calcvals, (none' good).1, (none' good).2, and_self]
  refine ⟨?_, ?_, ?_⟩
  · rw [interpol, hu t h0 htn]; simp only []; rw [if_pos (by simp [hc])]
  · rw [app, hu t h0 htn]; simp only []; rw [if_pos (by simp [hc])]
  · rw [dapp, hu t h0 htn]; simp only []; rw [if_pos (by simp [hc])]

end

/-! ## Related series -/

theorem nonzero_eq : (fun v : K => notZero v = true) = NonZero := by funext v; simp [notZero, NonZero]

section
variable [IsStrictOrderedRing K]

/-- Between two known values, `dapp` adds to the related series a gap that lies on the line through the gaps at the nearest known values. -/
theorem C67_dapp {x y : Int → Option K} {n t p q : Int} {v w b b0 b1 : K} (ht : x t = none) (hp : IsBefore x Any t p v) (hq : IsAfter x Any n t q w)
    (hb : y t = some b) (hb0 : y p = some b0) (hb1 : y q = some b1) : dapp x y n t = .num (b + Line p (v - b0) q (w - b1) t) := by
  rw [← any_eq] at hp hq
  have hc : calcvals x (fun _ => true) n t = ((p, some v), (q, some w)) := by
    simp only [calcvals, after_found hq, before_found hp]
  obtain ⟨p0, pt, _⟩ := hp
  obtain ⟨tq, qn, _⟩ := hq
  rw [dapp, ht]
  simp only [hc]
  rw [if_neg (by simp), hb]
  simp only [related, if_pos p0, if_pos qn, hb0, hb1]
  rw [if_pos ⟨pt, tq⟩]
  congr 1
  unfold Line
  have h : ((q - p : Int) : K) ≠ 0 := by
    have : q - p ≠ 0 := by omega
    exact_mod_cast this
  field_simp
  ring

omit [IsStrictOrderedRing K] in
/-- Without a known value after `t` the last gap is kept. -/
theorem C67_dapp_last {x y : Int → Option K} {n t p : Int} {v b b0 : K} (htn : t < n) (ht : x t = none) (hn : NoneAfter x Any n t) (hp : IsBefore x Any t p v)
    (hb : y t = some b) (hb0 : y p = some b0) : dapp x y n t = .num (b + (v - b0)) := by
  rw [← any_eq] at hp hn
  have hc : calcvals x (fun _ => true) n t = (before x (fun _ => true) (p - 1), (p, some v)) := by
    simp only [calcvals, before_found hp, (after_none hn).2.2 (fun _ => rfl)]
  obtain ⟨p0, pt, _⟩ := hp
  rw [dapp, ht]
  simp only [hc]
  rw [if_neg (by simp), hb]
  simp only [related, if_pos (show p < n by omega), hb0]
  by_cases h : 0 ≤ (before x (fun _ => true) (p - 1)).1
  · simp only [if_pos h]
    have hlt : (before x (fun _ => true) (p - 1)).1 < p := by
      rcases scan_down x (fun _ => true) (min (p - 1) (-1)) _ (p - 1) none rfl with ⟨q', v', ⟨_, h2, _⟩, he⟩ | ⟨_, h2, _⟩
      · rw [before, he]; simp only []; omega
      · rw [before, h2]; omega
    cases y (before x (fun _ => true) (p - 1)).1 with
    | none => rfl
    | some a0 =>
      simp only []
      rw [if_neg (by omega), if_pos (by omega)]
      rfl
  · simp only [if_neg h]
    rfl

omit [IsStrictOrderedRing K] in
/-- Without a known value before `t` the first gap is taken. -/
theorem C67_dapp_first {x y : Int → Option K} {n t q : Int} {w b b1 : K} (h0 : 0 ≤ t) (ht : x t = none) (hn : NoneBefore x Any t) (hq : IsAfter x Any n t q w)
    (hb : y t = some b) (hb1 : y q = some b1) : dapp x y n t = .num (b + (w - b1)) := by
  rw [← any_eq] at hq hn
  have hc : calcvals x (fun _ => true) n t = ((q, some w), after x (fun _ => true) n (q + 1)) := by
    simp only [calcvals, after_found hq, (before_none hn).2 (fun _ => rfl)]
  obtain ⟨tq, qn, _⟩ := hq
  rw [dapp, ht]
  simp only [hc]
  rw [if_neg (by simp), hb]
  simp only [related, if_pos (show 0 ≤ q by omega), hb1]
  cases (if (after x (fun _ => true) n (q + 1)).1 < n then y (after x (fun _ => true) n (q + 1)).1 else none) with
  | none => rfl
  | some a1 =>
    simp only []
    rw [if_neg (by omega), if_neg (by omega)]
    rfl

omit [IsStrictOrderedRing K] in
/-- Without a known value after `t` the last ratio is kept. -/
theorem C67_app_last (pow : K → K → K) {x y : Int → Option K} {n t p : Int} {v b b0 : K} (htn : t < n) (ht : x t = none) (hn : NoneAfter x NonZero n t)
    (hp : IsBefore x NonZero t p v) (hb : y t = some b) (hb0 : y p = some b0) (hne : 1 / 10 ^ 15 ≤ |b0|) : app pow x y n t = .num (b * (v / b0)) := by
  rw [← nonzero_eq] at hp hn
  have hs : scale b b0 (some v) = .num (b * (v / b0)) := by rw [scale, if_neg (not_lt.mpr hne)]
  have han := (after_none hn).1
  rw [app, ht]
  simp only []
  cases ha : (after x notZero n (t + 1)).2 with
  | none =>
    have hc : calcvals x notZero n t = (before x notZero (p - 1), (p, some v)) := by
      simp only [calcvals, before_found hp, ha]
    obtain ⟨p0, pt, _⟩ := hp
    simp only [hc]
    rw [if_neg (by simp), hb]
    simp only [related, if_pos (show p < n by omega), hb0]
    by_cases h : 0 ≤ (before x notZero (p - 1)).1
    · simp only [if_pos h]
      have hlt : (before x notZero (p - 1)).1 < p := by
        rcases scan_down x notZero (min (p - 1) (-1)) _ (p - 1) none rfl with ⟨q', v', ⟨_, h2, _⟩, he⟩ | ⟨_, h2, _⟩
        · rw [before, he]; simp only []; omega
        · rw [before, h2]; omega
      cases y (before x notZero (p - 1)).1 with
      | none => exact hs
      | some a0 =>
        simp only []
        rw [if_neg (by omega), if_pos (by omega)]
        exact hs
    · simp only [if_neg h]
      exact hs
  | some z =>
    have hc : calcvals x notZero n t = ((p, some v), after x notZero n (t + 1)) := by
      simp only [calcvals, before_found hp, ha]
    obtain ⟨p0, pt, _⟩ := hp
    simp only [hc]
    rw [if_neg (by simp), hb]
    simp only [related, if_pos p0, hb0, if_neg (show ¬ (after x notZero n (t + 1)).1 < n by omega)]
    exact hs

omit [IsStrictOrderedRing K] in
/-- Without a known value before `t` the first ratio is taken. -/
theorem C67_app_first (pow : K → K → K) {x y : Int → Option K} {n t q : Int} {w b b1 : K} (h0 : 0 ≤ t) (ht : x t = none) (hn : NoneBefore x NonZero t)
    (hq : IsAfter x NonZero n t q w) (hb : y t = some b) (hb1 : y q = some b1) (hne : 1 / 10 ^ 15 ≤ |b1|) : app pow x y n t = .num (b * (w / b1)) := by
  rw [← nonzero_eq] at hq hn
  have hs : scale b b1 (some w) = .num (b * (w / b1)) := by rw [scale, if_neg (not_lt.mpr hne)]
  have hbn := (before_none hn).1
  rw [app, ht]
  simp only []
  cases ha : (before x notZero (t - 1)).2 with
  | none =>
    have hc : calcvals x notZero n t = ((q, some w), after x (fun _ => true) n (q + 1)) := by
      simp only [calcvals, after_found hq, ha]
    obtain ⟨tq, qn, _⟩ := hq
    simp only [hc]
    rw [if_neg (by simp), hb]
    simp only [related, if_pos (show 0 ≤ q by omega), hb1]
    cases (if (after x (fun _ => true) n (q + 1)).1 < n then y (after x (fun _ => true) n (q + 1)).1 else none) with
    | none => exact hs
    | some a1 =>
      simp only []
      rw [if_neg (by omega), if_neg (by omega)]
      exact hs
  | some z =>
    have hc : calcvals x notZero n t = (before x notZero (t - 1), (q, some w)) := by
      simp only [calcvals, after_found hq, ha]
    obtain ⟨tq, qn, _⟩ := hq
    simp only [hc]
    rw [if_neg (by simp), hb]
    simp only [related, if_pos qn, hb1, if_neg (show ¬ 0 ≤ (before x notZero (t - 1)).1 by omega)]
    exact hs

omit [IsStrictOrderedRing K] in
/-- Without a value other than zero there is no result, when the related series has no values outside of the sample. -/
theorem C67_app_none (pow : K → K → K) {x y : Int → Option K} {n t : Int} (h0 : 0 ≤ t) (htn : t < n) (ht : x t = none) (hn : NoneBefore x NonZero t)
    (ha : NoneAfter x NonZero n t) (hy : ∀ j, j < 0 ∨ n ≤ j → y j = none) : app pow x y n t = .na := by
  rw [← nonzero_eq] at hn ha
  have hbn := (before_none hn).1
  have han := (after_none ha).1
  rw [app, ht]
  simp only []
  split
  · rfl
  · cases y t with
    | none => rfl
    | some b =>
      simp only []
      have hr : related y n (calcvals x notZero n t) = (none, none) := by
        have hlt : ∀ j, j < 0 → (before x notZero j).1 < 0 := fun j hj => by rw [before, downTo_nil hj, scan]; simp only []; omega
        have hge : ∀ j, n ≤ j → n ≤ (after x (fun _ => true) n j).1 := fun j hj => by rw [after, upTo_nil (by omega), scan]; simp only []; omega
        unfold calcvals
        cases h1 : (before x notZero (t - 1)).2 <;> cases h2 : (after x notZero n (t + 1)).2
        · simp only [h1, h2, related, if_neg (show ¬ 0 ≤ (before x notZero (t - 1)).1 by omega), if_neg (show ¬ (after x notZero n (t + 1)).1 < n by omega)]
        · have := hge ((after x notZero n (t + 1)).1 + 1) (by omega)
          simp only [h1, h2, related, if_neg (show ¬ (after x (fun _ => true) n ((after x notZero n (t + 1)).1 + 1)).1 < n by omega), hy _ (Or.inr han), ite_self]
        · have := hlt ((before x notZero (t - 1)).1 - 1) (by omega)
          simp only [h1, h2, related, if_neg (show ¬ 0 ≤ (before x notZero ((before x notZero (t - 1)).1 - 1)).1 by omega), hy _ (Or.inl hbn), ite_self]
        · simp only [h1, h2, related, if_neg (show ¬ 0 ≤ (before x notZero (t - 1)).1 by omega), if_neg (show ¬ (after x notZero n (t + 1)).1 < n by omega)]
      rw [hr]

end

/-- Between two known values, `app` multiplies the first one by the growth of the related series, corrected geometrically. -/
theorem C67_app {x y : Int → Option ℝ} {n t p q : Int} {v w b b0 b1 : ℝ} (ht : x t = none) (hp : IsBefore x NonZero t p v) (hq : IsAfter x NonZero n t q w)
    (hb : y t = some b) (hb0 : y p = some b0) (hb1 : y q = some b1) (hne : b0 ≠ 0) (hvb : 1 / 10 ^ 15 ≤ |v * b1|) (hd : 0 ≤ (w / v) / (b1 / b0)) :
    app (fun a c => a ^ c) x y n t = .num (v * (b / b0) * ((w / v) / (b1 / b0)) ^ (((t - p : Int) : ℝ) / ((q - p : Int) : ℝ))) := by
  rw [← nonzero_eq] at hp hq
  have hc : calcvals x notZero n t = ((p, some v), (q, some w)) := by
    simp only [calcvals, after_found hq, before_found hp]
  obtain ⟨p0, pt, _⟩ := hp
  obtain ⟨tq, qn, _⟩ := hq
  rw [app, ht]
  simp only [hc]
  rw [if_neg (by simp), hb]
  simp only [related, if_pos p0, if_pos qn, hb0, hb1]
  rw [if_pos ⟨pt, tq⟩]
  have hvb' : v * b1 ≠ 0 := fun e => by rw [e, abs_zero] at hvb; norm_num at hvb
  have hv0 : v ≠ 0 := left_ne_zero_of_mul hvb'
  have hb10 : b1 ≠ 0 := right_ne_zero_of_mul hvb'
  have hδ : w * b0 / (v * b1) = (w / v) / (b1 / b0) := by field_simp
  rw [if_neg (not_lt.mpr hvb), hδ, if_neg (not_lt.mpr hd), if_neg hne]
  congr 1
  rw [← Real.rpow_mul hd]
  rw [mul_assoc]
  congr 3
  rw [one_div, mul_comm, div_eq_mul_inv]

/-! ## Examples and what is not so -/

/-- A series of seven periods with missing values. -/
def s7 : Int → Option ℚ
  | 1 => some 10 | 3 => some 20 | 4 => some 30 | _ => none
def r7 : Int → Option ℚ
  | 0 => some 1 | 1 => some 2 | 2 => some 3 | 3 => some 5 | 4 => some 4 | 5 => some 6 | 6 => some 8 | _ => none

example : s7 2 = none ∧ IsBefore s7 Any 2 1 10 ∧ IsAfter s7 Any 7 2 3 20 := by
  refine ⟨rfl, ⟨by decide, by decide, rfl, trivial, fun j _ _ => by omega⟩, ⟨by decide, by decide, rfl, trivial, fun j _ _ => by omega⟩⟩

example : interpol s7 7 2 = .num 15 ∧ interpol s7 7 6 = .num 50 ∧ interpol s7 7 0 = .num 5 ∧ dapp s7 r7 7 2 = .num (3 + 23 / 2) ∧ dapp s7 r7 7 6 = .num 34 ∧
    app (fun a _ => a) s7 r7 7 6 = .num 60 := by decide +kernel

example : Known r7 (fun j => (r7 j).getD 0) 0 6 ∧ covar false r7 r7 0 6 = some (244 / 49) := by
  refine ⟨fun j h1 h2 => ?_, by decide +kernel⟩
  have : j = 0 ∨ j = 1 ∨ j = 2 ∨ j = 3 ∨ j = 4 ∨ j = 5 ∨ j = 6 := by omega
  rcases this with rfl | rfl | rfl | rfl | rfl | rfl | rfl <;> rfl

example : index (fun _ => some 5) r7 0 6 3 = some 3 ∧ acf (fun _ => some 1) (fun _ => some 1) r7 0 6 3 ≠ .na := by decide +kernel

/-- The hypotheses of `C67_app` and `C67_corr`. -/
noncomputable def x3 : Int → Option ℝ := fun j => if j = 0 then some 1 else if j = 2 then some 4 else none

example : x3 1 = none ∧ IsBefore x3 NonZero 1 0 1 ∧ IsAfter x3 NonZero 3 1 2 4 ∧ (1 : ℝ) / 10 ^ 15 ≤ |1 * 1| ∧ (0 : ℝ) ≤ (4 / 1) / (1 / 1) := by
  refine ⟨by simp [x3], ⟨by decide, by decide, by simp [x3], by unfold NonZero; norm_num, fun j _ _ => by omega⟩,
    ⟨by decide, by decide, by simp [x3], by unfold NonZero; norm_num, fun j _ _ => by omega⟩, by norm_num, by norm_num⟩

example : Known (fun j => some (j : ℝ)) (fun j => (j : ℝ)) 0 1 ∧ Covar (fun j => (j : ℝ)) (fun j => (j : ℝ)) 0 1 ≠ 0 := by
  refine ⟨fun _ _ _ => rfl, ?_⟩
  have e : Finset.Icc (0 : Int) 1 = {0, 1} := by decide
  simp only [Covar, Mean, e]
  norm_num

/-- The manual takes the product of the means from the mean of the products for `covar0`; the code does not. -/
theorem C67_covar0_counterexample : ∃ (x : Int → Option ℚ) (u : Int → ℚ), Known x u 0 1 ∧ covar true x x 0 1 = some 1 ∧
    Mean (fun j => u j * u j) 0 1 - Mean u 0 1 * Mean u 0 1 = 0 := by
  refine ⟨fun _ => some 1, fun _ => 1, fun _ _ _ => rfl, by decide +kernel, ?_⟩
  have : (∑ _j ∈ Finset.Icc (0 : Int) 1, (1 : ℚ)) = 2 := by decide +kernel
  simp only [Mean, mul_one, this]
  norm_num

/-- The autocorrelation of a constant series is 0/0, not the missing value. -/
theorem C67_constant_counterexample : acf (fun _ => some 1) (fun _ => some 1) (fun _ => some (1 : ℚ)) 0 6 3 = .nan := by decide +kernel

/-- When the related series is zero at the nearest known value before, the result is not a number, instead of the missing value. -/
theorem C67_zero_counterexample : app (fun a _ => a) (fun j => if j = 1 then none else some (1 : ℚ)) (fun j => if j = 0 then some 0 else some 1) 3 1 = .nan := by
  decide +kernel

/-- A series without values other than zero is completed, when the related expression has a value before the sample. -/
theorem C67_only_zeros_counterexample : app (fun a _ => a) (fun j => if j = 0 then some (0 : ℚ) else none) (fun _ => some 1) 3 2 = .num 0 := by decide +kernel

end Iode.Mtfn
