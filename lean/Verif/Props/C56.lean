import Verif.Lemmas.EstStat
import Verif.Props.C55
import Mathlib.Analysis.SpecialFunctions.Log.Basic

/-!
# C56: the statistics of an estimation are those of its residuals
-/
namespace Iode.Estim.C56

open Iode.Lin Iode.Estim Iode.Spec.Estim Iode.Spec.Linear Iode.Spec.EstStat Finset Iode.Estim.C55

variable {K : Type} [Field K] [LinearOrder K] [IsStrictOrderedRing K] {p : Prob K} {c : Nat → K} {s : St K}

theorem est_pos (h : estimate p c = .ok s) : Pos p.neq s.vcu ∧ Pos p.neq s.ivcu := by
  obtain ⟨⟨_, h2, h3⟩, _⟩ := estimate_done h
  rw [h2] at h3 ⊢
  exact vcu_pos h3

theorem vcu_eq (h : estimate p c = .ok s) (i j : Nat) : s.vcu i j = (∑ t ∈ range p.T, s.u i t * s.u j t) / p.T := by
  rw [(estimate_done h).1.2.1, vcuOf, sum0, mul_one_div]

theorem est_T (h : estimate p c = .ok s) {i : Nat} (hi : i < p.neq) : 0 < p.T := by
  have h1 := pos_diag (est_pos h).1 hi
  rw [vcu_eq h] at h1
  by_contra h0
  obtain h0 : p.T = 0 := by omega
  rw [h0, range_zero, sum_empty, zero_div] at h1
  exact lt_irrefl _ h1

theorem est_sq (h : estimate p c = .ok s) {i : Nat} (hi : i < p.neq) :
    s.vcu i i * p.T = squares p.T (s.u i) ∧ 0 < squares p.T (s.u i) := by
  have hT : (0 : K) < p.T := by exact_mod_cast est_T h hi
  have h1 := vcu_ii hT.ne' (estimate_done h).1.2.1 i
  refine ⟨h1, ?_⟩
  rw [← h1]
  exact mul_pos (pos_diag (est_pos h).1 hi) hT

theorem sqrt0_spec {sqrt : K → K} (hs : IsSqrt sqrt) {v : K} (hv : 0 ≤ v) : 0 ≤ sqrt0 sqrt v ∧ sqrt0 sqrt v ^ 2 = v := by
  rw [sqrt0, if_neg (not_lt.2 hv)]
  exact hs v hv

theorem devSum_eq (p : Prob K) (i : Nat) : devSum p i = total p.T (p.lhs i) := by
  rw [devSum, sum0, total]
  refine sum_congr rfl fun t _ => ?_
  rw [meanY, sum0, mean, sq]

theorem total_nonneg (T : Nat) (y : Nat → K) : 0 ≤ total T y := sum_nonneg fun _ _ => sq_nonneg _

/-- **C56** A successful estimation has converged before the limit on the iterations.  Its residuals are what the right hand sides leave
    unexplained at the coefficients returned, and the matrices are their covariances and the inverse of these.  Holds for every method
    and whatever the equations are. -/
theorem C56_residuals (h : estimate p c = .ok s) : s.conv = true ∧ s.it < p.maxit ∧
    (∀ i t, i < p.neq → t < p.T → ∃ v, p.rhs i s.c t = some v ∧ s.u i t = p.lhs i t - v) ∧
    (∀ i j, s.vcu i j = (∑ t ∈ range p.T, s.u i t * s.u j t) / p.T) ∧ IsInverse p.neq s.vcu s.ivcu :=
  ⟨(estimate_done h).2.1, (estimate_done h).2.2, done_resid (estimate_done h).1, vcu_eq h, C54.C54_inverse (estimate_done h).1.2.2⟩

/-- **C56** The number of coefficients that counts in the degrees of freedom of an equation: of those in the equation only the ones that
    are estimated, not the fixed ones. -/
theorem C56_estimated (p : Prob K) (i : Nat) :
    nbce p i = #{k ∈ range p.nc | p.inEq k i = true ∧ 0 < p.relax k} := by
  rw [nbce, ← List.toFinset_card_of_nodup ((List.nodup_range).filter _)]
  congr 1
  ext k
  simp

/-- **C56** The sum of the squares of the residuals, which is not 0, and their standard error: the square root of this sum divided by the
    degrees of freedom of the equation. -/
theorem C56_stderr (h : estimate p c = .ok s) {sqrt : K → K} (hs : IsSqrt sqrt) {i : Nat} (hi : i < p.neq) (hk : nbce p i < p.T) :
    ssres p s i = squares p.T (s.u i) ∧ 0 < ssres p s i ∧
    0 ≤ stderr sqrt p s i ∧ stderr sqrt p s i ^ 2 * (p.T - nbce p i) = squares p.T (s.u i) ∧
    stdPct sqrt p s i * mean p.T (p.lhs i) = if mean p.T (p.lhs i) = 0 then 0 else 100 * stderr sqrt p s i := by
  obtain ⟨h1, h2⟩ := est_sq h hi
  have hd : (0 : K) < p.T - nbce p i := by
    rw [sub_pos]
    exact_mod_cast hk
  refine ⟨h1, by rw [ssres, h1]; exact h2, ?_, ?_, ?_⟩
  · rw [stderr, div0, if_neg hd.ne', h1]
    exact (sqrt0_spec hs (div_nonneg h2.le hd.le)).1
  · rw [stderr, div0, if_neg hd.ne', h1, (sqrt0_spec hs (div_nonneg h2.le hd.le)).2, div_mul_cancel₀ _ hd.ne']
  · rw [stdPct, meanY, sum0, div0, mean]
    split
    · rw [zero_mul]
    · next h0 => rw [div_mul_cancel₀ _ h0]

/-- **C56** The mean and the standard deviation of the left hand side. -/
theorem C56_dependent {sqrt : K → K} (hs : IsSqrt sqrt) (i : Nat) (hT : 2 ≤ p.T) :
    meanY p i = mean p.T (p.lhs i) ∧ ∃ v, stdev sqrt p i = some v ∧ 0 ≤ v ∧ v ^ 2 * (p.T - 1) = total p.T (p.lhs i) := by
  refine ⟨by rw [meanY, sum0, mean], _, by rw [stdev, if_neg (by omega)], ?_⟩
  have hd : (0 : K) < p.T - 1 := by
    rw [sub_pos]
    exact_mod_cast (by omega : 1 < p.T)
  rw [devSum_eq]
  have := sqrt0_spec hs (div_nonneg (total_nonneg p.T (p.lhs i)) hd.le)
  exact ⟨this.1, by rw [this.2, div_mul_cancel₀ _ hd.ne']⟩

/-- **C56** R² when the left hand side is not constant: the part of its variation that is explained, always below 1. -/
theorem C56_rsquare (h : estimate p c = .ok s) {i : Nat} (hi : i < p.neq) (hy : total p.T (p.lhs i) ≠ 0) :
    rsquare p s i = 1 - squares p.T (s.u i) / total p.T (p.lhs i) ∧ rsquare p s i < 1 := by
  obtain ⟨h1, h2⟩ := est_sq h hi
  have ht := lt_of_le_of_ne (total_nonneg p.T (p.lhs i)) (Ne.symm hy)
  have he : rsquare p s i = 1 - squares p.T (s.u i) / total p.T (p.lhs i) := by
    rw [rsquare, devSum_eq, div0, if_neg hy, mul_comm, h1]
  refine ⟨he, ?_⟩
  rw [he]
  linarith [div_pos h2 ht]

/-- **C56** Adjusted R²: the variances are corrected for the degrees of freedom; it is never above R². -/
theorem C56_adjusted (h : estimate p c = .ok s) {i : Nat} (hi : i < p.neq) (hy : total p.T (p.lhs i) ≠ 0) (hk : nbce p i < p.T) :
    rsquareAdj p s i = 1 - (squares p.T (s.u i) / (p.T - nbce p i)) / (total p.T (p.lhs i) / (p.T - 1)) ∧
    (1 ≤ nbce p i → rsquareAdj p s i ≤ rsquare p s i) := by
  obtain ⟨h1, h2⟩ := C56_rsquare h hi hy
  have hd : (0 : K) < p.T - nbce p i := by
    rw [sub_pos]
    exact_mod_cast hk
  have he : rsquareAdj p s i = 1 - (1 - rsquare p s i) * (p.T - 1) / (p.T - nbce p i) := by
    rw [rsquareAdj, div0, if_neg hd.ne']
  constructor
  · rw [he, h1]
    have : (1 - (1 - squares p.T (s.u i) / total p.T (p.lhs i))) * ((p.T : K) - 1) / (p.T - nbce p i) =
        squares p.T (s.u i) / (p.T - nbce p i) / (total p.T (p.lhs i) / (p.T - 1)) := by
      rw [div_div_eq_mul_div, sub_sub_cancel]
      ring
    rw [this]
  · intro hk1
    have h3 : (1 : K) ≤ nbce p i := by exact_mod_cast hk1
    have h4 : (1 - rsquare p s i) ≤ (1 - rsquare p s i) * (p.T - 1) / (p.T - nbce p i) := by
      rw [le_div_iff₀ hd]
      exact mul_le_mul_of_nonneg_left (by linarith) (by linarith)
    rw [he]
    linarith

/-- **C56** R² is not negative when least squares are used on one linear equation that has a constant, in the sense that some values of
    its estimated coefficients give the mean in every period (partial: one equation, coefficients that minimise the sum of squares as in
    `C55_lsq_partial`). -/
theorem C56_rsquare_nonneg_partial (h : estimate p c = .ok s) {a : Nat → Nat → K} {x : Nat → Nat → Nat → K} (hl : IsLinear p a x)
    (hneq : p.neq = 1) (hm : Least (Free p) (ssr (block p a x)) s.c) (hy : total p.T (p.lhs 0) ≠ 0) {c' : Nat → K}
    (hc : ∀ k, ¬ Free p k → c' k = s.c k)
    (hc' : ∀ t, t < p.T → a 0 t + ∑ k ∈ range p.nc, c' k * x 0 k t = mean p.T (p.lhs 0)) : 0 ≤ rsquare p s 0 := by
  have ht := lt_of_le_of_ne (total_nonneg p.T (p.lhs 0)) (Ne.symm hy)
  rw [(C56_rsquare h (by omega) hy).1]
  have h1 : ssr (block p a x) s.c = squares p.T (s.u 0) := by
    rw [ssr, squares]
    simp only [block, hneq, sum_range_one]
    refine sum_congr rfl fun t ht => ?_
    obtain ⟨v, h2, h3⟩ := done_resid (estimate_done h).1 0 t (by omega) (mem_range.1 ht)
    rw [hl.rhs 0 s.c t (by omega) (mem_range.1 ht), Option.some.injEq] at h2
    rw [h3, ← h2, resid]
  have h2 : ssr (block p a x) c' = total p.T (p.lhs 0) := by
    rw [ssr, total]
    simp only [block, hneq, sum_range_one]
    refine sum_congr rfl fun t ht => ?_
    rw [resid]
    simp only
    rw [hc' t (mem_range.1 ht)]
  have h3 := hm c' hc
  rw [h1, h2] at h3
  rw [sub_nonneg, div_le_one ht]
  exact h3

/-- **C56** The F statistic, for an equation with at least two estimated coefficients: the variation explained by all of them but one,
    compared with what is left, each divided by its degrees of freedom. -/
theorem C56_fstat (h : estimate p c = .ok s) {i : Nat} (hi : i < p.neq) (hy : total p.T (p.lhs i) ≠ 0) (hk : nbce p i < p.T)
    (hk2 : 2 ≤ nbce p i) :
    fstat p s i = ((total p.T (p.lhs i) - squares p.T (s.u i)) / (nbce p i - 1)) / (squares p.T (s.u i) / (p.T - nbce p i)) := by
  obtain ⟨h1, h2⟩ := C56_rsquare h hi hy
  obtain ⟨_, h3⟩ := est_sq h hi
  have hd : (0 : K) < p.T - nbce p i := by
    rw [sub_pos]
    exact_mod_cast hk
  have hd1 : (0 : K) < nbce p i - 1 := by
    rw [sub_pos]
    exact_mod_cast (by omega : 1 < nbce p i)
  have ht := lt_of_le_of_ne (total_nonneg p.T (p.lhs i)) (Ne.symm hy)
  have h4 : 0 < 1 - rsquare p s i := by linarith
  rw [fstat, div0, if_neg (mul_pos h4 hd1).ne', h1, sub_sub_cancel]
  have := hd.ne'
  have := hd1.ne'
  have := h3.ne'
  field_simp

omit [LinearOrder K] [IsStrictOrderedRing K] in
theorem changes_sq (u : Nat → K) : ∀ n, 4 * ∑ t ∈ range (n + 1), u t ^ 2 =
    ∑ t ∈ range n, (u (t + 1) - u t) ^ 2 + ∑ t ∈ range n, (u (t + 1) + u t) ^ 2 + 2 * u 0 ^ 2 + 2 * u n ^ 2
  | 0 => by
    simp
    ring
  | n + 1 => by
    rw [sum_range_succ, mul_add, changes_sq u n, sum_range_succ _ n, sum_range_succ _ n]
    ring

theorem zero_of {u : Nat → K} {n : Nat} (h0 : u 0 = 0) (h : ∑ t ∈ range n, (u (t + 1) + u t) ^ 2 = 0) : ∀ t, t ≤ n → u t = 0
  | 0, _ => h0
  | t + 1, ht => by
    have h1 := (sum_eq_zero_iff_of_nonneg fun _ _ => sq_nonneg _).1 h t (mem_range.2 (by omega))
    rw [zero_of h0 h t (by omega), add_zero] at h1
    exact pow_eq_zero_iff (two_ne_zero) |>.1 h1

/-- **C56** The Durbin-Watson statistic: the squares of the changes of the residuals over the squares of the residuals, between 0 and 4. -/
theorem C56_durbin (h : estimate p c = .ok s) {i : Nat} (hi : i < p.neq) :
    durbin p s i = changes p.T (s.u i) / squares p.T (s.u i) ∧ 0 ≤ durbin p s i ∧ durbin p s i < 4 := by
  obtain ⟨h1, h2⟩ := est_sq h hi
  have he : durbin p s i = changes p.T (s.u i) / squares p.T (s.u i) := by
    rw [durbin, mul_comm, h1, div0, if_neg h2.ne', sum0, changes]
    congr 1
    exact sum_congr rfl fun t _ => (sq _).symm
  refine ⟨he, by rw [he]; exact div_nonneg (sum_nonneg fun _ _ => sq_nonneg _) h2.le, ?_⟩
  rw [he, div_lt_iff₀ h2]
  obtain ⟨n, hn⟩ : ∃ n, p.T = n + 1 := ⟨p.T - 1, by have := est_T h hi; omega⟩
  have h3 := changes_sq (s.u i) n
  have h4 : 0 ≤ ∑ t ∈ range n, (s.u i (t + 1) + s.u i t) ^ 2 := sum_nonneg fun _ _ => sq_nonneg _
  have h5 := sq_nonneg (s.u i 0)
  have h6 := sq_nonneg (s.u i n)
  rw [changes, hn, Nat.add_sub_cancel, squares, h3]
  rw [hn, squares] at h2
  by_contra hlt
  have h7 : ∑ t ∈ range n, (s.u i (t + 1) + s.u i t) ^ 2 = 0 := by linarith
  have h8 : s.u i 0 ^ 2 = 0 := by linarith
  have h9 := zero_of (pow_eq_zero_iff two_ne_zero |>.1 h8) h7
  rw [sum_eq_zero fun t ht => by rw [h9 t (by have := mem_range.1 ht; omega)]; ring] at h2
  exact lt_irrefl _ h2

theorem corr_of {n : Nat} {v : Nat → Nat → K} (hv : Pos n v) {sqrt : K → K} (hs : IsSqrt sqrt) {i j : Nat} (hi : i < n) (hj : j < n)
    {r : K} (hr : r = v (max i j) (min i j) / sqrt0 sqrt (v (max i j) (max i j) * v (min i j) (min i j))) :
    r ^ 2 * (v i i * v j j) = v i j ^ 2 ∧ 0 ≤ r * v i j ∧ (i = j → r = 1) ∧ (i ≠ j → r ^ 2 < 1) := by
  have he : v (max i j) (min i j) = v i j ∧ v (max i j) (max i j) * v (min i j) (min i j) = v i i * v j j := by
    rcases Nat.le_total i j with h | h
    · rw [max_eq_right h, min_eq_left h, mul_comm]
      exact ⟨hv.symm j i hj hi, rfl⟩
    · rw [max_eq_left h, min_eq_right h]
      exact ⟨rfl, rfl⟩
  rw [he.1, he.2] at hr
  have hp : 0 < v i i * v j j := mul_pos (pos_diag hv hi) (pos_diag hv hj)
  obtain ⟨h1, h2⟩ := sqrt0_spec hs hp.le
  have h3 : 0 < sqrt0 sqrt (v i i * v j j) := lt_of_le_of_ne h1 fun h0 => by
    rw [← h0] at h2
    simp only [ne_eq, OfNat.ofNat_ne_zero, not_false_eq_true, zero_pow] at h2
    exact hp.ne h2
  have h4 : r ^ 2 * (v i i * v j j) = v i j ^ 2 := by
    rw [hr, div_pow, h2, div_mul_cancel₀ _ hp.ne']
  refine ⟨h4, ?_, ?_, ?_⟩
  · rw [hr, div_mul_eq_mul_div]
    exact div_nonneg (mul_self_nonneg _) h3.le
  · rintro rfl
    rw [hr, div_eq_one_iff_eq h3.ne']
    have h5 := pos_diag hv hi
    have h6 : (v i i - sqrt0 sqrt (v i i * v i i)) * (v i i + sqrt0 sqrt (v i i * v i i)) = 0 := by
      have : (v i i - sqrt0 sqrt (v i i * v i i)) * (v i i + sqrt0 sqrt (v i i * v i i)) =
          v i i * v i i - sqrt0 sqrt (v i i * v i i) ^ 2 := by ring
      rw [this, h2, sub_self]
    rcases mul_eq_zero.1 h6 with h7 | h7
    · exact sub_eq_zero.1 h7
    · linarith
  · intro hij
    have h5 := pos_two hv hi hj hij
    rw [← h4] at h5
    by_contra h6
    have : 1 * (v i i * v j j) ≤ r ^ 2 * (v i i * v j j) := mul_le_mul_of_nonneg_right (not_lt.1 h6) hp.le
    linarith

/-- **C56** The correlations of the residuals of two equations: the covariance over the standard deviations, 1 on the diagonal and
    strictly between -1 and 1 elsewhere. -/
theorem C56_residual_correlations (h : estimate p c = .ok s) {sqrt : K → K} (hs : IsSqrt sqrt) {i j : Nat} (hi : i < p.neq)
    (hj : j < p.neq) : mcorru sqrt s i j = mcorru sqrt s j i ∧
    mcorru sqrt s i j ^ 2 * (squares p.T (s.u i) * squares p.T (s.u j)) = (∑ t ∈ range p.T, s.u i t * s.u j t) ^ 2 ∧
    0 ≤ mcorru sqrt s i j * ∑ t ∈ range p.T, s.u i t * s.u j t ∧
    (i = j → mcorru sqrt s i j = 1) ∧ (i ≠ j → mcorru sqrt s i j ^ 2 < 1) := by
  have hv := (est_pos h).1
  have hT : (0 : K) < p.T := by exact_mod_cast est_T h hi
  have hne : sqrt0 sqrt (s.vcu (max i j) (max i j) * s.vcu (min i j) (min i j)) ≠ 0 := by
    have hp : 0 < s.vcu (max i j) (max i j) * s.vcu (min i j) (min i j) :=
      mul_pos (pos_diag hv (max_lt hi hj)) (pos_diag hv (lt_of_le_of_lt (min_le_left i j) hi))
    intro h0
    have := (sqrt0_spec hs hp.le).2
    rw [h0] at this
    simp only [ne_eq, OfNat.ofNat_ne_zero, not_false_eq_true, zero_pow] at this
    exact hp.ne this
  obtain ⟨h1, h2, h3, h4⟩ := corr_of hv hs hi hj (r := mcorru sqrt s i j) (by rw [mcorru, div0, if_neg hne])
  have hS : ∑ t ∈ range p.T, s.u i t * s.u j t = s.vcu i j * p.T := by
    rw [vcu_eq h, div_mul_cancel₀ _ hT.ne']
  refine ⟨by rw [mcorru, mcorru, max_comm, min_comm], ?_, ?_, h3, h4⟩
  · rw [hS, ← (est_sq h hi).1, ← (est_sq h hj).1, mul_pow, ← h1]
    ring
  · rw [hS, ← mul_assoc]
    exact mul_nonneg h2 hT.le

/-- **C56** The matrix of the covariances of the coefficients is symmetric and positive definite, whatever the method and the equations;
    the correlations shown are those of this matrix, 1 on the diagonal and strictly between -1 and 1 elsewhere. -/
theorem C56_coefficient_correlations (h : estimate p c = .ok s) {sqrt : K → K} (hs : IsSqrt sqrt) {i j : Nat} (hi : i < nce p)
    (hj : j < nce p) : s.vcc i j = s.vcc j i ∧ 0 < s.vcc i i ∧
    mcorr sqrt s i j = mcorr sqrt s j i ∧ mcorr sqrt s i j ^ 2 * (s.vcc i i * s.vcc j j) = s.vcc i j ^ 2 ∧
    0 ≤ mcorr sqrt s i j * s.vcc i j ∧ (i = j → mcorr sqrt s i j = 1) ∧ (i ≠ j → mcorr sqrt s i j ^ 2 < 1) := by
  have hv := estimate_vcc h
  have hp : 0 < s.vcc (max i j) (max i j) * s.vcc (min i j) (min i j) :=
    mul_pos (pos_diag hv (max_lt hi hj)) (pos_diag hv (lt_of_le_of_lt (min_le_left i j) hi))
  exact ⟨hv.symm i j hi hj, pos_diag hv hi, by rw [mcorr, mcorr, max_comm, min_comm],
    corr_of hv hs hi hj (r := mcorr sqrt s i j) (by rw [mcorr, if_pos hp])⟩

/-- **C56** The standard error of a coefficient, its degrees of freedom being positive: its variance corrected for these, except for
    maximum likelihood; it is not 0. -/
theorem C56_coefficient_error (h : estimate p c = .ok s) {sqrt : K → K} (hs : IsSqrt sqrt) {df : Int} (hd : 0 < df) {j : Nat}
    (hj : j < nce p) (hT : 0 < p.T) : 0 < coefStd sqrt p s df j ∧
    (p.met = 4 → coefStd sqrt p s df j ^ 2 = s.vcc j j) ∧ (p.met ≠ 4 → coefStd sqrt p s df j ^ 2 * df = s.vcc j j * p.T) := by
  have hv := pos_diag (estimate_vcc h) hj
  have hT' : (0 : K) < p.T := by exact_mod_cast hT
  have hd' : (0 : K) < df := by exact_mod_cast hd
  have key : ∀ v : K, 0 < v → 0 < sqrt0 sqrt v ∧ sqrt0 sqrt v ^ 2 = v := fun v hv => by
    obtain ⟨h1, h2⟩ := sqrt0_spec hs hv.le
    refine ⟨lt_of_le_of_ne h1 fun h0 => ?_, h2⟩
    rw [← h0] at h2
    simp only [ne_eq, OfNat.ofNat_ne_zero, not_false_eq_true, zero_pow] at h2
    exact hv.ne h2
  rw [coefStd, div0, if_neg hd'.ne']
  obtain ⟨h1, h2⟩ := key (s.vcc j j) hv
  obtain ⟨h3, h4⟩ := key (s.vcc j j * p.T / df) (div_pos (mul_pos hv hT') hd')
  split
  · next hm => exact ⟨h1, fun _ => h2, fun h => absurd hm h⟩
  · next hm => exact ⟨h3, fun h => absurd h hm, fun _ => by rw [h4, div_mul_cancel₀ _ hd'.ne']⟩

/-! ### The degrees of freedom -/

omit [IsStrictOrderedRing K] in
theorem df_two {k : Nat} : ∀ (n i v nbr : Nat) (df : Int), 2 ≤ nbr → df = p.T → ∃ w, dfEqs p k n i nbr (some v) df = some (some w, (p.T : Int))
  | 0, i, v, nbr, df, _, hd => ⟨v, by rw [dfEqs, hd]⟩
  | n + 1, i, v, nbr, df, hn, _ => by
    rw [dfEqs]
    have : 1 < (if p.inEq k i = true then nbr + 1 else nbr) := by split <;> omega
    rw [if_pos this]
    by_cases h : p.inEq k i = true
    · rw [if_pos h, if_pos h]
      exact df_two n (i + 1) _ _ _ (by omega) rfl
    · rw [if_neg h, if_neg h]
      exact df_two n (i + 1) _ _ _ (by omega) rfl

omit [IsStrictOrderedRing K] in
theorem df_one {k : Nat} : ∀ (n i v : Nat) (df : Int), df = p.T - v → ∃ w r, dfEqs p k n i 1 (some v) df = some (some w, r) ∧
    ((∃ i', i ≤ i' ∧ i' < i + n ∧ p.inEq k i' = true) → r = p.T) ∧
    ((∀ i', i ≤ i' → i' < i + n → p.inEq k i' = false) → r = p.T - v)
  | 0, i, v, df, hd => ⟨v, df, by rw [dfEqs], by rintro ⟨i', h1, h2, _⟩; omega, fun _ => hd⟩
  | n + 1, i, v, df, _ => by
    rw [dfEqs]
    by_cases h : p.inEq k i = true
    · rw [if_pos h, if_pos h, if_pos (by omega)]
      obtain ⟨w, hw⟩ := df_two (p := p) (k := k) n (i + 1) (nbce p i) 2 p.T (by omega) rfl
      refine ⟨w, _, hw, fun _ => rfl, fun h' => ?_⟩
      rw [h' i (le_refl i) (by omega)] at h
      simp at h
    · rw [if_neg h, if_neg h, if_neg (by omega)]
      obtain ⟨w, r, h1, h2, h3⟩ := df_one (k := k) n (i + 1) v (p.T - v) rfl
      refine ⟨w, r, h1, ?_, fun h' => h3 fun i' ha hb => h' i' (by omega) (by omega)⟩
      rintro ⟨i', ha, hb, hc⟩
      refine h2 ⟨i', ?_, by omega, hc⟩
      rcases Nat.lt_or_ge i i' with hlt | hge
      · exact hlt
      · obtain rfl : i' = i := by omega
        exact absurd hc h

omit [IsStrictOrderedRing K] in
theorem df_none {k : Nat} : ∀ (n i : Nat) (nb : Option Nat) (df : Int), (nb.isSome = true ∨ p.inEq k i = true) → 0 < n →
    ∃ w r, dfEqs p k n i 0 nb df = some (some w, r) ∧ ∀ i', i ≤ i' → i' < i + n → p.inEq k i' = true →
      ((∃ i'', i'' ≠ i' ∧ i ≤ i'' ∧ i'' < i + n ∧ p.inEq k i'' = true) → r = p.T) ∧
      ((∀ i'', i'' ≠ i' → i ≤ i'' → i'' < i + n → p.inEq k i'' = false) → r = p.T - nbce p i')
  | 0, i, nb, df, _, h0 => absurd h0 (by omega)
  | n + 1, i, nb, df, hs, _ => by
    rw [dfEqs]
    by_cases h : p.inEq k i = true
    · rw [if_pos h, if_pos h, if_neg (by omega)]
      simp only
      obtain ⟨w, r, h1, h2, h3⟩ := df_one (p := p) (k := k) n (i + 1) (nbce p i) (p.T - nbce p i) rfl
      refine ⟨w, r, h1, fun i' ha hb hc => ⟨?_, fun h' => ?_⟩⟩
      · rintro ⟨i'', hd, he, hf, hg⟩
        rcases Nat.lt_or_ge i i'' with hlt | hge
        · exact h2 ⟨i'', hlt, by omega, hg⟩
        · exact h2 ⟨i', by omega, by omega, hc⟩
      · by_cases hi : i' = i
        · subst hi
          exact h3 fun i'' hd he => h' i'' (by omega) (by omega) (by omega)
        · rw [h' i (Ne.symm hi) (le_refl i) (by omega)] at h
          simp at h
    · obtain ⟨v, hv⟩ := Option.isSome_iff_exists.1 (hs.resolve_right h)
      rw [if_neg h, if_neg h, if_neg (by omega), hv]
      simp only
      rcases Nat.eq_zero_or_pos n with h0 | h0
      · subst h0
        refine ⟨v, p.T - v, by rw [dfEqs], fun i' ha hb hc => ?_⟩
        obtain rfl : i' = i := by omega
        exact absurd hc h
      · obtain ⟨w, r, h1, h2⟩ := df_none n (i + 1) (some v) (p.T - v) (Or.inl rfl) h0
        refine ⟨w, r, h1, fun i' ha hb hc => ?_⟩
        have hii : i' ≠ i := fun he => h (he ▸ hc)
        obtain ⟨h3, h4⟩ := h2 i' (by omega) (by omega) hc
        refine ⟨?_, fun h' => h4 fun i'' hd he hf => h' i'' hd (by omega) (by omega)⟩
        rintro ⟨i'', hd, he, hf, hg⟩
        have : i'' ≠ i := fun h' => h (h' ▸ hg)
        exact h3 ⟨i'', hd, by omega, by omega, hg⟩

omit [IsStrictOrderedRing K] in
theorem df_list (hn : 0 < p.neq) : ∀ (ks : List Nat) (nb : Option Nat), (nb.isSome = true ∨ ∀ k, ks.head? = some k → p.inEq k 0 = true) →
    ∃ l, degFreed p ks nb = some l ∧ l.length = ks.length ∧ ∀ (j k : Nat), ks[j]? = some k → ∃ r : Int, l[j]? = some r ∧
      ∀ i, i < p.neq → p.inEq k i = true →
        ((∃ i', i' ≠ i ∧ i' < p.neq ∧ p.inEq k i' = true) → r = p.T) ∧
        ((∀ i', i' ≠ i → i' < p.neq → p.inEq k i' = false) → r = p.T - nbce p i)
  | [], nb, _ => ⟨[], rfl, rfl, fun j k h => by simp at h⟩
  | k :: ks, nb, h => by
    obtain ⟨w, r, h1, h2⟩ := df_none (p := p) (k := k) p.neq 0 nb 0 (h.imp id fun h => h k rfl) hn
    obtain ⟨l, h3, h4, h5⟩ := df_list hn ks (some w) (Or.inl rfl)
    refine ⟨r :: l, by rw [degFreed, h1]; simp only; rw [h3]; rfl, by rw [List.length_cons, List.length_cons, h4], ?_⟩
    intro j k' hk
    cases j with
    | zero =>
      simp only [List.getElem?_cons_zero, Option.some.injEq] at hk
      subst hk
      refine ⟨r, rfl, fun i hi hc => ?_⟩
      obtain ⟨h6, h7⟩ := h2 i (Nat.zero_le _) (by omega) hc
      exact ⟨fun ⟨i', ha, hb, hc⟩ => h6 ⟨i', ha, Nat.zero_le _, by omega, hc⟩,
        fun h' => h7 fun i' ha _ hb => h' i' ha (by omega)⟩
    | succ j =>
      rw [List.getElem?_cons_succ] at hk
      exact h5 j k' hk

omit [IsStrictOrderedRing K] in
/-- **C56** The degrees of freedom of an estimated coefficient, provided that the first one is in the first equation: the number of
    periods if it occurs in several equations, otherwise this number less the estimated coefficients of its equation. -/
theorem C56_degrees (hn : 0 < p.neq) (h : ∀ k, (est p).head? = some k → p.inEq k 0 = true) :
    ∃ l, degFreed p (est p) none = some l ∧ l.length = (est p).length ∧ ∀ (j k : Nat), (est p)[j]? = some k → ∃ r : Int, l[j]? = some r ∧
      ∀ i, i < p.neq → p.inEq k i = true →
        ((∃ i', i' ≠ i ∧ i' < p.neq ∧ p.inEq k i' = true) → r = p.T) ∧
        ((∀ i', i' ≠ i → i' < p.neq → p.inEq k i' = false) → r = p.T - nbce p i) :=
  df_list hn (est p) none (Or.inr h)

/-- **C56** The standard errors of least squares on one linear equation (partial: the hypotheses of `C55_lsq_partial`): the sum of the
    squares of the residuals over the degrees of freedom, multiplied by the diagonal of the inverse of `X'X`. -/
theorem C56_ols_error_partial {a : Nat → Nat → K} {x : Nat → Nat → Nat → K} (hl : IsLinear p a x) (hneq : p.neq = 1) (hmet : p.met = 0)
    (hn : 0 < nce p) (heps : 0 < p.eps) (hmax : 3 ≤ p.maxit) (hsh : Sharp p x (fun _ _ => 0) one)
    (hi : Independent (Free p) (block p a x) fun v => v) {m : Nat → K}
    (hm : ∀ k, ¬ Free p k → m k = c k) (hmn : Least (Free p) (ssr (block p a x)) m) (hmr : Regular p m)
    (hpos : 0 < ssr (block p a x) m) (hocc : ∀ k, Free p k → p.inEq k 0 = true) (hk : nbce p 0 < p.T)
    {b : Nat → Nat → K} (hb : IsInverse (nce p)
      (fun i j => ∑ t ∈ range p.T, x 0 ((est p).getD i 0) t * x 0 ((est p).getD j 0) t) b) {sqrt : K → K} (hs : IsSqrt sqrt) :
    ∃ s l, estimate p c = .ok s ∧ s.c = m ∧ degFreed p (est p) none = some l ∧
      ∀ j, j < nce p → ∃ r : Int, l[j]? = some r ∧
        0 < coefStd sqrt p s r j ∧ coefStd sqrt p s r j ^ 2 = ssr (block p a x) m / (p.T - nbce p 0) * b j j := by
  have hT : 0 < p.T := by omega
  have hT' : (0 : K) < p.T := by exact_mod_cast hT
  obtain ⟨s, h1, h2, h3⟩ := C55_covariance_partial hl hneq hmet hn hT heps hmax hsh hi hm hmn hmr hpos
  obtain ⟨l, h4, h5, h6⟩ := C56_degrees (p := p) (by omega) fun k hk => hocc k (mem_est.1 (List.mem_of_mem_head? hk))
  refine ⟨s, l, h1, h2, h4, fun j hj => ?_⟩
  have hj' : j < (est p).length := by rw [est_nce hl]; exact hj
  obtain ⟨r, h7, h8⟩ := h6 j _ (List.getElem?_eq_getElem hj')
  have h9 := (h8 0 (by omega) (hocc _ (mem_est.1 (List.getElem_mem hj')))).2 fun i' ha hb' => absurd hb' (by omega)
  refine ⟨r, h7, ?_⟩
  have hr : 0 < r := by omega
  obtain ⟨e1, _, e3⟩ := C56_coefficient_error h1 hs hr hj hT
  refine ⟨e1, ?_⟩
  have hv : ssr (block p a x) m / p.T ≠ 0 := (div_pos hpos hT').ne'
  have h10 : s.vcc j j = ssr (block p a x) m / p.T * b j j := by
    refine inverse_unique (v := fun i j => (∑ t ∈ range p.T, x 0 ((est p).getD i 0) t * x 0 ((est p).getD j 0) t) /
      (ssr (block p a x) m / p.T)) (fun _ _ _ _ => rfl) h3 (w' := fun i j => ssr (block p a x) m / p.T * b i j) ⟨fun i k hi hk => ?_, fun i k hi hk => ?_⟩ j j hj hj
    · refine Eq.trans (sum_congr rfl fun j _ => ?_) (hb.1 i k hi hk)
      field_simp
    · refine Eq.trans (sum_congr rfl fun j _ => ?_) (hb.2 i k hi hk)
      field_simp
  have h11 := e3 (by omega)
  have hd : (0 : K) < p.T - nbce p 0 := by
    rw [sub_pos]
    exact_mod_cast hk
  have hrk : (r : K) = p.T - nbce p 0 := by
    rw [h9]
    push_cast
    rfl
  rw [hrk, h10] at h11
  rw [eq_div_of_mul_eq hd.ne' h11]
  field_simp

/-! ### The likelihood -/

theorem diag_pos : ∀ (m : Nat) (a b : Nat → Nat → K), Pos (m + 1) a → detLoop m a = some b →
    (∀ i, i ≤ m → 0 < b i i) ∧ ∀ i, m < i → b i i = a i i
  | 0, a, b, hp, h => by
    simp only [detLoop, Option.some.injEq] at h
    subst h
    refine ⟨fun i hi => ?_, fun _ _ => rfl⟩
    obtain rfl : i = 0 := by omega
    exact pos_diag hp (by omega)
  | m + 1, a, b, hp, h => by
    have hq := pos_diag hp (k := m + 1) (by omega)
    rw [detLoop, if_neg hq.ne'] at h
    obtain ⟨h1, h2⟩ := diag_pos m _ b (pos_congr (fun i j hi hj => by
      rw [detRows_val _ _ _ (by omega), if_pos (by omega)]) (pos_schur hp).2) h
    have h3 : ∀ i, m < i → b i i = a i i := fun i hi => by
      rw [h2 i hi, detRows_val _ _ _ (by omega), if_neg (by omega)]
    refine ⟨fun i hi => ?_, fun i hi => h3 i (by omega)⟩
    rcases Nat.lt_or_ge m i with hlt | hge
    · obtain rfl : i = m + 1 := by omega
      rw [h3 _ hlt]
      exact hq
    · exact h1 i hge

theorem det_pos {n : Nat} (hn : 0 < n) {a : Nat → Nat → K} (h : Pos n a) : det1 n a = (mat n a).det ∧ 0 < det1 n a := by
  obtain ⟨m, rfl⟩ : ∃ m, n = m + 1 := ⟨n - 1, by omega⟩
  have hs := detLoop_pos m a h
  refine ⟨det1_eq hn a hs, ?_⟩
  obtain ⟨b, hb⟩ := Option.isSome_iff_exists.1 hs
  obtain ⟨h1, _⟩ := diag_pos m a b h hb
  rw [det1, Nat.add_sub_cancel, hb]
  simp only
  rw [diagProd_eq]
  exact mul_pos (h1 0 (by omega)) (prod_pos fun k hk => h1 _ (by have := mem_range.1 hk; omega))

theorem umu_eq (h : estimate p c = .ok s) (hn : 0 < p.neq) : umu p s = p.neq * p.T := by
  have hT : (0 : K) < p.T := by exact_mod_cast est_T h hn
  have hinv := C54.C54_inverse (estimate_done h).1.2.2
  rw [umu, sum0]
  have h1 : ∀ i ∈ range p.neq, sumLoop (fun t => s.u i t * sumLoop (fun j => s.u j t * s.ivcu i j) p.neq 0 0) p.T 0 0 = p.T := by
    intro i hi
    rw [sum0]
    have h2 : ∀ t ∈ range p.T, s.u i t * sumLoop (fun j => s.u j t * s.ivcu i j) p.neq 0 0 =
        ∑ j ∈ range p.neq, s.ivcu i j * (s.u j t * s.u i t) := by
      intro t _
      rw [sum0, mul_sum]
      exact sum_congr rfl fun j _ => by ring
    rw [sum_congr rfl h2, sum_comm]
    have h3 : ∀ j ∈ range p.neq, ∑ t ∈ range p.T, s.ivcu i j * (s.u j t * s.u i t) = s.ivcu i j * s.vcu j i * p.T := by
      intro j _
      rw [← mul_sum, vcu_eq h, mul_assoc, div_mul_cancel₀ _ hT.ne']
    rw [sum_congr rfl h3, ← sum_mul, hinv.2 i i (mem_range.1 hi) (mem_range.1 hi), if_pos rfl, one_mul]
  rw [sum_congr rfl h1, sum_const, card_range, nsmul_eq_mul]

/-- **C56** The logarithm of the likelihood: of each equation for least squares and instrumental variables, of the block for the other
    methods.  The determinant in it is that of the covariances of the residuals, which is positive. -/
theorem C56_likelihood (h : estimate p c = .ok s) (log : K → K) (pi : K) {i : Nat} (hi : i < p.neq) :
    0 < (mat p.neq s.vcu).det ∧ loglik log pi p s i =
      if p.met = 0 ∨ p.met = 2 then -(p.T / 2) * (1 + log (2 * pi * (squares p.T (s.u i) / p.T)))
      else -(p.neq * p.T / 2) * (1 + log (2 * pi)) - p.T / 2 * log (mat p.neq s.vcu).det := by
  have hT : (0 : K) < p.T := by exact_mod_cast est_T h hi
  obtain ⟨h1, h2⟩ := det_pos (by omega) (est_pos h).1
  refine ⟨by rw [← h1]; exact h2, ?_⟩
  rw [loglik]
  split
  · rw [mul_one_div, ← (est_sq h hi).1, mul_div_cancel_right₀ _ hT.ne']
  · rw [umu_eq h (by omega), h1]
    ring

/-- **C56** For one equation the two are the same. -/
theorem C56_likelihood_one (h : estimate p c = .ok s) (hneq : p.neq = 1) {log : K → K}
    (hlog : ∀ a b, 0 < a → 0 < b → log (a * b) = log a + log b) {pi : K} (hpi : 0 < pi) :
    loglik log pi p s 0 = -(p.T / 2) * (1 + log (2 * pi * (squares p.T (s.u 0) / p.T))) := by
  have hT : (0 : K) < p.T := by exact_mod_cast est_T h (i := 0) (by omega)
  obtain ⟨h1, h2⟩ := est_sq h (i := 0) (by omega)
  have hv := pos_diag (est_pos h).1 (k := 0) (by omega)
  rw [(C56_likelihood h log pi (i := 0) (by omega)).2]
  split
  · rfl
  · have hd : (mat p.neq s.vcu).det = s.vcu 0 0 := by
      rw [← (det_pos (by omega) (est_pos h).1).1, hneq]
      rfl
    rw [hd, ← h1, mul_div_cancel_right₀ _ hT.ne', hlog _ _ (by linarith) hv, hneq]
    push_cast
    ring

/-! ### Examples -/

/-- A statistic of the state reached, if the estimation succeeded. -/
def stat {α : Type} (f : St Rat → α) : Out Rat (St Rat) → Option α
  | .ok s => some (f s)
  | _ => none

theorem stat_some {α : Type} {f : St Rat → α} {o : Out Rat (St Rat)} {v : α} (h : stat f o = some v) : ∃ s, o = .ok s ∧ f s = v := by
  cases o with
  | ok s => exact ⟨s, rfl, Option.some.inj h⟩
  | err c => simp [stat] at h
  | ub => simp [stat] at h

example : stat (fun s => [rsquare line s 0, rsquareAdj line s 0, fstat line s 0, durbin line s 0, ssres line s 0])
    (estimate line fun _ => 1) = some [27 / 28, 13 / 14, 27, 3, 1 / 6] := by decide +kernel

example : ∃ s, estimate line (fun _ => 1) = .ok s ∧ durbin line s 0 < 4 ∧ rsquare line s 0 < 1 ∧ rsquareAdj line s 0 ≤ rsquare line s 0 ∧
    fstat line s 0 = ((total 3 (line.lhs 0) - squares 3 (s.u 0)) / (nbce line 0 - 1)) / (squares 3 (s.u 0) / ((3 : Nat) - nbce line 0)) := by
  obtain ⟨s, h, _⟩ := stat_some (f := fun _ => true) (v := true) (o := estimate line fun _ => 1) (by decide +kernel)
  have hy : total line.T (line.lhs 0) ≠ 0 := by decide +kernel
  exact ⟨s, h, (C56_durbin h (i := 0) (by decide)).2.2, (C56_rsquare h (i := 0) (by decide) hy).2,
    (C56_adjusted h (i := 0) (by decide) hy (by decide +kernel)).2 (by decide +kernel),
    C56_fstat h (i := 0) (by decide) hy (by decide +kernel) (by decide +kernel)⟩

example : ∃ s, estimate line (fun _ => 1) = .ok s ∧ 0 ≤ rsquare line s 0 := by
  obtain ⟨s, h, hc, _⟩ := C55_lsq_partial (c := fun _ => 1) line_linear rfl (by decide +kernel) (by decide)
    (by show (0 : Rat) < _; decide +kernel) (by decide) (by unfold Sharp; decide +kernel) line_independent
    (fun _ h => line_free (fun _ => 1) h) (line_least fun _ => 1) (line_regular fun _ => 1) (distinct_of (by decide +kernel))
  refine ⟨s, h, C56_rsquare_nonneg_partial h line_linear rfl (by rw [hc]; exact line_least _) (by decide +kernel)
    (c' := fun k => if k = 0 then 7 / 3 else if k = 1 then 0 else s.c k) (fun k hk => two_free rfl rfl _ _ hk) fun t ht => ?_⟩
  have ht : t < 3 := ht
  have hm : mean line.T (line.lhs 0) = 7 / 3 := by decide +kernel
  rw [hm]
  simp only [line, lin, sum_range_succ, sum_range_zero, cols]
  rcases (by omega : t = 0 ∨ t = 1 ∨ t = 2) with rfl | rfl | rfl <;> norm_num

/-- Two equations, one coefficient being common to both. -/
def shared : Prob Rat :=
  lin 3 4 [[1, 2, 4, 3], [1, 3, 0, 1]] [[[1, 1, 1, 1], [0, 1, 2, 1]], [[], [0, 1, 0, 2], [1, 0, 0, 1]]] [] 0 10 fun _ => 1

example : degFreed shared (est shared) none = some [2, 4, 2] := by decide +kernel

example : ∃ l, degFreed shared (est shared) none = some l ∧ l.length = 3 :=
  let ⟨l, h1, h2, _⟩ := C56_degrees (p := shared) (by decide) (fun k hk => by
    have : k = 0 := by
      have h : (est shared).head? = some 0 := by decide +kernel
      rw [h] at hk
      exact (Option.some.inj hk).symm
    subst this
    decide +kernel)
  ⟨l, h1, h2⟩

/-- The mean of `1, 2, 6`, with real numbers. -/
noncomputable def flat : Prob ℝ where
  neq := 1
  nc := 1
  T := 3
  lhs _ t := if t = 0 then 1 else if t = 1 then 2 else 6
  rhs _ c _ := some (c 0)
  inEq _ _ := true
  relax _ := 1
  ninst := 0
  inst _ _ := 0
  met := 0
  maxit := 10
  eps := 1

theorem flat_linear : IsLinear flat (fun _ _ => 0) (fun _ _ _ => 1) where
  rhs i c t _ _ := by simp [flat]
  inEq k i _ h := by simp [flat] at h
  relax _ _ := Or.inr rfl

theorem flat_est : est flat = [0] := by
  simp [est, flat, List.range_succ]

theorem flat_nce : nce flat = 1 := by rw [← est_nce flat_linear, flat_est]; rfl

theorem flat_normal : normal flat (fun _ _ _ => 1) (fun _ _ => 0) one 0 0 = 3 := by
  have h0 : nInstr flat = 0 := by simp [nInstr, flat]
  rw [normal, gmg_eq, h0, show decide (1 < 0) = false from rfl, bil_proj (adj_off flat _)]
  have hd : ∀ t, t < 3 → design flat (fun _ _ _ => 1) 0 0 t = (1 : ℝ) := fun t ht =>
    if_pos ⟨by rw [flat_nce]; omega, by show 0 < 1; omega, ht⟩
  simp only [proj, Bool.false_eq_true, if_false, show flat.neq = 1 from rfl, show flat.T = 3 from rfl, sum_range_succ, sum_range_zero, one]
  rw [hd 0 (by omega), hd 1 (by omega), hd 2 (by omega)]
  norm_num

theorem flat_nbce : nbce flat 0 = 1 := by
  simp [nbce, flat, List.range_succ]

theorem flat_ssr : ssr (block flat (fun _ _ => 0) fun _ _ _ => 1) (fun _ => 3) = 14 := by
  simp only [ssr, resid, block, flat, sum_range_succ, sum_range_zero]
  norm_num

theorem real_sqrt : IsSqrt Real.sqrt := fun v hv => ⟨Real.sqrt_nonneg v, Real.sq_sqrt hv⟩

/-- Everything of `C56_ols_error_partial`: the standard error of the mean of three numbers is the square root of `14 / (2 * 3)`. -/
theorem flat_error : ∃ s l, estimate flat (fun _ => 3) = .ok s ∧ s.c = (fun _ => 3) ∧ degFreed flat (est flat) none = some l ∧
    ∃ r : Int, l[0]? = some r ∧ 0 < coefStd Real.sqrt flat s r 0 ∧ coefStd Real.sqrt flat s r 0 ^ 2 = 14 / (2 * 3) := by
  obtain ⟨s, l, h1, h2, h3, h4⟩ := C56_ols_error_partial (p := flat) (c := fun _ => 3) (m := fun _ => 3) (b := fun _ _ => 1 / 3)
    (sqrt := Real.sqrt) flat_linear rfl rfl (by rw [flat_nce]; omega) (by show (0 : ℝ) < 1; norm_num) (by show 3 ≤ 10; omega)
    (by unfold Sharp; rw [flat_nce]; exact decide_eq_true (Or.inr (by show (1 : ℝ) / 10 ^ 25 ≤ |normal flat (fun _ _ _ => 1) (fun _ _ => 0) one 0 0|; rw [flat_normal]; norm_num)))
    (by
      intro v hv h k hk
      have h1 := h 0 (by show 0 < 1; omega) 0 (by show 0 < 3; omega)
      have hk : k < 1 := hk
      obtain rfl : k = 0 := by omega
      simpa [block, flat] using h1)
    (fun _ _ => rfl)
    ((C55_orthogonal flat_linear rfl _).2 fun k _ => by
      simp only [resid, block, flat, sum_range_succ, sum_range_zero]
      norm_num)
    (fun k _ => by
      rw [tiny, decide_eq_false_iff_not]
      norm_num)
    (by rw [flat_ssr]; norm_num) (fun _ _ => rfl) (by rw [flat_nbce]; show 1 < 3; omega)
    (by
      rw [flat_nce]
      constructor
      · intro i k hi hk
        obtain rfl : i = 0 := by omega
        obtain rfl : k = 0 := by omega
        simp [flat]
      · intro i k hi hk
        obtain rfl : i = 0 := by omega
        obtain rfl : k = 0 := by omega
        simp [flat]) real_sqrt
  obtain ⟨r, h5, h6, h7⟩ := h4 0 (by rw [flat_nce]; omega)
  refine ⟨s, l, h1, h2, h3, r, h5, h6, ?_⟩
  rw [h7, flat_ssr, flat_nbce]
  norm_num [flat]

example : ∃ s, estimate flat (fun _ => 3) = .ok s ∧ stderr Real.sqrt flat s 0 ^ 2 * ((3 : Nat) - nbce flat 0) = squares 3 (s.u 0) ∧
    mcorru Real.sqrt s 0 0 = 1 ∧ mcorr Real.sqrt s 0 0 = 1 ∧
    loglik Real.log 3 flat s 0 = -(((3 : Nat) : ℝ) / 2) * (1 + Real.log (2 * 3 * (squares 3 (s.u 0) / (3 : Nat)))) := by
  obtain ⟨s, _, h, _⟩ := flat_error
  exact ⟨s, h, (C56_stderr h real_sqrt (i := 0) (by show 0 < 1; omega) (by rw [flat_nbce]; show 1 < 3; omega)).2.2.2.1,
    (C56_residual_correlations h real_sqrt (i := 0) (j := 0) (by show 0 < 1; omega) (by show 0 < 1; omega)).2.2.2.1 rfl,
    (C56_coefficient_correlations h real_sqrt (i := 0) (j := 0) (by rw [flat_nce]; omega) (by rw [flat_nce]; omega)).2.2.2.2.2.1 rfl,
    C56_likelihood_one h rfl (fun a b ha hb => Real.log_mul ha.ne' hb.ne') (by norm_num)⟩

example : meanY flat 0 = mean 3 (flat.lhs 0) ∧ ∃ v, stdev Real.sqrt flat 0 = some v ∧ 0 ≤ v ∧ v ^ 2 * ((3 : Nat) - 1) = total 3 (flat.lhs 0) :=
  C56_dependent real_sqrt 0 (by show 2 ≤ 3; omega)

/-- A block estimated by Zellner's method has a positive determinant. -/
example : ∃ s, estimate (pair 1) (fun _ => 1) = .ok s ∧ 0 < (mat 2 s.vcu).det ∧ 0 < s.vcc 0 0 ∧
    s.vcc 0 1 = s.vcc 1 0 := by
  obtain ⟨s, h, _⟩ := stat_some (f := fun _ => true) (v := true) (o := estimate (pair 1) fun _ => 1) (by decide +kernel)
  have hn : nce (pair 1) = 2 := by decide +kernel
  have hv := estimate_vcc h
  rw [hn] at hv
  exact ⟨s, h, (C56_likelihood h (fun x => x) 3 (i := 0) (by decide)).1, pos_diag hv (by omega), hv.symm 0 1 (by omega) (by omega)⟩

/-! ### What does not hold -/

/-- **C56** The R² of a constant left hand side is 1, whatever the residuals: `y = (2, 2, 2)` on `x = (1, 2, 3)`. -/
theorem C56_constant_counterexample :
    stat (fun s => (rsquare (lin 1 3 [[2, 2, 2]] [[[1, 2, 3]]] [] 0 10 fun _ => 1) s 0,
      ssres (lin 1 3 [[2, 2, 2]] [[[1, 2, 3]]] [] 0 10 fun _ => 1) s 0))
      (estimate (lin 1 3 [[2, 2, 2]] [[[1, 2, 3]]] [] 0 10 fun _ => 1) fun _ => 1) = some (1, 12 / 7) := by decide +kernel

/-- **C56** Without constant R² and the F statistic can be negative: `y = (3, 2, 1)` on `x = (1, 2, 3)` and `z = (0, 1, 0)`. -/
theorem C56_negative_counterexample :
    stat (fun s => (decide (rsquare (lin 2 3 [[3, 2, 1]] [[[1, 2, 3], [0, 1, 0]]] [] 0 10 fun _ => 1) s 0 < 0),
      decide (fstat (lin 2 3 [[3, 2, 1]] [[[1, 2, 3], [0, 1, 0]]] [] 0 10 fun _ => 1) s 0 < 0)))
      (estimate (lin 2 3 [[3, 2, 1]] [[[1, 2, 3], [0, 1, 0]]] [] 0 10 fun _ => 1) fun _ => 1) = some (true, true) := by decide +kernel

/-- **C56** The F statistic of an equation with one coefficient is 0, however good the fit: `y = (1, 2, 4)` on `x = (1, 2, 3)`. -/
theorem C56_one_coefficient_counterexample :
    stat (fun s => (fstat (lin 1 3 [[1, 2, 4]] [[[1, 2, 3]]] [] 0 10 fun _ => 1) s 0,
      rsquare (lin 1 3 [[1, 2, 4]] [[[1, 2, 3]]] [] 0 10 fun _ => 1) s 0))
      (estimate (lin 1 3 [[1, 2, 4]] [[[1, 2, 3]]] [] 0 10 fun _ => 1) fun _ => 1) = some (0, 181 / 196) := by decide +kernel

/-- **C56** When all the coefficients of the first equation are fixed, `nbce` is read before it has a value: the degrees of freedom of the
    first estimated coefficient depend on what the memory contains, until an equation in which it occurs is met. -/
theorem C56_degrees_counterexample :
    degFreed (lin 2 3 [[1, 2, 4], [1, 2, 0]] [[[1, 1, 1]], [[], [1, 2, 3]]] [] 0 10 fun k => if k = 0 then 0 else 1)
      (est (lin 2 3 [[1, 2, 4], [1, 2, 0]] [[[1, 1, 1]], [[], [1, 2, 3]]] [] 0 10 fun k => if k = 0 then 0 else 1)) none = none := by
  decide +kernel

end Iode.Estim.C56
