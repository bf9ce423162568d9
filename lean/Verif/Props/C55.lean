import Verif.Lemmas.Estim

/-!
# C55: an estimation returns the coefficients that minimise the criterion of its method
-/
namespace Iode.Estim.C55

open Iode.Lin Iode.Estim Iode.Spec.Estim Iode.Spec.Linear Finset

variable {K : Type} [Field K] [LinearOrder K] [IsStrictOrderedRing K]
variable {p : Prob K} {a : Nat → Nat → K} {x : Nat → Nat → Nat → K}

/-- The weights of the first stage. -/
def one (i j : Nat) : K := if i = j then 1 else 0

/-- Methods without second stage, whatever the projection. -/
theorem gls_one (hl : IsLinear p a x) (hmet : p.met = 0 ∨ p.met = 2) (h1 : nInstr p ≠ 1) (hn : 0 < nce p) (hT : 0 < p.T)
    (heps : 0 < p.eps) (hmax : 3 ≤ p.maxit) {d : Nat → Nat → K} (ha : Adj p d (decide (1 < nInstr p)))
    (hsh : Sharp p x d one) (hi : Independent (Free p) (block p a x) (P p d)) {c m : Nat → K}
    (hm : ∀ k, ¬ Free p k → m k = c k) (hmn : Least (Free p) (crit (block p a x) one (P p d)) m) (hmr : Regular p m)
    (hd : Distinct (block p a x) (resid (block p a x) m)) :
    ∃ s, gls p d (start p c) = .ok s ∧ s.c = m ∧ (∀ i t, i < p.neq → t < p.T → s.u i t = resid (block p a x) m i t) ∧
      ∃ w, IsInverse p.neq (cov (block p a x) (resid (block p a x) m)) w ∧ IsInverse (nce p) (normal p x d w) s.vcc := by
  have hw : Pos (K := K) p.neq one := pos_one p.neq
  obtain ⟨s1, e1, e2, e3, e4, e5, e6, e7, e8, e9, e10, e11⟩ := stage_linear (s := start p c) hl (by omega) h1 hn hT heps hsh
    (normal_regular hl ha hw hi) (getC_regular p c) (fun _ _ _ _ _ _ => rfl) rfl (m := m)
    (fun k hk => by rw [hm k hk]; exact (getC_fixed hk).symm) (normal_of_least hl ha hw hmn) hmr hd (by show 0 + 2 ≤ _; omega)
  have hit : s1.it ≤ 2 := by simpa [start] using e3
  have hN : gmg p d s1.ivcu s1.g = normal p x d s1.ivcu := by
    funext i j
    exact bil_congr p d s1.ivcu _ (e5 i) (e5 j)
  obtain ⟨b, b1, b2⟩ := normal_inverse hl ha e10 hi
  refine ⟨{ s1 with vcc := b }, ?_, e2, e6, s1.ivcu, ?_, b2⟩
  · rw [gls, e1]
    simp only
    rw [if_neg (by omega)]
    simp only [vccOf, e8, hN, ivcc, b1, last, e4]
    rw [if_pos (by simp; omega)]
  · have hcov : ∀ i j, i < p.neq → j < p.neq → cov (block p a x) (resid (block p a x) m) i j = s1.vcu i j := by
      intro i j hi' hj
      rw [e7, vcuOf, sum0, cov, mul_one_div]
      congr 1
      exact sum_congr rfl fun t ht => by rw [e6 i t hi' (mem_range.1 ht), e6 j t hj (mem_range.1 ht)]
    exact ⟨fun i k h1 h2 => (sum_congr rfl fun j hj => by rw [hcov i j h1 (mem_range.1 hj)]).trans (e9.1 i k h1 h2),
      fun i k h1 h2 => (sum_congr rfl fun j hj => by rw [hcov j k (mem_range.1 hj) h2]).trans (e9.2 i k h1 h2)⟩

omit [IsStrictOrderedRing K] in
theorem proj_none (h0 : nInstr p = 0) (d : Nat → Nat → K) : P p d = fun v => v := by
  funext v t
  simp [P, proj, h0]

theorem crit_one (b : Block K) (c : Nat → K) : crit b one (fun v => v) c = ssr b c := by
  rw [crit, ssr]
  refine sum_congr rfl fun i hi => ?_
  rw [sum_eq_single i]
  · rw [one, if_pos rfl, one_mul]
    exact sum_congr rfl fun t _ => (sq _).symm
  · intro j _ hj
    rw [one, if_neg (Ne.symm hj), zero_mul]
  · intro h
    exact absurd hi h

/-- **C55** Least squares, on a block of equations that are linear in their coefficients (partial: the relaxation parameters are 0 or 1,
    no coefficient of the solution may be below `1e-15` and no number below the threshold of the elimination may occur in it; the
    limit on the iterations must leave one more than needed, and no equation may be fitted exactly or share its residuals).  The
    coefficients returned are those that minimise the sum of the squares of the residuals. -/
theorem C55_lsq_partial (hl : IsLinear p a x) (hmet : p.met = 0) (hn : 0 < nce p) (hT : 0 < p.T) (heps : 0 < p.eps)
    (hmax : 3 ≤ p.maxit) (hsh : Sharp p x (fun _ _ => 0) one) (hi : Independent (Free p) (block p a x) fun v => v) {c m : Nat → K}
    (hm : ∀ k, ¬ Free p k → m k = c k) (hmn : Least (Free p) (ssr (block p a x)) m) (hmr : Regular p m)
    (hd : Distinct (block p a x) (resid (block p a x) m)) :
    ∃ s, estimate p c = .ok s ∧ s.c = m ∧ (∀ i t, i < p.neq → t < p.T → s.u i t = resid (block p a x) m i t) := by
  have h0 : nInstr p = 0 := by rw [nInstr, if_pos (by omega)]
  have hP := proj_none h0 (fun _ _ => (0 : K))
  obtain ⟨s, e1, e2, e3, _⟩ := gls_one hl (Or.inl hmet) (by omega) hn hT heps hmax (d := fun _ _ => 0)
    (by rw [h0]; exact adj_off p _) hsh (by rw [hP]; exact hi) hm
    (by
      rw [hP, show crit (block p a x) one (fun v => v) = ssr (block p a x) from funext (crit_one _)]
      exact hmn) hmr hd
  refine ⟨s, ?_, e2, e3⟩
  rw [estimate, h0, if_neg (by omega), if_neg (by omega), e1]

/-- **C55** The matrix from which the standard errors are computed, for one equation: the variance of the residuals (the sum of their
    squares divided by the number of periods) multiplied by the inverse of `X'X`. -/
theorem C55_covariance_partial (hl : IsLinear p a x) (hneq : p.neq = 1) (hmet : p.met = 0) (hn : 0 < nce p) (hT : 0 < p.T)
    (heps : 0 < p.eps)
    (hmax : 3 ≤ p.maxit) (hsh : Sharp p x (fun _ _ => 0) one) (hi : Independent (Free p) (block p a x) fun v => v) {c m : Nat → K}
    (hm : ∀ k, ¬ Free p k → m k = c k) (hmn : Least (Free p) (ssr (block p a x)) m) (hmr : Regular p m)
    (hpos : 0 < ssr (block p a x) m) :
    ∃ s, estimate p c = .ok s ∧ s.c = m ∧ IsInverse (nce p)
      (fun i j => (∑ t ∈ range p.T, x 0 ((est p).getD i 0) t * x 0 ((est p).getD j 0) t) / (ssr (block p a x) m / p.T)) s.vcc := by
  have h0 : nInstr p = 0 := by rw [nInstr, if_pos (by omega)]
  have hP := proj_none h0 (fun _ _ => (0 : K))
  have hssr : ssr (block p a x) m = ∑ t ∈ range p.T, resid (block p a x) m 0 t ^ 2 := by
    rw [ssr]
    simp only [block, hneq, sum_range_one]
  have hd : Distinct (block p a x) (resid (block p a x) m) := by
    intro v hv i hi'
    simp only [block, hneq] at hi' hv
    obtain rfl : i = 0 := by omega
    by_contra hne
    have : ∀ t ∈ range p.T, resid (block p a x) m 0 t ^ 2 = 0 := by
      intro t ht
      have := hv t (mem_range.1 ht)
      rw [sum_range_one] at this
      have h2 : resid (block p a x) m 0 t = 0 := (mul_eq_zero.1 this).resolve_left hne
      rw [h2]
      ring
    rw [hssr, sum_eq_zero this] at hpos
    exact lt_irrefl _ hpos
  obtain ⟨s, e1, e2, e3, w, e4, e5⟩ := gls_one hl (Or.inl hmet) (by omega) hn hT heps hmax (d := fun _ _ => 0)
    (by rw [h0]; exact adj_off p _) hsh (by rw [hP]; exact hi) hm
    (by
      rw [hP, show crit (block p a x) one (fun v => v) = ssr (block p a x) from funext (crit_one _)]
      exact hmn) hmr hd
  refine ⟨s, by rw [estimate, h0, if_neg (by omega), if_neg (by omega), e1], e2, ?_⟩
  have hcov : cov (block p a x) (resid (block p a x) m) 0 0 = ssr (block p a x) m / p.T := by
    rw [cov, hssr]
    simp only [block, sq]
  have hw : w 0 0 = (ssr (block p a x) m / p.T)⁻¹ := by
    have := e4.1 0 0 (by omega) (by omega)
    rw [hneq, sum_range_one, hcov, if_pos rfl] at this
    exact eq_inv_of_mul_eq_one_right this
  have hN : ∀ i j, i < nce p → j < nce p → normal p x (fun _ _ => 0) w i j =
      (∑ t ∈ range p.T, x 0 ((est p).getD i 0) t * x 0 ((est p).getD j 0) t) / (ssr (block p a x) m / p.T) := by
    intro i j hi' hj
    rw [normal, gmg_eq, h0, show decide (1 < 0) = false from rfl, bil_proj (adj_off p _), hneq, sum_range_one, sum_range_one, hw, div_eq_inv_mul _ (ssr (block p a x) m / p.T)]
    congr 1
    refine sum_congr rfl fun t ht => ?_
    simp only [proj, Bool.false_eq_true, if_false]
    rw [design, design, if_pos ⟨hi', by omega, mem_range.1 ht⟩, if_pos ⟨hj, by omega, mem_range.1 ht⟩]
  exact ⟨fun i k h1 h2 => (sum_congr rfl fun j hj => by rw [hN i j h1 (mem_range.1 hj)]).trans (e5.1 i k h1 h2),
    fun i k h1 h2 => (sum_congr rfl fun j hj => by rw [hN j k (mem_range.1 hj) h2]).trans (e5.2 i k h1 h2)⟩

/-- **C55** Instrumental variables, with at least two of them (partial: as above).  The coefficients returned are those that minimise the
    sum of the squares of the residuals after a regression of these on the instruments and the constant. -/
theorem C55_iv_partial (hl : IsLinear p a x) (hmet : p.met = 2) (hin : 2 ≤ p.ninst) {d : Nat → Nat → K} (hdm : instrMat p = some d)
    (hn : 0 < nce p) (hT : 0 < p.T) (heps : 0 < p.eps)
    (hmax : 3 ≤ p.maxit) (hsh : Sharp p x d one) (hi : Independent (Free p) (block p a x) (proj p d true)) {c m : Nat → K}
    (hm : ∀ k, ¬ Free p k → m k = c k) (hmn : Least (Free p) (crit (block p a x) one (proj p d true)) m) (hmr : Regular p m)
    (hd : Distinct (block p a x) (resid (block p a x) m)) :
    Fit p.T (p.ninst + 1) (instr p) (proj p d true) ∧ ∃ s, estimate p c = .ok s ∧ s.c = m := by
  have h0 : nInstr p = p.ninst := by rw [nInstr, if_neg (by omega)]
  have hP : decide (1 < nInstr p) = true := by rw [h0]; simp; omega
  have hfit := fit_instr hdm
  obtain ⟨s, e1, e2, _⟩ := gls_one hl (Or.inr hmet) (by omega) hn hT heps hmax (d := d)
    (by rw [hP]; exact adj_fit hfit) hsh (by rw [P, hP]; exact hi) hm (by rw [P, hP]; exact hmn) hmr hd
  refine ⟨hfit, s, ?_, e2⟩
  rw [estimate, h0, if_pos (by omega), hdm]
  simp only
  rw [if_neg (by omega), e1]

/-- Methods with a second stage, whatever the projection. -/
theorem gls_two (hl : IsLinear p a x) (hmet : p.met = 1 ∨ p.met = 3) (h1 : nInstr p ≠ 1) (hn : 0 < nce p) (hT : 0 < p.T)
    (heps : 0 < p.eps) (hmax : 5 ≤ p.maxit) {d : Nat → Nat → K} (ha : Adj p d (decide (1 < nInstr p)))
    (hsh : Sharp p x d one) (hi : Independent (Free p) (block p a x) (P p d)) {c m m' : Nat → K}
    (hm : ∀ k, ¬ Free p k → m k = c k) (hmn : Least (Free p) (crit (block p a x) one (P p d)) m) (hmr : Regular p m)
    (hd : Distinct (block p a x) (resid (block p a x) m))
    {w : Nat → Nat → K} (hw : IsInverse p.neq (cov (block p a x) (resid (block p a x) m)) w) (hsh' : Sharp p x d w)
    (hm' : ∀ k, ¬ Free p k → m' k = c k) (hmn' : Least (Free p) (crit (block p a x) w (P p d)) m') (hmr' : Regular p m')
    (hd' : Distinct (block p a x) (resid (block p a x) m')) :
    ∃ s, gls p d (start p c) = .ok s ∧ s.c = m' ∧ IsInverse (nce p) (normal p x d w) s.vcc := by
  have hone : Pos (K := K) p.neq one := pos_one p.neq
  obtain ⟨s1, e1, e2, e3, e4, e5, e6, e7, e8, e9, e10, e11⟩ := stage_linear (s := start p c) hl (by omega) h1 hn hT heps hsh
    (normal_regular hl ha hone hi) (getC_regular p c) (fun _ _ _ _ _ _ => rfl) rfl (m := m)
    (fun k hk => by rw [hm k hk]; exact (getC_fixed hk).symm) (normal_of_least hl ha hone hmn) hmr hd (by show 0 + 2 ≤ _; omega)
  have hit : s1.it ≤ 2 := by simpa [start] using e3
  have hcov : ∀ i j, i < p.neq → j < p.neq → cov (block p a x) (resid (block p a x) m) i j = s1.vcu i j := by
    intro i j hi' hj
    rw [e7, vcuOf, sum0, cov, mul_one_div]
    congr 1
    exact sum_congr rfl fun t ht => by rw [e6 i t hi' (mem_range.1 ht), e6 j t hj (mem_range.1 ht)]
  have hww : ∀ i j, i < p.neq → j < p.neq → w i j = s1.ivcu i j := inverse_unique hcov hw e9
  have hNw : normal p x d w = normal p x d s1.ivcu := by
    funext i j
    exact bil_weights d hww _ _ _
  have hcr : crit (block p a x) w (P p d) = crit (block p a x) s1.ivcu (P p d) := by
    funext c'
    rw [crit_eq hl ha, crit_eq hl ha]
    exact bil_weights d hww _ _ _
  rw [hcr] at hmn'
  have hsh2 : Sharp p x d s1.ivcu := by
    unfold Sharp
    rw [← hNw]
    exact hsh'
  obtain ⟨s2, f1, f2, f3, f4, f5, f6, f7, f8, f9, f10, f11⟩ := stage_linear (s := { s1 with conv := false }) hl (by omega) h1 hn hT
    heps hsh2 (normal_regular hl ha e10 hi) (by show Regular p s1.c; rw [e2]; exact hmr)
    (fun m i t h hi' ht => by
      show s1.g m i t = 0
      rw [e5 m i t hi' ht, design, if_neg (by omega)]) rfl (m := m')
    (fun k hk => by show m' k = s1.c k; rw [e2, hm' k hk, hm k hk]) (normal_of_least hl ha e10 hmn') hmr' hd'
    (by show s1.it + 2 ≤ _; omega)
  have hit2 : s2.it ≤ 4 := le_trans f3 (by show s1.it + 2 ≤ 4; omega)
  obtain ⟨b, b1, b2⟩ := normal_inverse hl ha e10 hi
  refine ⟨{ s2 with vcc := b }, ?_, f2, by rw [hNw]; exact b2⟩
  rw [gls, e1]
  simp only
  rw [if_pos hmet, f1]
  simp only [ivcc]
  rw [show s2.vcc = normal p x d s1.ivcu from f11, b1]
  simp only [last, f4]
  rw [if_pos (by simp; omega)]

/-- **C55** Zellner's method (partial: as above, at both stages).  The coefficients returned minimise the sum of the products of the
    residuals of all pairs of equations, weighted by the inverse of the covariances of the residuals of least squares; the matrix from
    which the standard errors are computed is the inverse of the matrix of the second stage. -/
theorem C55_zellner_partial (hl : IsLinear p a x) (hmet : p.met = 1) (hn : 0 < nce p) (hT : 0 < p.T) (heps : 0 < p.eps)
    (hmax : 5 ≤ p.maxit) (hsh : Sharp p x (fun _ _ => 0) one) (hi : Independent (Free p) (block p a x) fun v => v) {c m m' : Nat → K}
    (hm : ∀ k, ¬ Free p k → m k = c k) (hmn : Least (Free p) (ssr (block p a x)) m) (hmr : Regular p m)
    (hd : Distinct (block p a x) (resid (block p a x) m))
    {w : Nat → Nat → K} (hw : IsInverse p.neq (cov (block p a x) (resid (block p a x) m)) w) (hsh' : Sharp p x (fun _ _ => 0) w)
    (hm' : ∀ k, ¬ Free p k → m' k = c k) (hmn' : Least (Free p) (crit (block p a x) w fun v => v) m') (hmr' : Regular p m')
    (hd' : Distinct (block p a x) (resid (block p a x) m')) :
    ∃ s, estimate p c = .ok s ∧ s.c = m' ∧ IsInverse (nce p) (fun j k => ∑ i ∈ range p.neq, ∑ i' ∈ range p.neq,
      w i i' * ∑ t ∈ range p.T, x i ((est p).getD j 0) t * x i' ((est p).getD k 0) t) s.vcc := by
  have h0 : nInstr p = 0 := by rw [nInstr, if_pos (by omega)]
  have hP := proj_none h0 (fun _ _ => (0 : K))
  obtain ⟨s, e1, e2, e3⟩ := gls_two hl (Or.inl hmet) (by omega) hn hT heps hmax (d := fun _ _ => 0)
    (by rw [h0]; exact adj_off p _) hsh (by rw [hP]; exact hi) hm
    (by
      rw [hP, show crit (block p a x) one (fun v => v) = ssr (block p a x) from funext (crit_one _)]
      exact hmn) hmr hd hw hsh' hm' (by rw [hP]; exact hmn') hmr' hd'
  refine ⟨s, by rw [estimate, h0, if_neg (by omega), if_neg (by omega), e1], e2, ?_⟩
  have hN : ∀ j k, j < nce p → k < nce p → normal p x (fun _ _ => 0) w j k = ∑ i ∈ range p.neq, ∑ i' ∈ range p.neq,
      w i i' * ∑ t ∈ range p.T, x i ((est p).getD j 0) t * x i' ((est p).getD k 0) t := by
    intro j k hj hk
    rw [normal, gmg_eq, h0, show decide (1 < 0) = false from rfl, bil_proj (adj_off p _)]
    refine sum_congr rfl fun i hi => sum_congr rfl fun i' hi' => ?_
    congr 1
    refine sum_congr rfl fun t ht => ?_
    simp only [proj, Bool.false_eq_true, if_false]
    rw [design, design, if_pos ⟨hj, mem_range.1 hi, mem_range.1 ht⟩, if_pos ⟨hk, mem_range.1 hi', mem_range.1 ht⟩]
  exact ⟨fun i k h1 h2 => (sum_congr rfl fun j hj => by rw [hN i j h1 (mem_range.1 hj)]).trans (e3.1 i k h1 h2),
    fun i k h1 h2 => (sum_congr rfl fun j hj => by rw [hN j k (mem_range.1 hj) h2]).trans (e3.2 i k h1 h2)⟩

/-- **C55** Three stages least squares, with at least two instruments (partial: as above, at both stages). -/
theorem C55_stages_partial (hl : IsLinear p a x) (hmet : p.met = 3) (hin : 2 ≤ p.ninst) {d : Nat → Nat → K}
    (hdm : instrMat p = some d) (hn : 0 < nce p) (hT : 0 < p.T) (heps : 0 < p.eps)
    (hmax : 5 ≤ p.maxit) (hsh : Sharp p x d one) (hi : Independent (Free p) (block p a x) (proj p d true)) {c m m' : Nat → K}
    (hm : ∀ k, ¬ Free p k → m k = c k) (hmn : Least (Free p) (crit (block p a x) one (proj p d true)) m) (hmr : Regular p m)
    (hd : Distinct (block p a x) (resid (block p a x) m))
    {w : Nat → Nat → K} (hw : IsInverse p.neq (cov (block p a x) (resid (block p a x) m)) w) (hsh' : Sharp p x d w)
    (hm' : ∀ k, ¬ Free p k → m' k = c k) (hmn' : Least (Free p) (crit (block p a x) w (proj p d true)) m') (hmr' : Regular p m')
    (hd' : Distinct (block p a x) (resid (block p a x) m')) :
    Fit p.T (p.ninst + 1) (instr p) (proj p d true) ∧
    ∃ s, estimate p c = .ok s ∧ s.c = m' ∧ IsInverse (nce p) (normal p x d w) s.vcc := by
  have h0 : nInstr p = p.ninst := by rw [nInstr, if_neg (by omega)]
  have hP : decide (1 < nInstr p) = true := by rw [h0]; simp; omega
  have hfit := fit_instr hdm
  obtain ⟨s, e1, e2, e3⟩ := gls_two hl (Or.inr hmet) (by omega) hn hT heps hmax (d := d)
    (by rw [hP]; exact adj_fit hfit) hsh (by rw [P, hP]; exact hi) hm (by rw [P, hP]; exact hmn) hmr hd hw hsh' hm'
    (by rw [P, hP]; exact hmn') hmr' hd'
  refine ⟨hfit, s, ?_, e2, e3⟩
  rw [estimate, h0, if_pos (by omega), hdm]
  simp only
  rw [if_neg (by omega), e1]

/-- **C55** The coefficients that minimise the sum of squares are those whose residuals are orthogonal to the columns of the estimated
    coefficients. -/
theorem C55_orthogonal (hl : IsLinear p a x) (hmet : p.met = 0) (c : Nat → K) :
    Least (Free p) (ssr (block p a x)) c ↔
      ∀ k, Free p k → ∑ i ∈ range p.neq, ∑ t ∈ range p.T, x i k t * resid (block p a x) c i t = 0 := by
  have h0 : nInstr p = 0 := by rw [nInstr, if_pos (by omega)]
  have hP := proj_none h0 (fun _ _ => (0 : K))
  have ha : Adj p (fun _ _ => (0 : K)) (decide (1 < nInstr p)) := by rw [h0]; exact adj_off p _
  have hc : crit (block p a x) one (P p fun _ _ => 0) = ssr (block p a x) := by
    rw [hP]
    exact funext (crit_one _)
  have hN : ∀ j, j < nce p → normalB p a x (fun _ _ => 0) one c j =
      ∑ i ∈ range p.neq, ∑ t ∈ range p.T, x i ((est p).getD j 0) t * resid (block p a x) c i t := by
    intro j hj
    rw [normalB, bil_proj ha]
    refine sum_congr rfl fun i hi => ?_
    rw [sum_eq_single i]
    · rw [one, if_pos rfl, one_mul]
      refine sum_congr rfl fun t ht => ?_
      rw [h0]
      simp only [show decide (1 < 0) = false from rfl, proj, Bool.false_eq_true, if_false]
      rw [design, if_pos ⟨hj, mem_range.1 hi, mem_range.1 ht⟩]
    · intro j' _ hj'
      rw [one, if_neg (Ne.symm hj'), zero_mul]
    · intro h
      exact absurd hi h
  constructor
  · intro h k hk
    rw [← hc] at h
    have hn := normal_of_least hl ha (pos_one p.neq) h
    have hmem := mem_est.2 hk
    have hlt := List.idxOf_lt_length_of_mem hmem
    have := hn ((est p).idxOf k) (by rw [← est_nce hl]; exact hlt)
    have h2 := hN ((est p).idxOf k) (by rw [← est_nce hl]; exact hlt)
    rw [getD_lt _ hlt, List.getElem_idxOf hlt] at h2
    exact h2.symm.trans this
  · intro h
    rw [← hc]
    refine least_of_normal hl ha (pos_one p.neq) fun j hj => ?_
    refine (hN j hj).trans (h _ (mem_est.1 ?_))
    rw [← est_nce hl] at hj
    rw [getD_lt _ hj]
    exact List.getElem_mem hj

/-- **C55** If the columns of the estimated coefficients are independent there is one and only one choice of these that minimises the
    sum of squares, the other coefficients being kept. -/
theorem C55_unique (hl : IsLinear p a x) (hmet : p.met = 0) (hi : Independent (Free p) (block p a x) fun v => v) (c : Nat → K) :
    ∃! m, (∀ k, ¬ Free p k → m k = c k) ∧ Least (Free p) (ssr (block p a x)) m := by
  have h0 : nInstr p = 0 := by rw [nInstr, if_pos (by omega)]
  have hP := proj_none h0 (fun _ _ => (0 : K))
  have ha : Adj p (fun _ _ => (0 : K)) (decide (1 < nInstr p)) := by rw [h0]; exact adj_off p _
  have hc : crit (block p a x) one (P p fun _ _ => 0) = ssr (block p a x) := by
    rw [hP]
    exact funext (crit_one _)
  rw [← hP] at hi
  rw [← hc]
  have hw : Pos (K := K) p.neq one := pos_one p.neq
  obtain ⟨b, -, b2⟩ := normal_inverse hl ha hw hi
  have hN : Normal p a x (fun _ _ => 0) one
      (adapt p (fun j => ∑ k ∈ range (nce p), b j k * normalB p a x (fun _ _ => 0) one c k) (est p) 0 c) := by
    intro j hj
    rw [normalB_adapt hl, sub_eq_zero]
    symm
    calc _ = ∑ k ∈ range (nce p), (∑ m ∈ range (nce p), normal p x (fun _ _ => 0) one j m * b m k) *
            normalB p a x (fun _ _ => 0) one c k := by
          simp only [mul_sum, sum_mul]
          rw [sum_comm]
          exact sum_congr rfl fun k _ => sum_congr rfl fun m _ => by ring
      _ = _ := by
          rw [sum_eq_single j]
          · rw [b2.1 j j hj hj, if_pos rfl, one_mul]
          · intro k hk hne
            rw [b2.1 j k hj (mem_range.1 hk), if_neg (Ne.symm hne), zero_mul]
          · intro h
            exact absurd (mem_range.2 hj) h
  refine ⟨_, ⟨fun k hk => adapt_off _ _ _ _ _ fun h => hk (mem_est.1 h), least_of_normal hl ha hw hN⟩, ?_⟩
  rintro m ⟨hm, hmn⟩
  refine normal_unique hl (normal_regular hl ha hw hi) (fun k hk => ?_) hN (normal_of_least hl ha hw hmn)
  rw [hm k hk, adapt_off _ _ _ _ _ fun h => hk (mem_est.1 h)]

/-- **C55** Least squares with columns that are not independent (partial: linear equations, as above) fail, and leave the coefficients as
    they were except those below `1e-15` in size, which have become `0.1`. -/
theorem C55_singular_partial (hl : IsLinear p a x) (hmet : p.met = 0) (hn : 0 < nce p) (hmax : 0 < p.maxit)
    (hsh : Sharp p x (fun _ _ => 0) one) (hi : ¬ Independent (Free p) (block p a x) fun v => v) (c : Nat → K) :
    estimate p c = .err fun k => if k < p.nc ∧ p.relax k ≠ 0 ∧ |c k| < 1 / 10 ^ 15 then 1 / 10 else c k := by
  have h0 : nInstr p = 0 := by rw [nInstr, if_pos (by omega)]
  have ha : Adj p (fun _ _ => (0 : K)) (decide (1 < nInstr p)) := by rw [h0]; exact adj_off p _
  rw [← proj_none h0 (fun _ _ => (0 : K))] at hi
  have hs : Singular (nce p) (normal p x (fun _ _ => 0) one) := singular_of_dependent hl one ha hi
  have hloop := loop_singular (d := fun _ _ => 0) (s := start p c) hl (by omega) (by omega) hn hsh hs (getC_regular p c)
    (fun _ _ _ _ _ _ => rfl) rfl hmax (p.maxit - 1)
  rw [Nat.sub_add_cancel hmax] at hloop
  rw [estimate, h0, if_neg (by omega), if_neg (by omega), gls, stage, hloop]
  simp only [start, Out.err.injEq]
  funext k
  rw [getC]
  by_cases h : k < p.nc ∧ p.relax k ≠ 0 ∧ |c k| < 1 / 10 ^ 15
  · rw [if_pos h, if_pos]
    simp only [tiny, Bool.and_eq_true, decide_eq_true_eq]
    exact ⟨⟨h.1, h.2.1⟩, h.2.2⟩
  · rw [if_neg h, if_neg]
    simp only [tiny, Bool.and_eq_true, decide_eq_true_eq]
    exact fun h' => h ⟨h'.1.1, h'.1.2, h'.2⟩

/-- **C55** Residuals that are not independent (in particular one equation that is fitted exactly) make least squares fail (partial:
    linear equations, as above), although the coefficients left behind are those that minimise the sum of squares. -/
theorem C55_dependent_partial (hl : IsLinear p a x) (hmet : p.met = 0) (hn : 0 < nce p) (hT : 0 < p.T) (heps : 0 < p.eps)
    (hmax : 2 ≤ p.maxit) (hsh : Sharp p x (fun _ _ => 0) one) (hi : Independent (Free p) (block p a x) fun v => v) {c m : Nat → K}
    (hm : ∀ k, ¬ Free p k → m k = c k) (hmn : Least (Free p) (ssr (block p a x)) m) (hmr : Regular p m)
    (hd : ¬ Distinct (block p a x) (resid (block p a x) m)) : estimate p c = .err m := by
  have h0 : nInstr p = 0 := by rw [nInstr, if_pos (by omega)]
  have hP := proj_none h0 (fun _ _ => (0 : K))
  have ha : Adj p (fun _ _ => (0 : K)) (decide (1 < nInstr p)) := by rw [h0]; exact adj_off p _
  have hw : Pos (K := K) p.neq one := pos_one p.neq
  have hc : crit (block p a x) one (P p fun _ _ => 0) = ssr (block p a x) := by
    rw [hP]
    exact funext (crit_one _)
  rw [← hP] at hi
  rw [← hc] at hmn
  obtain ⟨f, hf⟩ : ∃ f, p.maxit = f + 2 := ⟨p.maxit - 2, by omega⟩
  obtain ⟨s1, a1, a2, a3, a4, a5, a6⟩ := loop_linear (s := start p c) hl (by omega) (by omega) hn heps hsh
    (normal_regular hl ha hw hi) (getC_regular p c) (fun _ _ _ _ _ _ => rfl) rfl (m := m)
    (fun k hk => by rw [hm k hk]; exact (getC_fixed hk).symm) (normal_of_least hl ha hw hmn) hmr (by show 0 + 2 ≤ _; omega) f
  obtain ⟨r, r1, r2⟩ := rhsMat_linear hl m
  have hs : Singular p.neq (vcuOf p fun i t => p.lhs i t - r i t) := by
    have hv : ∀ i j, i < p.neq → j < p.neq → vcuOf p (fun i t => p.lhs i t - r i t) i j =
        cov (block p a x) (resid (block p a x) m) i j := fun i j hi hj => by
      rw [vcuOf, sum0, cov, mul_one_div]
      congr 1
      exact sum_congr rfl fun t ht => by
        rw [r2 i t hi (mem_range.1 ht), r2 j t hj (mem_range.1 ht)]
        rfl
    obtain ⟨v, hv1, hv2⟩ := cov_singular hd
    exact ⟨v, hv1, fun i hi => (sum_congr rfl fun j hj => by rw [hv i j hi (mem_range.1 hj)]).trans (hv2 i hi)⟩
  have hnone := (C54.C54_inverse_none (vcuOf p fun i t => p.lhs i t - r i t)).2 ⟨p.neq, le_rfl, hs⟩
  rw [estimate, h0, if_neg (by omega), if_neg (by omega), gls, stage, hf, a1]
  simp only [after, residuals, a2, r1, Option.map_some, hnone]

/-- **C55** With one instrument, the matrix from which the standard errors are computed is the one of least squares: the instrument has
    no effect on it.  Holds whatever the equations are. -/
theorem C55_one_instrument (hmet : p.met = 2) (hin : p.ninst = 1) {c : Nat → K} {s : St K} (h : estimate p c = .ok s) :
    IsInverse p.neq s.vcu s.ivcu ∧ IsInverse (nce p)
      (fun j k => ∑ i ∈ range p.neq, ∑ i' ∈ range p.neq, s.ivcu i i' * ∑ t ∈ range p.T, s.g j i t * s.g k i' t) s.vcc := by
  have h0 : nInstr p = 1 := by rw [nInstr, if_neg (by omega), hin]
  rw [estimate, h0, if_pos (by omega)] at h
  cases hd : instrMat p with
  | none => rw [hd] at h; simp at h
  | some d =>
    rw [hd] at h
    simp only at h
    split at h
    · simp at h
    · rw [gls] at h
      cases h1 : stage p d (start p c) with
      | err c => rw [h1] at h; simp at h
      | ub => rw [h1] at h; simp at h
      | ok s1 =>
        rw [h1] at h
        simp only at h
        rw [if_neg (by omega), vccOf] at h
        cases h2 : inv1 p.neq s1.vcu with
        | none => rw [h2] at h; simp at h
        | some w =>
          rw [h2] at h
          simp only [ivcc] at h
          cases h3 : inv1 (nce p) (gmg p d w s1.g) with
          | none => rw [h3] at h; simp at h
          | some b =>
            rw [h3] at h
            simp only [last] at h
            split at h
            · simp only [Out.ok.injEq] at h
              subst h
              refine ⟨C54.C54_inverse h2, ?_⟩
              have hg : gmg p d w s1.g = fun j k => ∑ i ∈ range p.neq, ∑ i' ∈ range p.neq, w i i' *
                  ∑ t ∈ range p.T, s1.g j i t * s1.g k i' t := by
                funext j k
                rw [gmg_eq, h0, show decide (1 < 1) = false from rfl, bil_proj (adj_off p _)]
                rfl
              rw [← hg]
              exact C54.C54_inverse h3
            · simp at h

/-! ### Examples -/

/-- A block of linear equations given by its values: `y` for each equation, `x` for each equation and coefficient (nothing if the
    coefficient does not occur), `z` for each instrument. -/
def lin (nc T : Nat) (y : List (List Rat)) (x : List (List (List Rat))) (z : List (List Rat)) (met maxit : Nat) (relax : Nat → Rat) :
    Prob Rat where
  neq := y.length
  nc := nc
  T := T
  lhs i t := (y.getD i []).getD t 0
  rhs i c t := some (∑ k ∈ range nc, c k * ((x.getD i []).getD k []).getD t 0)
  inEq k i := decide ((x.getD i []).getD k [] ≠ [])
  relax := relax
  ninst := z.length
  inst t i := (z.getD i []).getD t 0
  met := met
  maxit := maxit
  eps := 1 / 10 ^ 7

/-- Its columns. -/
def cols (x : List (List (List Rat))) (i k t : Nat) : Rat := ((x.getD i []).getD k []).getD t 0

theorem lin_linear {nc T : Nat} {y : List (List Rat)} {x : List (List (List Rat))} {z : List (List Rat)} {met maxit : Nat}
    {relax : Nat → Rat} (h : ∀ k, k < nc → relax k = 0 ∨ relax k = 1) :
    IsLinear (lin nc T y x z met maxit relax) (fun _ _ => 0) (cols x) where
  rhs i c t _ _ := by simp only [lin, cols, zero_add]
  inEq k i _ hin t := by
    simp only [lin, decide_eq_false_iff_not, not_not] at hin
    rw [cols, hin]
    rfl
  relax := h

/-- `y = a + b x` on three observations. -/
def line : Prob Rat := lin 2 3 [[1, 2, 4]] [[[1, 1, 1], [0, 1, 2]]] [] 0 10 fun _ => 1

/-- The coefficients: `5/6` and `3/2`, the others being those given. -/
def lineC (c : Nat → Rat) (k : Nat) : Rat := if k = 0 then 5 / 6 else if k = 1 then 3 / 2 else c k

theorem line_linear : IsLinear line (fun _ _ => 0) (cols [[[1, 1, 1], [0, 1, 2]]]) := lin_linear fun _ _ => Or.inr rfl

theorem line_independent : Independent (Free line) (block line (fun _ _ => 0) (cols [[[1, 1, 1], [0, 1, 2]]])) fun v => v := by
  have h := independent_of (d := fun _ _ => 0) (w := one) line_linear (adj_off line _) (by decide +kernel)
  rwa [proj_none rfl] at h

theorem line_least (c : Nat → Rat) :
    Least (Free line) (ssr (block line (fun _ _ => 0) (cols [[[1, 1, 1], [0, 1, 2]]]))) (lineC c) := by
  refine (C55_orthogonal line_linear rfl _).2 fun k hk => ?_
  have hk' : k < 2 := hk.1
  rcases (by omega : k = 0 ∨ k = 1) with rfl | rfl <;>
  · simp only [resid, block, line, lin, sum_range_succ, sum_range_zero, cols, lineC, List.length_cons, List.length_nil,
      List.getD_cons_zero, List.getD_cons_succ]
    norm_num

theorem line_free {k : Nat} (c : Nat → Rat) (h : ¬ Free line k) : lineC c k = c k := by
  have : ¬ k < 2 := fun hk => h ⟨hk, by show (1 : Rat) ≠ 0; norm_num⟩
  rw [lineC, if_neg (by omega), if_neg (by omega)]

theorem line_regular (c : Nat → Rat) : Regular line (lineC c) := by
  rintro k ⟨hk, _⟩
  have hk' : k < 2 := hk
  rcases (by omega : k = 0 ∨ k = 1) with rfl | rfl
  · show tiny (5 / 6 : Rat) = false; decide +kernel
  · show tiny (3 / 2 : Rat) = false; decide +kernel

example (c : Nat → Rat) : ∃ s, estimate line c = .ok s ∧ s.c = lineC c ∧
    IsInverse (nce line) (fun i j => (∑ t ∈ range 3, cols [[[1, 1, 1], [0, 1, 2]]] 0 ((est line).getD i 0) t *
      cols [[[1, 1, 1], [0, 1, 2]]] 0 ((est line).getD j 0) t) /
        (ssr (block line (fun _ _ => 0) (cols [[[1, 1, 1], [0, 1, 2]]])) (lineC c) / (3 : Nat))) s.vcc :=
  C55_covariance_partial line_linear rfl rfl (by decide +kernel) (by decide) (by show (0 : Rat) < _; decide +kernel) (by decide)
    (by unfold Sharp; decide +kernel) line_independent (fun _ h => line_free c h) (line_least c) (line_regular c) (by
      simp only [ssr, resid, block, line, lin, sum_range_succ, sum_range_zero, cols, lineC, List.length_cons, List.length_nil,
        List.getD_cons_zero, List.getD_cons_succ]
      norm_num)

/-- What came out, in a form that can be compared: the outcome, and the `n` first coefficients. -/
def outcome (n : Nat) : Out Rat (St Rat) → Option Bool × List Rat
  | .ok s => (some true, (List.range n).map s.c)
  | .err c => (some false, (List.range n).map c)
  | .ub => (none, [])

example : outcome 2 (estimate line fun _ => 0) = (some true, [5 / 6, 3 / 2]) := by decide +kernel

/-- Two equations with one coefficient each, seemingly unrelated. -/
def pair (met : Nat) : Prob Rat := lin 2 3 [[1, 2, 3], [1, 3, 0]] [[[1, 1, 1]], [[], [0, 1, 0]]] [] met 10 fun _ => 1

theorem pair_linear (met : Nat) : IsLinear (pair met) (fun _ _ => 0) (cols [[[1, 1, 1]], [[], [0, 1, 0]]]) :=
  lin_linear fun _ _ => Or.inr rfl

theorem two_least {p : Prob Rat} {a : Nat → Nat → Rat} {x : Nat → Nat → Nat → Rat} (hl : IsLinear p a x) {d w : Nat → Nat → Rat}
    (ha : Adj p d (decide (1 < nInstr p))) (hw : Pos p.neq w) {c : Nat → Rat} (hn : nce p = 2)
    (h0 : normalB p a x d w c 0 = 0) (h1 : normalB p a x d w c 1 = 0) : Least (Free p) (crit (block p a x) w (P p d)) c := by
  refine least_of_normal hl ha hw fun j hj => ?_
  rw [hn] at hj
  rcases (by omega : j = 0 ∨ j = 1) with rfl | rfl
  · exact h0
  · exact h1

theorem two_regular {p : Prob Rat} {c : Nat → Rat} (hp : p.nc = 2) (h0 : tiny (c 0) = false) (h1 : tiny (c 1) = false) :
    Regular p c := by
  rintro k ⟨hk, _⟩
  rw [hp] at hk
  rcases (by omega : k = 0 ∨ k = 1) with rfl | rfl
  · exact h0
  · exact h1

theorem two_free {p : Prob Rat} (hp : p.nc = 2) (hr : p.relax = fun _ => 1) {k : Nat} {c : Nat → Rat} (u v : Rat) (h : ¬ Free p k) :
    (if k = 0 then u else if k = 1 then v else c k) = c k := by
  have : ¬ k < 2 := fun hk => h ⟨by omega, by rw [hr]; norm_num⟩
  rw [if_neg (by omega), if_neg (by omega)]

theorem two_inverse {v w : Nat → Nat → Rat} (h : ((List.range 2).all fun i => (List.range 2).all fun k =>
      decide (∑ j ∈ range 2, v i j * w j k = if i = k then 1 else 0) && decide (∑ j ∈ range 2, w i j * v j k = if i = k then 1 else 0))
        = true) : IsInverse 2 v w := by
  simp only [List.all_eq_true, List.mem_range, Bool.and_eq_true, decide_eq_true_eq] at h
  exact ⟨fun i k hi hk => (h i hi k hk).1, fun i k hi hk => (h i hi k hk).2⟩

example : ∃ s, estimate (pair 1) (fun _ => 1) = .ok s ∧
    s.c = fun k => if k = 0 then 12 / 5 else if k = 1 then 14 / 5 else 1 := by
  have hl := pair_linear 1
  have h0 : nInstr (pair 1) = 0 := rfl
  have hP := proj_none h0 (fun _ _ => (0 : Rat))
  have ha : Adj (pair 1) (fun _ _ => (0 : Rat)) (decide (1 < nInstr (pair 1))) := adj_off _ _
  have hi := independent_of (d := fun _ _ => 0) (w := one) hl ha (by decide +kernel)
  have hm := two_least (d := fun _ _ => 0) (w := one) (c := fun k => if k = 0 then 2 else if k = 1 then 3 else 1) hl ha (pos_one 2)
    (by decide +kernel) (by decide +kernel) (by decide +kernel)
  have hd := distinct_of (p := pair 1) (a := fun _ _ => 0) (x := cols [[[1, 1, 1]], [[], [0, 1, 0]]])
    (u := resid (block (pair 1) (fun _ _ => 0) (cols [[[1, 1, 1]], [[], [0, 1, 0]]])) fun k => if k = 0 then 2 else if k = 1 then 3 else 1)
    (by decide +kernel)
  have hw : IsInverse 2 (cov (block (pair 1) (fun _ _ => 0) (cols [[[1, 1, 1]], [[], [0, 1, 0]]]))
      (resid (block (pair 1) (fun _ _ => 0) (cols [[[1, 1, 1]], [[], [0, 1, 0]]])) fun k => if k = 0 then 2 else if k = 1 then 3 else 1))
      (fun i j => if i = 1 ∧ j = 1 then 6 else 3) := two_inverse (by decide +kernel)
  have hm' := two_least (d := fun _ _ => 0) (w := fun i j => if i = 1 ∧ j = 1 then 6 else 3)
    (c := fun k => if k = 0 then 12 / 5 else if k = 1 then 14 / 5 else 1) hl ha
    ⟨fun i j _ _ => by simp only [and_comm], fun y => by
        simp only [quad, pair, lin, List.length_cons, List.length_nil, sum_range_succ, sum_range_zero]
        norm_num
        nlinarith [sq_nonneg (y 0 + y 1), sq_nonneg (y 1)], fun y hy => by
        simp only [quad, pair, lin, List.length_cons, List.length_nil, sum_range_succ, sum_range_zero] at hy
        norm_num at hy
        have h1 : y 1 = 0 := by nlinarith [sq_nonneg (y 0 + y 1), sq_nonneg (y 1)]
        have h2 : y 0 = 0 := by rw [h1] at hy; nlinarith
        intro i hi
        have hi : i < 2 := hi
        rcases (by omega : i = 0 ∨ i = 1) with rfl | rfl
        · exact h2
        · exact h1⟩
    (by decide +kernel) (by decide +kernel) (by decide +kernel)
  have hd' := distinct_of (p := pair 1) (a := fun _ _ => 0) (x := cols [[[1, 1, 1]], [[], [0, 1, 0]]])
    (u := resid (block (pair 1) (fun _ _ => 0) (cols [[[1, 1, 1]], [[], [0, 1, 0]]]))
      fun k => if k = 0 then 12 / 5 else if k = 1 then 14 / 5 else 1)
    (by decide +kernel)
  rw [hP] at hi hm hm'
  rw [show crit (block (pair 1) _ _) one (fun v => v) = ssr _ from funext (crit_one _)] at hm
  obtain ⟨s, e1, e2, _⟩ := C55_zellner_partial (c := fun _ => 1) hl rfl (by decide +kernel) (by decide)
    (by show (0 : Rat) < _; decide +kernel) (by decide) (by unfold Sharp; decide +kernel) hi (fun _ h => two_free (c := fun _ => 1) rfl rfl _ _ h) hm
    (two_regular rfl (by decide +kernel) (by decide +kernel)) hd hw (by unfold Sharp; decide +kernel)
    (fun _ h => two_free (c := fun _ => 1) rfl rfl _ _ h) hm' (two_regular rfl (by decide +kernel) (by decide +kernel)) hd'
  exact ⟨s, e1, e2⟩

example : outcome 2 (estimate (pair 0) fun _ => 1) = (some true, [2, 3]) ∧
    outcome 2 (estimate (pair 1) fun _ => 1) = (some true, [12 / 5, 14 / 5]) := by decide +kernel

/-- Two equations with two instruments. -/
def duo (met : Nat) : Prob Rat :=
  lin 2 4 [[2, 1, 1, 3], [1, 2, 0, 2]] [[[1, 0, 1, 3]], [[], [0, 1, 1, 1]]] [[1, 0, 0, 0], [0, 1, 0, 0]] met 10 fun _ => 1

/-- The columns of the coefficients in it. -/
def duoX : Nat → Nat → Nat → Rat := cols [[[1, 0, 1, 3]], [[], [0, 1, 1, 1]]]

theorem duo_linear (met : Nat) : IsLinear (duo met) (fun _ _ => 0) duoX := lin_linear fun _ _ => Or.inr rfl

/-- The regression on its instruments. -/
def duoD (met : Nat) : Nat → Nat → Rat := (instrMat (duo met)).getD fun _ _ => 0

theorem duo_instr (met : Nat) : instrMat (duo met) = some (duoD met) := by
  have h : (instrMat (duo met)).isSome = true := by
    have : (instrMat (duo 0)).isSome = true := by decide +kernel
    exact this
  obtain ⟨d, hd⟩ := Option.isSome_iff_exists.1 h
  rw [duoD, hd]
  rfl

/-- What the first stage finds. -/
def duoM (k : Nat) : Rat := if k = 0 then 10 / 9 else if k = 1 then 4 / 3 else 1

/-- The weights of the second stage. -/
def duoW (i j : Nat) : Rat := if i = 0 ∧ j = 0 then 10692 / 3515 else if i = 1 ∧ j = 1 then 1116 / 703 else -864 / 703

/-- What the second stage finds. -/
def duoM' (k : Nat) : Rat := if k = 0 then 74110 / 67503 else if k = 1 then 26468 / 22501 else 1

theorem duo_adj (met : Nat) : Adj (duo met) (duoD met) true := adj_fit (fit_instr (duo_instr met))

theorem duo_posw : Pos 2 duoW := by
  refine ⟨fun i j hi hj => ?_, fun y => ?_, fun y hy => ?_⟩
  · rcases (by omega : i = 0 ∨ i = 1) with rfl | rfl <;> rcases (by omega : j = 0 ∨ j = 1) with rfl | rfl <;> decide +kernel
  · simp only [quad, sum_range_succ, sum_range_zero, duoW]
    norm_num
    nlinarith [sq_nonneg (y 0 - y 1), sq_nonneg (y 0), sq_nonneg (y 1)]
  · simp only [quad, sum_range_succ, sum_range_zero, duoW] at hy
    norm_num at hy
    have h1 : y 1 = 0 := by nlinarith [sq_nonneg (y 0 - y 1), sq_nonneg (y 0), sq_nonneg (y 1)]
    have h2 : y 0 = 0 := by nlinarith [sq_nonneg (y 0 - y 1), sq_nonneg (y 0), sq_nonneg (y 1)]
    intro i hi
    rcases (by omega : i = 0 ∨ i = 1) with rfl | rfl
    · exact h2
    · exact h1

example : ∃ s, estimate (duo 2) (fun _ => 1) = .ok s ∧ s.c = duoM :=
  (C55_iv_partial (c := fun _ => 1) (duo_linear 2) rfl (by decide) (duo_instr 2) (by decide +kernel) (by decide)
    (by show (0 : Rat) < _; decide +kernel) (by decide) (by unfold Sharp; decide +kernel)
    (independent_of (w := one) (duo_linear 2) (duo_adj 2) (by decide +kernel)) (fun _ h => two_free (c := fun _ => 1) rfl rfl _ _ h)
    (two_least (duo_linear 2) (duo_adj 2) (pos_one 2) (by decide +kernel) (by decide +kernel) (by decide +kernel))
    (two_regular rfl (by decide +kernel) (by decide +kernel)) (distinct_of (by decide +kernel))).2

example : ∃ s, estimate (duo 3) (fun _ => 1) = .ok s ∧ s.c = duoM' := by
  obtain ⟨s, e1, e2, _⟩ := (C55_stages_partial (c := fun _ => 1) (m := duoM) (m' := duoM') (w := duoW) (duo_linear 3) rfl (by decide)
    (duo_instr 3) (by decide +kernel) (by decide) (by show (0 : Rat) < _; decide +kernel) (by decide)
    (by unfold Sharp; decide +kernel) (independent_of (w := one) (duo_linear 3) (duo_adj 3) (by decide +kernel))
    (fun _ h => two_free (c := fun _ => 1) rfl rfl _ _ h)
    (two_least (duo_linear 3) (duo_adj 3) (pos_one 2) (by decide +kernel) (by decide +kernel) (by decide +kernel))
    (two_regular rfl (by decide +kernel) (by decide +kernel)) (distinct_of (by decide +kernel)) (two_inverse (by decide +kernel))
    (by unfold Sharp; decide +kernel) (fun _ h => two_free (c := fun _ => 1) rfl rfl _ _ h)
    (two_least (duo_linear 3) (duo_adj 3) duo_posw (by decide +kernel) (by decide +kernel) (by decide +kernel))
    (two_regular rfl (by decide +kernel) (by decide +kernel)) (distinct_of (by decide +kernel))).2
  exact ⟨s, e1, e2⟩

example : outcome 2 (estimate (duo 2) fun _ => 1) = (some true, [10 / 9, 4 / 3]) ∧
    outcome 2 (estimate (duo 3) fun _ => 1) = (some true, [74110 / 67503, 26468 / 22501]) := by decide +kernel

/-- The second column is twice the first one. -/
def twice : Prob Rat := lin 2 3 [[1, 2, 4]] [[[1, 1, 1], [2, 2, 2]]] [] 0 10 fun _ => 1

example : estimate twice (fun k => if k = 0 then 0 else 3) =
    .err fun k => if k < 2 ∧ (1 : Rat) ≠ 0 ∧ |if k = 0 then 0 else (3 : Rat)| < 1 / 10 ^ 15 then 1 / 10 else if k = 0 then 0 else 3 :=
  C55_singular_partial (a := fun _ _ => 0) (x := cols [[[1, 1, 1], [2, 2, 2]]]) (lin_linear fun _ _ => Or.inr rfl) rfl
    (by decide +kernel) (by decide) (by unfold Sharp; decide +kernel) (fun h => by
      have := h (fun k => if k = 0 then 2 else if k = 1 then -1 else 0) (fun k hk => two_free rfl rfl 2 (-1) (c := fun _ => 0) hk)
        (fun i hi t ht => by
          have hi : i < 1 := hi
          have ht : t < 3 := ht
          obtain rfl : i = 0 := by omega
          rcases (by omega : t = 0 ∨ t = 1 ∨ t = 2) with rfl | rfl | rfl <;> decide +kernel) 0 (by decide)
      revert this
      decide) _

example : outcome 2 (estimate twice fun k => if k = 0 then 0 else 3) = (some false, [1 / 10, 3]) := by decide +kernel

/-- **C55** An equation that is fitted exactly is not estimated: `y = a + b x` with `a = b = 1`. -/
theorem C55_perfect_counterexample : ∃ p : Prob Rat, p.met = 0 ∧ IsLinear p (fun _ _ => 0) (cols [[[1, 1, 1], [0, 1, 2]]]) ∧
    Independent (Free p) (block p (fun _ _ => 0) (cols [[[1, 1, 1], [0, 1, 2]]])) (fun v => v) ∧
    outcome 2 (estimate p fun _ => 2) = (some false, [1, 1]) := by
  refine ⟨lin 2 3 [[1, 2, 3]] [[[1, 1, 1], [0, 1, 2]]] [] 0 10 fun _ => 1, rfl, lin_linear fun _ _ => Or.inr rfl, ?_,
    by decide +kernel⟩
  have h := independent_of (d := fun _ _ => 0) (w := one) (lin_linear (nc := 2) (T := 3) (y := [[1, 2, 3]])
    (x := [[[1, 1, 1], [0, 1, 2]]]) (z := []) (met := 0) (maxit := 10) (relax := fun _ => 1) fun _ _ => Or.inr rfl) (adj_off _ _)
    (by decide +kernel)
  rwa [proj_none rfl] at h

/-- **C55** Coefficients that have converged are reported as a failure when this took the last iteration allowed: the same equation with
    3 and with 2 iterations. -/
theorem C55_last_iteration_counterexample :
    outcome 2 (estimate { line with maxit := 3 } fun _ => 1) = (some true, [5 / 6, 3 / 2]) ∧
    outcome 2 (estimate { line with maxit := 2 } fun _ => 1) = (some false, [5 / 6, 3 / 2]) ∧
    (match loop { line with maxit := 2 } (fun _ _ => 0) 2 (start line fun _ => 1) with | .ok s => s.conv | _ => false) = true := by
  decide +kernel

theorem iter_it {d : Nat → Nat → K} {s s' : St K} (h : iter p d s = .ok s') : s'.it = s.it + 1 := by
  rw [iter] at h
  split at h
  · cases h
  · split at h
    · cases h
    · cases h
    · rw [iterG] at h
      simp only at h
      split at h
      · cases h
      · split at h
        · cases h
        · injection h with h
          rw [← h]

/-- **C55** There are never more iterations than allowed; they end before that only when the coefficients have converged. -/
theorem C55_rounds {d : Nat → Nat → K} {f : Nat} {s s' : St K} (hs : s.it ≤ p.maxit) (hf : p.maxit ≤ s.it + f)
    (h : loop p d f s = .ok s') : s'.it ≤ p.maxit ∧ (s'.conv = true ∨ s'.it = p.maxit) := by
  induction f generalizing s with
  | zero =>
    rw [loop] at h
    injection h with h
    rw [← h]
    exact ⟨hs, .inr (by omega)⟩
  | succ f ih =>
    rw [loop] at h
    by_cases hc : (s.conv || decide (p.maxit ≤ s.it)) = true
    · rw [if_pos hc] at h
      injection h with h
      rw [← h]
      refine ⟨hs, ?_⟩
      simp only [Bool.or_eq_true, decide_eq_true_eq] at hc
      rcases hc with hc | hc
      · exact .inl hc
      · exact .inr (by omega)
    · rw [if_neg hc] at h
      simp only [Bool.or_eq_true, decide_eq_true_eq, not_or] at hc
      cases hi : iter p d s with
      | ok s1 =>
        rw [hi] at h
        have := iter_it hi
        exact ih (by omega) (by omega) h
      | err c => rw [hi] at h; cases h
      | ub => rw [hi] at h; cases h

/-- Two iterations are needed, and made, even if ten are allowed. -/
example : (match loop { line with maxit := 10 } (fun _ _ => 0) 10 (start line fun _ => 1) with | .ok s => (s.it, s.conv) | _ => (0, false)) =
    (2, true) := by decide +kernel

/-- **C55** A coefficient whose value is 0 is not found: for `y = a` with `y = (1, -1)`, `0.1` is returned. -/
theorem C55_zero_counterexample : outcome 1 (estimate (lin 1 2 [[1, -1]] [[[1, 1]]] [] 0 10 fun _ => 1) fun _ => 1) =
    (some true, [1 / 10]) := by decide +kernel

/-- **C55** A coefficient that starts below the threshold of convergence has converged after one iteration, however far it has moved: with
    a relaxation parameter of `1/2`, `y = a` with `y = (1, 2)` gives half of the mean. -/
theorem C55_small_start_counterexample :
    outcome 1 (estimate (lin 1 2 [[1, 2]] [[[1, 1]]] [] 0 10 fun _ => 1 / 2) fun _ => 1 / 10 ^ 9) =
      (some true, [3 / 4 + 1 / (2 * 10 ^ 9)]) := by decide +kernel

/-- **C55** A negative relaxation parameter makes the Jacobian larger than the matrix allocated for it. -/
theorem C55_negative_counterexample :
    outcome 2 (estimate { line with relax := fun k => if k = 0 then 1 else -1 } fun _ => 1) = (none, []) := by decide +kernel

/-- **C55** With one instrument the variance reported is too small: it is the variance of the residuals divided by 11, the sum of the
    squares of `x`, instead of `19/3`, the sum of the squares of its regression on the constant and the instrument. -/
theorem C55_one_instrument_counterexample :
    ((match estimate (lin 1 4 [[2, 1, 1, 3]] [[[1, 0, 1, 3]]] [[1, 0, 0, 0]] 2 60 fun _ => 1) fun _ => 26 / 19 with
      | .ok s => some (s.c 0, s.vcu 0 0, s.vcc 0 0) | _ => none) = some (26 / 19, 995 / 1444, 995 / 1444 / 11)) ∧
    (instrMat (lin 1 4 [[2, 1, 1, 3]] [[[1, 0, 1, 3]]] [[1, 0, 0, 0]] 2 60 fun _ => 1)).map (fun d =>
      ∑ t ∈ range 4, proj (lin 1 4 [[2, 1, 1, 3]] [[[1, 0, 1, 3]]] [[1, 0, 0, 0]] 2 60 fun _ => 1) d true
        (cols [[[1, 0, 1, 3]]] 0 0) t ^ 2) = some (19 / 3) := by
  constructor <;> decide +kernel

end Iode.Estim.C55
