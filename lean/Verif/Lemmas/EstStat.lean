import Verif.Model.EstStat
import Verif.Spec.EstStat
import Verif.Lemmas.Estim
import Mathlib.LinearAlgebra.Matrix.Determinant.Basic
import Mathlib.LinearAlgebra.Matrix.Block

/-!
# Lemmas on the statistics of an estimation
-/
namespace Iode.Estim

open Iode.Lin Iode.Spec.Estim Iode.Spec.Linear Iode.Spec.EstStat Finset

variable {K : Type} [Field K] [LinearOrder K] [IsStrictOrderedRing K] {p : Prob K}

/-! ### What a successful estimation leaves -/

theorem after_ok {d : Nat → Nat → K} {s s' : St K} (h : after p d s = .ok s') :
    s'.c = s.c ∧ residuals p s'.c = some s'.u ∧ s'.vcu = vcuOf p s'.u ∧ inv1 p.neq s'.vcu = some s'.ivcu ∧
      s'.conv = s.conv ∧ s'.it = s.it := by
  rw [after] at h
  cases h1 : residuals p s.c with
  | none => rw [h1] at h; simp at h
  | some u =>
    rw [h1] at h
    simp only at h
    cases h2 : inv1 p.neq (vcuOf p u) with
    | none => rw [h2] at h; simp at h
    | some w =>
      rw [h2] at h
      simp only [Out.ok.injEq] at h
      subst h
      exact ⟨rfl, h1, rfl, h2, rfl, rfl⟩

/-- What holds after a stage. -/
def Done (p : Prob K) (s : St K) : Prop :=
  residuals p s.c = some s.u ∧ s.vcu = vcuOf p s.u ∧ inv1 p.neq s.vcu = some s.ivcu

theorem stage_done {d : Nat → Nat → K} {s s' : St K} (h : stage p d s = .ok s') : Done p s' := by
  rw [stage] at h
  cases h1 : loop p d p.maxit s with
  | err c => rw [h1] at h; simp at h
  | ub => rw [h1] at h; simp at h
  | ok s1 =>
    rw [h1] at h
    obtain ⟨_, h2, h3, h4, _⟩ := after_ok h
    exact ⟨h2, h3, h4⟩

theorem ivcc_done {s s' : St K} (hs : Done p s) (h : ivcc p s = .ok s') :
    Done p s' ∧ inv1 (nce p) s.vcc = some s'.vcc ∧ s'.g = s.g := by
  rw [ivcc] at h
  cases h1 : inv1 (nce p) s.vcc with
  | none => rw [h1] at h; simp at h
  | some b =>
    rw [h1] at h
    simp only [Out.ok.injEq] at h
    subst h
    exact ⟨hs, rfl, rfl⟩

theorem last_ok {s s' : St K} (h : last p s = .ok s') : s' = s ∧ s'.conv = true ∧ s'.it < p.maxit := by
  rw [last] at h
  split at h
  · next hc =>
    simp only [Out.ok.injEq] at h
    subst h
    simp only [Bool.and_eq_true, decide_eq_true_eq] at hc
    exact ⟨rfl, hc.2, hc.1⟩
  · simp at h

theorem gls_done {d : Nat → Nat → K} {s s' : St K} (h : gls p d s = .ok s') :
    Done p s' ∧ s'.conv = true ∧ s'.it < p.maxit := by
  rw [gls] at h
  cases h1 : stage p d s with
  | err c => rw [h1] at h; simp at h
  | ub => rw [h1] at h; simp at h
  | ok s1 =>
    rw [h1] at h
    simp only at h
    have hd1 := stage_done h1
    split at h
    · cases h2 : stage p d { s1 with conv := false } with
      | err c => rw [h2] at h; simp at h
      | ub => rw [h2] at h; simp at h
      | ok s2 =>
        rw [h2] at h
        simp only at h
        cases h3 : ivcc p s2 with
        | err c => rw [h3] at h; simp at h
        | ub => rw [h3] at h; simp at h
        | ok s3 =>
          rw [h3] at h
          obtain ⟨rfl, h4⟩ := last_ok h
          exact ⟨(ivcc_done (stage_done h2) h3).1, h4⟩
    · cases h3 : vccOf p d s1 with
      | err c => rw [h3] at h; simp at h
      | ub => rw [h3] at h; simp at h
      | ok s3 =>
        rw [h3] at h
        obtain ⟨rfl, h4⟩ := last_ok h
        rw [vccOf, hd1.2.2] at h3
        exact ⟨(ivcc_done (p := p) (s := { s1 with ivcu := s1.ivcu, vcc := gmg p d s1.ivcu s1.g }) hd1 h3).1, h4⟩

theorem estimate_done {c : Nat → K} {s : St K} (h : estimate p c = .ok s) : Done p s ∧ s.conv = true ∧ s.it < p.maxit := by
  rw [estimate] at h
  split at h
  · cases hd : instrMat p with
    | none => rw [hd] at h; simp at h
    | some d =>
      rw [hd] at h
      simp only at h
      split at h
      · simp at h
      · exact gls_done h
  · split at h
    · simp at h
    · exact gls_done h

/-- The residuals of a successful estimation. -/
theorem done_resid {s : St K} (h : Done p s) : ∀ i t, i < p.neq → t < p.T → ∃ v, p.rhs i s.c t = some v ∧ s.u i t = p.lhs i t - v := by
  intro i t hi ht
  have h1 := h.1
  rw [residuals, Option.map_eq_some_iff] at h1
  obtain ⟨r, h1, h2⟩ := h1
  rw [rhsMat] at h1
  split at h1
  · next hall =>
    simp only [Option.some.injEq] at h1
    have := hall
    rw [List.all_eq_true] at this
    have := this i (List.mem_range.2 hi)
    rw [List.all_eq_true] at this
    obtain ⟨v, hv⟩ := Option.isSome_iff_exists.1 (this t (List.mem_range.2 ht))
    refine ⟨v, hv, ?_⟩
    rw [← h2, ← h1]
    simp only [hv, Option.getD_some]
  · simp at h1

theorem vcu_ii (hT : (p.T : K) ≠ 0) {s : St K} (h : s.vcu = vcuOf p s.u) (i : Nat) : s.vcu i i * p.T = squares p.T (s.u i) := by
  rw [h, vcuOf, sum0, mul_assoc, one_div, inv_mul_cancel₀ hT, mul_one, squares]
  exact sum_congr rfl fun t _ => (sq _).symm

theorem T_ne (hT : 0 < p.T) : (p.T : K) ≠ 0 := by
  have : (0 : K) < p.T := by exact_mod_cast hT
  exact this.ne'

/-! ### The determinant -/

/-- The first `n` rows and columns. -/
def mat (n : Nat) (a : Nat → Nat → K) : Matrix (Fin n) (Fin n) K := Matrix.of fun i j => a i j

omit [LinearOrder K] [IsStrictOrderedRing K] in
theorem detRows_det {n m : Nat} (hm : m < n) {q : K} (hq : q ≠ 0) : ∀ (c i : Nat) (a : Nat → Nat → K), i + c = m → a m m = q →
    (∀ j, m < j → j < n → ∀ i, i < j → a i j = 0) → (∀ i', i' < i → a i' m = 0) →
    (mat n (detRows m q c i a)).det = (mat n a).det ∧ (∀ i', m ≤ i' → ∀ j, detRows m q c i a i' j = a i' j) ∧
      (∀ j, m ≤ j → j < n → ∀ k, k < j → detRows m q c i a k j = 0)
  | 0, i, a, hi, _, hz, hc => by
    refine ⟨rfl, fun _ _ _ => rfl, fun j hj hjn i' hij => ?_⟩
    rcases Nat.lt_or_ge m j with h | h
    · exact hz j h hjn i' hij
    · obtain rfl : j = m := by omega
      exact hc i' (by omega)
  | c + 1, i, a, hi, hqm, hz, hc => by
    rw [detRows]
    have him : i < m := by omega
    obtain ⟨h1, h2, h3⟩ := detRows_det hm hq c (i + 1)
      (fun i' j' => if i' = i ∧ j' ≤ m then a i j' - a i m / q * a m j' else a i' j') (by omega)
      (by rw [if_neg (by omega)]; exact hqm)
      (fun j hj hjn i' hij => by rw [if_neg (by omega)]; exact hz j hj hjn i' hij)
      (fun i' hi' => by
        by_cases h : i' = i
        · subst h
          rw [if_pos ⟨rfl, le_rfl⟩, hqm, div_mul_cancel₀ _ hq, sub_self]
        · rw [if_neg (by omega)]
          exact hc i' (by omega))
    refine ⟨h1.trans ?_, fun i' hi' j => ?_, h3⟩
    · have he : mat n (fun i' j' => if i' = i ∧ j' ≤ m then a i j' - a i m / q * a m j' else a i' j') =
          Matrix.updateRow (mat n a) ⟨i, by omega⟩ ((mat n a) ⟨i, by omega⟩ + (-(a i m / q)) • (mat n a) ⟨m, hm⟩) := by
        ext r j
        by_cases hr : r = ⟨i, by omega⟩
        · subst hr
          rw [Matrix.updateRow_self]
          simp only [mat, Matrix.of_apply, Pi.add_apply, Pi.smul_apply, smul_eq_mul]
          by_cases hj : (j : Nat) ≤ m
          · rw [if_pos ⟨trivial, hj⟩]
            ring
          · rw [if_neg (by omega), hz j (by omega) j.isLt m (by omega), mul_zero, add_zero]
        · rw [Matrix.updateRow_ne hr]
          simp only [mat, Matrix.of_apply]
          rw [if_neg]
          rintro ⟨h, _⟩
          exact hr (Fin.ext h)
      rw [he, Matrix.det_updateRow_add_smul_self]
      intro h
      have := congrArg Fin.val h
      simp only at this
      omega
    · rw [h2 i' hi' j, if_neg (by omega)]

omit [IsStrictOrderedRing K] in
theorem detLoop_det {n : Nat} : ∀ (m : Nat) (a : Nat → Nat → K), m < n → (∀ j, m < j → j < n → ∀ i, i < j → a i j = 0) →
    ∀ b, detLoop m a = some b → (mat n b).det = (mat n a).det ∧ ∀ j, j < n → ∀ i, i < j → b i j = 0
  | 0, a, _, hz, b, h => by
    simp only [detLoop, Option.some.injEq] at h
    subst h
    exact ⟨rfl, fun j hj i hij => hz j (by omega) hj i hij⟩
  | m + 1, a, hm, hz, b, h => by
    rw [detLoop] at h
    split at h
    · simp at h
    · next hq =>
      obtain ⟨h1, _, h3⟩ := detRows_det hm hq (m + 1) 0 a (by omega) rfl hz (fun i' hi' => absurd hi' (by omega))
      obtain ⟨h4, h5⟩ := detLoop_det m _ (by omega) (fun j hj hjn i hij => h3 j hj hjn i hij) b h
      exact ⟨h4.trans h1, h5⟩

omit [LinearOrder K] [IsStrictOrderedRing K] in
theorem diagProd_eq (a : Nat → Nat → K) : ∀ (c i : Nat) (d : K), diagProd a c i d = d * ∏ k ∈ range c, a (i + k) (i + k)
  | 0, i, d => by simp [diagProd]
  | c + 1, i, d => by
    rw [diagProd, diagProd_eq a c (i + 1), prod_range_succ', mul_assoc]
    congr 1
    rw [mul_comm, Nat.add_zero]
    congr 1
    exact prod_congr rfl fun k _ => by rw [show i + 1 + k = i + (k + 1) by omega]

omit [IsStrictOrderedRing K] in
theorem det1_eq {n : Nat} (hn : 0 < n) (a : Nat → Nat → K) (h : (detLoop (n - 1) a).isSome = true) : det1 n a = (mat n a).det := by
  obtain ⟨b, hb⟩ := Option.isSome_iff_exists.1 h
  obtain ⟨h1, h2⟩ := detLoop_det (n := n) (n - 1) a (by omega) (fun j hj hjn => absurd hjn (by omega)) b hb
  rw [det1, hb]
  simp only
  rw [← h1, Matrix.det_of_isLowerTriangular, diagProd_eq]
  · obtain ⟨k, rfl⟩ : ∃ k, n = k + 1 := ⟨n - 1, by omega⟩
    rw [Nat.add_sub_cancel]
    have := Fin.prod_univ_eq_prod_range (fun i => b i i) (k + 1)
    simp only [mat, Matrix.of_apply]
    rw [this, prod_range_succ', mul_comm]
    congr 1
    exact prod_congr rfl fun i _ => by rw [Nat.add_comm]
  · intro i j hij
    exact h2 j j.isLt i hij

omit [LinearOrder K] [IsStrictOrderedRing K] in
theorem detRows_val {m : Nat} {q : K} : ∀ (c i : Nat) (a : Nat → Nat → K), i + c ≤ m → ∀ i' j',
    detRows m q c i a i' j' = if i ≤ i' ∧ i' < i + c ∧ j' ≤ m then a i' j' - a i' m / q * a m j' else a i' j'
  | 0, i, a, _, i', j' => by rw [detRows, if_neg (by omega)]
  | c + 1, i, a, hi, i', j' => by
    rw [detRows, detRows_val c (i + 1) _ (by omega)]
    by_cases h1 : i + 1 ≤ i' ∧ i' < i + 1 + c ∧ j' ≤ m
    · rw [if_pos h1, if_pos (c := i ≤ i' ∧ i' < i + (c + 1) ∧ j' ≤ m) (by omega)]
      rw [if_neg (c := i' = i ∧ j' ≤ m) (by omega), if_neg (c := i' = i ∧ m ≤ m) (by omega), if_neg (c := m = i ∧ j' ≤ m) (by omega)]
    · rw [if_neg h1]
      by_cases h2 : i' = i ∧ j' ≤ m
      · rw [if_pos h2, if_pos (by omega), h2.1]
      · rw [if_neg h2, if_neg (by omega)]

omit [LinearOrder K] [IsStrictOrderedRing K] in
theorem quad_succ (m : Nat) (a : Nat → Nat → K) (y : Nat → K) (hs : ∀ i j, i < m + 1 → j < m + 1 → a i j = a j i) :
    quad (m + 1) a y = quad m a y + 2 * (y m * ∑ j ∈ range m, a m j * y j) + a m m * (y m * y m) := by
  unfold quad
  rw [sum_range_succ, sum_congr rfl fun i _ => sum_range_succ (fun j => a i j * (y i * y j)) m, sum_add_distrib, sum_range_succ]
  have h1 : ∑ i ∈ range m, a i m * (y i * y m) = y m * ∑ j ∈ range m, a m j * y j := by
    rw [mul_sum]
    exact sum_congr rfl fun i hi => by rw [hs i m (by have := mem_range.1 hi; omega) (by omega)]; ring
  have h2 : ∑ j ∈ range m, a m j * (y m * y j) = y m * ∑ j ∈ range m, a m j * y j := by
    rw [mul_sum]
    exact sum_congr rfl fun i _ => by ring
  rw [h1, h2]
  ring

omit [LinearOrder K] [IsStrictOrderedRing K] in
theorem quad_congr {n : Nat} {a a' : Nat → Nat → K} {y y' : Nat → K} (ha : ∀ i j, i < n → j < n → a i j = a' i j)
    (hy : ∀ i, i < n → y i = y' i) : quad n a y = quad n a' y' :=
  sum_congr rfl fun i hi => sum_congr rfl fun j hj => by
    rw [ha i j (mem_range.1 hi) (mem_range.1 hj), hy i (mem_range.1 hi), hy j (mem_range.1 hj)]

/-- What is left of a positive definite matrix after a pivot is positive definite. -/
theorem pos_schur {m : Nat} {a : Nat → Nat → K} (h : Pos (m + 1) a) :
    a m m ≠ 0 ∧ Pos m fun i j => a i j - a i m / a m m * a m j := by
  have hq : a m m ≠ 0 := by
    intro h0
    have hz : quad (m + 1) a (fun j => if j = m then 1 else 0) = 0 := by
      rw [quad_succ m a _ h.symm]
      have h1 : quad m a (fun j => if j = m then 1 else 0) = 0 :=
        sum_eq_zero fun i hi => sum_eq_zero fun j _ => by
          have : i ≠ m := by have := mem_range.1 hi; omega
          simp only [if_neg this]
          ring
      have h2 : ∑ j ∈ range m, a m j * (if j = m then (1 : K) else 0) = 0 :=
        sum_eq_zero fun j hj => by rw [if_neg (by have := mem_range.1 hj; omega), mul_zero]
      rw [h1, h2, h0]
      ring
    have := h.zero _ hz m (by omega)
    rw [if_pos rfl] at this
    exact one_ne_zero this
  refine ⟨hq, ?_⟩
  have key : ∀ y : Nat → K, quad (m + 1) a (fun j => if j = m then -(∑ j ∈ range m, a m j * y j) / a m m else y j) =
      quad m (fun i j => a i j - a i m / a m m * a m j) y := by
    intro y
    rw [quad_succ m a _ h.symm, if_pos rfl]
    have h1 : quad m a (fun j => if j = m then -(∑ j ∈ range m, a m j * y j) / a m m else y j) = quad m a y :=
      quad_congr (fun _ _ _ _ => rfl) fun i hi => if_neg (by omega)
    have h2 : ∑ j ∈ range m, a m j * (if j = m then -(∑ j ∈ range m, a m j * y j) / a m m else y j) = ∑ j ∈ range m, a m j * y j :=
      sum_congr rfl fun j hj => by rw [if_neg (by have := mem_range.1 hj; omega)]
    rw [h1, h2]
    have h3 : quad m (fun i j => a i j - a i m / a m m * a m j) y =
        quad m a y - (∑ j ∈ range m, a m j * y j) * (∑ j ∈ range m, a m j * y j) / a m m := by
      unfold quad
      rw [sum_mul_sum, sum_div, ← sum_sub_distrib]
      refine sum_congr rfl fun i hi => ?_
      rw [sum_div, ← sum_sub_distrib]
      refine sum_congr rfl fun j _ => ?_
      rw [h.symm m i (by omega) (by have := mem_range.1 hi; omega)]
      field_simp
    rw [h3]
    field_simp
    ring
  refine ⟨fun i j hi hj => ?_, fun y => ?_, fun y hy i hi => ?_⟩
  · rw [h.symm i j (by omega) (by omega), h.symm i m (by omega) (by omega), h.symm m j (by omega) (by omega)]
    field_simp
  · rw [← key]
    exact h.nonneg _
  · rw [← key] at hy
    have := h.zero _ hy i (by omega)
    rwa [if_neg (by omega)] at this

theorem pos_congr {n : Nat} {a a' : Nat → Nat → K} (ha : ∀ i j, i < n → j < n → a i j = a' i j) (h : Pos n a) : Pos n a' := by
  refine ⟨fun i j hi hj => ?_, fun y => ?_, fun y hy => ?_⟩
  · rw [← ha i j hi hj, ← ha j i hj hi]
    exact h.symm i j hi hj
  · rw [← quad_congr ha fun _ _ => rfl]
    exact h.nonneg y
  · rw [← quad_congr ha fun _ _ => rfl] at hy
    exact h.zero y hy

theorem detLoop_pos : ∀ (m : Nat) (a : Nat → Nat → K), Pos (m + 1) a → (detLoop m a).isSome = true
  | 0, _, _ => rfl
  | m + 1, a, h => by
    obtain ⟨hq, hp⟩ := pos_schur h
    rw [detLoop, if_neg hq]
    refine detLoop_pos m _ (pos_congr (fun i j hi hj => ?_) hp)
    rw [detRows_val _ _ _ (by omega), if_pos (by omega)]

/-! ### Positive definite matrices -/

omit [LinearOrder K] [IsStrictOrderedRing K] in
/-- The quadratic form at a vector that differs in one element. -/
theorem quad_add {n : Nat} {a : Nat → Nat → K} (hs : ∀ i j, i < n → j < n → a i j = a j i) (y : Nat → K) (e : K) {k : Nat} (hk : k < n) :
    quad n a (fun i => y i + if i = k then e else 0) = quad n a y + 2 * (e * ∑ j ∈ range n, a k j * y j) + e * e * a k k := by
  have h1 : ∀ i ∈ range n, ∑ j ∈ range n, a i j * ((y i + if i = k then e else 0) * (y j + if j = k then e else 0)) =
      (∑ j ∈ range n, a i j * (y i * y j)) + e * (a k i * y i) + (if i = k then e * ∑ j ∈ range n, a i j * y j + e * e * a i k else 0) := by
    intro i hi
    have h2 : ∀ j ∈ range n, a i j * ((y i + if i = k then e else 0) * (y j + if j = k then e else 0)) =
        a i j * (y i * y j) + (if j = k then a i j * y i * e else 0) +
          (if i = k then e * (a i j * y j) + (if j = k then a i j * (e * e) else 0) else 0) := by
      intro j _
      split <;> split <;> ring
    rw [sum_congr rfl h2, sum_add_distrib, sum_add_distrib, sum_ite_eq' (range n) k fun j => a i j * y i * e, if_pos (mem_range.2 hk),
      hs i k (mem_range.1 hi) hk]
    congr 1
    · ring
    · split
      · rw [sum_add_distrib, sum_ite_eq' (range n) k fun j => a i j * (e * e), if_pos (mem_range.2 hk), ← mul_sum,
          ← hs i k (mem_range.1 hi) hk]
        ring
      · exact sum_const_zero
  unfold quad
  rw [sum_congr rfl h1, sum_add_distrib, sum_add_distrib, sum_ite_eq' (range n) k fun i => e * ∑ j ∈ range n, a i j * y j + e * e * a i k,
    if_pos (mem_range.2 hk), ← mul_sum]
  ring

theorem lin_zero {l q : K} (h : ∀ e : K, 0 ≤ 2 * (e * l) + e * e * q) : l = 0 := by
  have hq : 0 ≤ q := by
    have h1 := h 1
    have h2 := h (-1)
    linarith
  by_contra hl
  have hq1 : (0 : K) < q + 1 := by linarith
  have h1 := h (-(l / (q + 1)))
  have h2 : 2 * (-(l / (q + 1)) * l) + -(l / (q + 1)) * -(l / (q + 1)) * q = -(l * l) * (q + 2) / ((q + 1) * (q + 1)) := by
    field_simp
    ring
  rw [h2] at h1
  have h3 : 0 < l * l := mul_self_pos.2 hl
  have h4 : -(l * l) * (q + 2) / ((q + 1) * (q + 1)) < 0 := div_neg_of_neg_of_pos (by nlinarith) (by positivity)
  exact absurd h1 (not_le.2 h4)

/-- A symmetric matrix without negative values that `M_inv_1` can invert is positive definite. -/
theorem pos_of_inv {n : Nat} {a b : Nat → Nat → K} (hs : ∀ i j, i < n → j < n → a i j = a j i) (hn : ∀ y, 0 ≤ quad n a y)
    (h : inv1 n a = some b) : Pos n a ∧ Pos n b := by
  have hp : Pos n a := by
    refine ⟨hs, hn, fun y hy i hi => ?_⟩
    have h1 : ∀ k, k < n → ∑ j ∈ range n, a k j * y j = 0 := fun k hk => by
      refine lin_zero (q := a k k) fun e => ?_
      have := hn fun i => y i + if i = k then e else 0
      rw [quad_add hs y e hk, hy] at this
      linarith
    have h2 := (C54.C54_inverse_solves h y fun _ => 0).1 (fun k hk => h1 k hk) i hi
    rw [h2]
    exact sum_eq_zero fun j _ => mul_zero _
  refine ⟨hp, ?_⟩
  obtain ⟨w, h1, _, h3⟩ := pos_inverse hp
  rw [h, Option.some.injEq] at h1
  rw [h1]
  exact h3

theorem pos_diag {n : Nat} {a : Nat → Nat → K} (h : Pos n a) {k : Nat} (hk : k < n) : 0 < a k k := by
  have h1 := quad_add h.symm (fun _ => 0) 1 hk
  simp only [mul_zero, sum_const_zero, add_zero, one_mul, zero_add] at h1
  have h0 : quad n a (fun _ => 0) = 0 := sum_eq_zero fun i _ => sum_eq_zero fun j _ => by rw [mul_zero, mul_zero]
  rw [h0, zero_add] at h1
  refine lt_of_le_of_ne (by rw [← h1]; exact h.nonneg _) fun he => ?_
  rw [← he] at h1
  have := h.zero _ h1 k hk
  simp at this

theorem pos_two {n : Nat} {a : Nat → Nat → K} (h : Pos n a) {i j : Nat} (hi : i < n) (hj : j < n) (hij : i ≠ j) :
    a i j ^ 2 < a i i * a j j := by
  have h0 : quad n a (fun _ => 0) = 0 := sum_eq_zero fun i _ => sum_eq_zero fun j _ => by rw [mul_zero, mul_zero]
  have h1 := quad_add h.symm (fun _ => 0) (a j j) hi
  simp only [mul_zero, sum_const_zero, add_zero, h0, zero_add] at h1
  have h2 := quad_add h.symm (fun k => if k = i then a j j else 0) (-a i j) hj
  simp only [mul_ite, mul_zero] at h2
  rw [h1, sum_ite_eq' (range n) i fun k => a j k * a j j, if_pos (mem_range.2 hi), h.symm j i hj hi] at h2
  have h3 := h.nonneg fun k => (if k = i then a j j else 0) + if k = j then -a i j else 0
  have h5 := pos_diag h hj
  have h4 : 0 ≠ quad n a fun k => (if k = i then a j j else 0) + if k = j then -a i j else 0 := by
    intro he
    have := h.zero _ he.symm i hi
    simp only [if_true, if_neg hij, add_zero] at this
    exact h5.ne' this
  have h6 := lt_of_le_of_ne h3 h4
  rw [h2] at h6
  have h7 : 0 < a j j * (a i i * a j j - a i j ^ 2) := by linarith [h6]
  have := (mul_pos_iff_of_pos_left h5).1 h7
  linarith

/-- The covariances of the residuals of a successful estimation are positive definite, and so is their inverse. -/
theorem vcu_pos {u w : Nat → Nat → K} (h : inv1 p.neq (vcuOf p u) = some w) : Pos p.neq (vcuOf p u) ∧ Pos p.neq w := by
  refine pos_of_inv (fun i j _ _ => ?_) (fun y => ?_) h
  · rw [vcuOf, vcuOf, sum0, sum0]
    congr 1
    exact sum_congr rfl fun t _ => mul_comm _ _
  · rw [vcu_quad]
    exact mul_nonneg (by positivity) (sum_nonneg fun t _ => sq_nonneg _)

theorem gmg_pos {d w b : Nat → Nat → K} {g : Nat → Nat → Nat → K} (ha : Adj p d (decide (1 < nInstr p))) (hw : Pos p.neq w)
    (h : inv1 (nce p) (gmg p d w g) = some b) : Pos (nce p) b := by
  refine (pos_of_inv (fun i j _ _ => ?_) (fun y => ?_) h).2
  · rw [gmg_eq, gmg_eq]
    exact bil_comm ha hw _ _
  · rw [quad_eq]
    have := bil_comb ha hw (nce p) y g
    rw [show ∑ i ∈ range (nce p), y i * ∑ j ∈ range (nce p), gmg p d w g i j * y j = _ from this.symm]
    exact bil_nonneg ha hw _

omit [IsStrictOrderedRing K] in
theorem loop_ivcu {d : Nat → Nat → K} (hmet : p.met ≠ 4) : ∀ (f : Nat) (s s' : St K), loop p d f s = .ok s' → s'.ivcu = s.ivcu
  | 0, s, s', h => by
    simp only [loop, Out.ok.injEq] at h
    rw [h]
  | f + 1, s, s', h => by
    rw [loop] at h
    split at h
    · simp only [Out.ok.injEq] at h
      rw [h]
    · cases h1 : iter p d s with
      | err c => rw [h1] at h; simp at h
      | ub => rw [h1] at h; simp at h
      | ok s1 =>
        rw [h1] at h
        rw [loop_ivcu hmet f s1 s' h]
        rw [iter] at h1
        cases h2 : rhsMat p s.c with
        | none => rw [h2] at h1; simp at h1
        | some r =>
          rw [h2] at h1
          simp only at h1
          cases h3 : jac p r (est p) 0 s.c s.g with
          | err c => rw [h3] at h1; simp at h1
          | ub => rw [h3] at h1; simp at h1
          | ok cg =>
            rw [h3] at h1
            simp only [iterG, if_neg hmet] at h1
            cases h4 : mSolve (nce p) ⟨gmg p d s.ivcu cg.2, gmu p d s.ivcu cg.2 fun i t => p.lhs i t - r i t⟩ s.dc with
            | none => rw [h4] at h1; simp at h1
            | some dc =>
              rw [h4] at h1
              simp only [Out.ok.injEq] at h1
              rw [← h1]

omit [IsStrictOrderedRing K] in
theorem stage_vcc {d : Nat → Nat → K} (hmet : p.met ≠ 4) {s s' : St K} (h : stage p d s = .ok s') :
    ∃ g, s'.vcc = gmg p d s.ivcu g := by
  rw [stage] at h
  cases h1 : loop p d p.maxit s with
  | err c => rw [h1] at h; simp at h
  | ub => rw [h1] at h; simp at h
  | ok s1 =>
    rw [h1] at h
    simp only [after] at h
    cases h2 : residuals p s1.c with
    | none => rw [h2] at h; simp at h
    | some u =>
      rw [h2] at h
      simp only at h
      cases h3 : inv1 p.neq (vcuOf p u) with
      | none => rw [h3] at h; simp at h
      | some w =>
        rw [h3] at h
        simp only [Out.ok.injEq] at h
        rw [← h]
        exact ⟨s1.g, by rw [loop_ivcu hmet _ _ _ h1]⟩

theorem gls_vcc {d : Nat → Nat → K} (ha : Adj p d (decide (1 < nInstr p))) {s s' : St K} (h : gls p d s = .ok s') :
    Pos (nce p) s'.vcc := by
  rw [gls] at h
  cases h1 : stage p d s with
  | err c => rw [h1] at h; simp at h
  | ub => rw [h1] at h; simp at h
  | ok s1 =>
    rw [h1] at h
    simp only at h
    have hd1 := stage_done h1
    have hw := hd1.2.2
    rw [hd1.2.1] at hw
    have hp := (vcu_pos hw).2
    split at h
    · next hmet =>
      cases h2 : stage p d { s1 with conv := false } with
      | err c => rw [h2] at h; simp at h
      | ub => rw [h2] at h; simp at h
      | ok s2 =>
        rw [h2] at h
        simp only at h
        cases h3 : ivcc p s2 with
        | err c => rw [h3] at h; simp at h
        | ub => rw [h3] at h; simp at h
        | ok s3 =>
          rw [h3] at h
          obtain ⟨rfl, h4⟩ := last_ok h
          obtain ⟨_, h5, _⟩ := ivcc_done (stage_done h2) h3
          obtain ⟨g, h6⟩ := stage_vcc (by omega) h2
          rw [h6] at h5
          exact gmg_pos ha hp h5
    · cases h3 : vccOf p d s1 with
      | err c => rw [h3] at h; simp at h
      | ub => rw [h3] at h; simp at h
      | ok s3 =>
        rw [h3] at h
        obtain ⟨rfl, h4⟩ := last_ok h
        rw [vccOf, hd1.2.2] at h3
        obtain ⟨_, h5, _⟩ := ivcc_done (p := p) (s := { s1 with ivcu := s1.ivcu, vcc := gmg p d s1.ivcu s1.g }) hd1 h3
        exact gmg_pos ha hp h5

theorem estimate_vcc {c : Nat → K} {s : St K} (h : estimate p c = .ok s) : Pos (nce p) s.vcc := by
  rw [estimate] at h
  split at h
  · cases hd : instrMat p with
    | none => rw [hd] at h; simp at h
    | some d =>
      rw [hd] at h
      simp only at h
      split at h
      · simp at h
      · refine gls_vcc ?_ h
        cases decide (1 < nInstr p) with
        | false => exact adj_off p d
        | true => exact adj_fit (fit_instr hd)
  · next h0 =>
    split at h
    · simp at h
    · refine gls_vcc ?_ h
      rw [show decide (1 < nInstr p) = false by simp; omega]
      exact adj_off p _

end Iode.Estim
