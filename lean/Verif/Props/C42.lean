import Verif.Lemmas.Ras
import Verif.Lemmas.SMap
import Verif.Lemmas.LecLink
import Mathlib.Algebra.BigOperators.Ring.Finset
import Mathlib.Data.Rat.Defs
import Mathlib.Algebra.Order.Ring.Rat

/-!
# C42: RAS balancing
-/
namespace Iode.Ras

open Finset

variable {K : Type} [Field K] [LinearOrder K] [IsStrictOrderedRing K]

set_option linter.unusedSectionVars false

variable {nr nc : Nat} {row col : Nat → K} {eps : K} {n : Nat} {a a' : Mat K}

/-! ## The matrix -/

/-- After success every row whose target is not 0 adds up to its target. -/
theorem C42_rows (h : balance nr nc row col n eps a = some a') (he : eps < 1) {i : Nat} (hi : i < nr) (h0 : row i ≠ 0) :
    ∑ c ∈ range nc, a' i c = row i := by
  obtain ⟨b, _, rfl, hd, _⟩ := balance_last (P := fun _ => True) (fun _ _ => trivial) trivial h
  obtain ⟨g, f, e1, _, e3, _, _, e6, _⟩ := step_spec nr nc row col b
  simp only [e1]
  rw [← sum_mul]
  have hf : f i = factor (row i) (∑ c ∈ range nc, b i c * g c) := by rw [e3 i, if_pos ⟨hi, h0⟩]
  have hne : ∑ c ∈ range nc, b i c * g c ≠ 0 := by
    refine ne_zero_of_factor (t := row i) (e := eps) ?_ he
    rw [← hf]
    exact le_trans (e6 i) hd
  rw [hf, mul_comm]
  exact factor_mul hne

/-- Without any condition on signs, a column whose target is not 0 differs from it by at most `eps / (1 - eps)` times the sum of
the absolute values of the column. -/
theorem C42_columns (h : balance nr nc row col n eps a = some a') (he : eps < 1) {c : Nat} (hc : c < nc) (h0 : col c ≠ 0) :
    |∑ i ∈ range nr, a' i c - col c| ≤ eps / (1 - eps) * ∑ i ∈ range nr, |a' i c| := by
  obtain ⟨b, _, rfl, hd, _⟩ := balance_last (P := fun _ => True) (fun _ _ => trivial) trivial h
  obtain ⟨g, f, e1, e2, _, e4, e5, e6, _⟩ := step_spec nr nc row col b
  have he0 : 0 ≤ eps := le_trans e4 hd
  have hg : g c = factor (col c) (∑ i ∈ range nr, b i c) := by rw [e2 c, if_pos ⟨hc, h0⟩]
  have hne : ∑ i ∈ range nr, b i c ≠ 0 := by
    refine ne_zero_of_factor (t := col c) (e := eps) ?_ he
    rw [← hg]
    exact le_trans (e5 c) hd
  have hcol : ∑ i ∈ range nr, b i c * g c = col c := by
    rw [← sum_mul, hg, mul_comm]
    exact factor_mul hne
  rw [← hcol, ← sum_sub_distrib, mul_sum]
  refine le_trans (abs_sum_le_sum_abs _ _) (sum_le_sum fun i _ => ?_)
  rw [e1 i c]
  generalize b i c * g c = x
  have hf := abs_le.1 (le_trans (e6 i) hd)
  have hf1 : 1 - eps ≤ f i := by linarith [hf.1]
  have hpos : 0 < 1 - eps := by linarith
  rw [show x * f i - x = x * (f i - 1) by ring, abs_mul, abs_mul, div_mul_eq_mul_div, le_div_iff₀ hpos]
  have hfa : |f i| = f i := abs_of_pos (lt_of_lt_of_le hpos hf1)
  rw [hfa]
  have hx := abs_nonneg x
  have hfe : |f i - 1| ≤ eps := abs_le.2 hf
  calc |x| * |f i - 1| * (1 - eps) ≤ |x| * eps * (1 - eps) := by
        exact mul_le_mul_of_nonneg_right (mul_le_mul_of_nonneg_left hfe hx) (le_of_lt hpos)
    _ ≤ |x| * eps * f i := mul_le_mul_of_nonneg_left hf1 (mul_nonneg hx he0)
    _ = eps * (|x| * f i) := by ring

theorem step_nonneg (hr : ∀ i, i < nr → 0 ≤ row i) (hc : ∀ c, c < nc → 0 ≤ col c) {b : Mat K}
    (hb : ∀ i c, i < nr → c < nc → 0 ≤ b i c) :
    (∀ i c, i < nr → c < nc → 0 ≤ (step nr nc row col b).1 i c) := by
  obtain ⟨g, f, e1, e2, e3, _, _, _, _⟩ := step_spec nr nc row col b
  have hg : ∀ c, c < nc → 0 ≤ g c := by
    intro c h
    rw [e2 c]
    split
    · exact factor_nonneg (hc c h) (sum_nonneg fun i hi => hb i c (mem_range.1 hi) h)
    · exact zero_le_one
  intro i c h1 h2
  rw [e1]
  refine mul_nonneg (mul_nonneg (hb i c h1 h2) (hg c h2)) ?_
  rw [e3 i]
  split
  · exact factor_nonneg (hr i h1) (sum_nonneg fun k hk => mul_nonneg (hb i k h1 (mem_range.1 hk)) (hg k (mem_range.1 hk)))
  · exact zero_le_one

/-- A non-negative matrix stays so, and every column whose target is not 0 is within `eps` of it, relatively. -/
theorem C42_columns_nonneg (h : balance nr nc row col n eps a = some a') (he : eps < 1) (hr : ∀ i, i < nr → 0 ≤ row i)
    (hc : ∀ c, c < nc → 0 ≤ col c) (ha : ∀ i c, i < nr → c < nc → 0 ≤ a i c) :
    (∀ i c, i < nr → c < nc → 0 ≤ a' i c) ∧
    ∀ c, c < nc → col c ≠ 0 → |∑ i ∈ range nr, a' i c - col c| ≤ eps * col c := by
  obtain ⟨b, hb, rfl, hd, _⟩ := balance_last (P := fun b => ∀ i c, i < nr → c < nc → 0 ≤ b i c)
    (fun b hb => step_nonneg hr hc hb) ha h
  refine ⟨step_nonneg hr hc hb, fun c hcn h0 => ?_⟩
  obtain ⟨g, f, e1, e2, _, e4, e5, e6, _⟩ := step_spec nr nc row col b
  have hg : g c = factor (col c) (∑ i ∈ range nr, b i c) := by rw [e2 c, if_pos ⟨hcn, h0⟩]
  have hg0 : 0 ≤ g c := by
    rw [hg]
    exact factor_nonneg (hc c hcn) (sum_nonneg fun i hi => hb i c (mem_range.1 hi) hcn)
  have hne : ∑ i ∈ range nr, b i c ≠ 0 := by
    refine ne_zero_of_factor (t := col c) (e := eps) ?_ he
    rw [← hg]
    exact le_trans (e5 c) hd
  have hcol : ∑ i ∈ range nr, b i c * g c = col c := by
    rw [← sum_mul, hg, mul_comm]
    exact factor_mul hne
  have hcol' : eps * col c = ∑ i ∈ range nr, eps * (b i c * g c) := by rw [← mul_sum, hcol]
  rw [hcol', ← hcol, ← sum_sub_distrib]
  refine le_trans (abs_sum_le_sum_abs _ _) (sum_le_sum fun i hi => ?_)
  rw [e1 i c]
  have hx : 0 ≤ b i c * g c := mul_nonneg (hb i c (mem_range.1 hi) hcn) hg0
  rw [show b i c * g c * f i - b i c * g c = b i c * g c * (f i - 1) by ring, abs_mul, abs_of_nonneg hx, mul_comm eps]
  exact mul_le_mul_of_nonneg_left (le_trans (e6 i) hd) hx

/-- For a non-negative matrix whose column targets are all positive, the rows with target 0 together add up to almost nothing. -/
theorem C42_zero_rows (h : balance nr nc row col n eps a = some a') (he : eps < 1) (hr : ∀ i, i < nr → 0 ≤ row i)
    (hc : ∀ c, c < nc → 0 < col c) (ha : ∀ i c, i < nr → c < nc → 0 ≤ a i c) {i : Nat} (hi : i < nr) (h0 : row i = 0) :
    ∑ c ∈ range nc, a' i c ≤ eps * ∑ c ∈ range nc, col c + eps := by
  obtain ⟨h1, h2⟩ := C42_columns_nonneg h he hr (fun c hcn => le_of_lt (hc c hcn)) ha
  obtain ⟨_, _, _, _, hs⟩ := balance_last (P := fun _ => True) (fun _ _ => trivial) trivial h
  have hrow : ∀ k ∈ range nr, row k ≤ ∑ c ∈ range nc, a' k c := by
    intro k hk
    by_cases hz : row k = 0
    · rw [hz]
      exact sum_nonneg fun c hcn => h1 k c (mem_range.1 hk) (mem_range.1 hcn)
    · exact le_of_eq (C42_rows h he (mem_range.1 hk) hz).symm
  have hone : ∑ c ∈ range nc, a' i c ≤ ∑ k ∈ range nr, (∑ c ∈ range nc, a' k c - row k) := by
    have := single_le_sum (f := fun k => ∑ c ∈ range nc, a' k c - row k) (s := range nr)
      (fun k hk => sub_nonneg.2 (hrow k hk)) (mem_range.2 hi)
    simp only [h0, sub_zero] at this
    exact this
  rw [sum_sub_distrib, sum_comm] at hone
  have hcols : ∑ c ∈ range nc, ∑ k ∈ range nr, a' k c ≤ ∑ c ∈ range nc, (col c + eps * col c) :=
    sum_le_sum fun c hcn => by
      have := (abs_le.1 (h2 c (mem_range.1 hcn) (ne_of_gt (hc c (mem_range.1 hcn))))).2
      linarith
  rw [sum_add_distrib, ← mul_sum] at hcols
  have := (abs_le.1 hs).2
  linarith

/-- The result is the initial matrix with its rows and columns multiplied by factors. -/
theorem C42_biproportional (h : balance nr nc row col n eps a = some a') :
    ∃ r s : Nat → K, ∀ i c, a' i c = r i * a i c * s c := by
  have hP : ∀ b, (∃ r s : Nat → K, ∀ i c, b i c = r i * a i c * s c) →
      ∃ r s : Nat → K, ∀ i c, (step nr nc row col b).1 i c = r i * a i c * s c := by
    rintro b ⟨r, s, hb⟩
    obtain ⟨g, f, e1, _⟩ := step_spec nr nc row col b
    exact ⟨fun i => r i * f i, fun c => s c * g c, fun i c => by rw [e1, hb]; ring⟩
  obtain ⟨b, hb, rfl, _⟩ := balance_last hP ⟨fun _ => 1, fun _ => 1, fun i c => by ring⟩ h
  exact hP b hb

/-- Cells that are 0 stay 0. -/
theorem C42_zero_cells (h : balance nr nc row col n eps a = some a') {i c : Nat} (h0 : a i c = 0) : a' i c = 0 := by
  obtain ⟨r, s, e⟩ := C42_biproportional h
  rw [e, h0, mul_zero, zero_mul]

/-- A matrix that meets its targets is not changed. -/
theorem C42_balanced_unchanged (he : 0 ≤ eps) (hr : ∀ i, i < nr → ∑ c ∈ range nc, a i c = row i)
    (hc : ∀ c, c < nc → ∑ i ∈ range nr, a i c = col c) : balance nr nc row col n eps a = some a := by
  obtain ⟨g, f, e1, e2, e3, _, _, _, e7⟩ := step_spec nr nc row col a
  have fone : ∀ t s : K, t ≠ 0 → s = t → factor t s = 1 := by
    rintro t s ht rfl
    have := factor_mul (t := s) ht
    exact mul_right_cancel₀ ht (by rw [this, one_mul])
  have hg : ∀ c, g c = 1 := by
    intro c
    rw [e2 c]
    split
    · next h => exact fone _ _ h.2 (hc c h.1)
    · rfl
  have hf : ∀ i, f i = 1 := by
    intro i
    rw [e3 i]
    split
    · next h => exact fone _ _ h.2 (by simp only [hg, mul_one]; exact hr i h.1)
    · rfl
  have hs : step nr nc row col a = (a, 0) := by
    refine Prod.ext ?_ (e7 hg hf)
    funext i c
    rw [e1, hg, hf, mul_one, mul_one]
  have hit : ∀ m, iterate nr nc row col eps m a = (a, 0) := by
    intro m
    cases m with
    | zero => exact hs
    | succ m =>
      unfold iterate
      simp only [hs]
      rw [if_neg (not_lt.2 he)]
  have htot : ∑ c ∈ range nc, col c = ∑ i ∈ range nr, row i := by
    rw [← sum_congr rfl fun c hcn => hc c (mem_range.1 hcn), ← sum_congr rfl fun i hi => hr i (mem_range.1 hi), sum_comm]
  unfold balance
  rw [sumLoop_zero, sumLoop_zero, htot, sub_self, abs_zero, if_neg (not_lt.2 he), hit]
  simp only
  rw [if_neg (not_lt.2 he)]

/-! ## The command -/

/-- Value of a variable. -/
def val (vars : SMap (List (Option K))) (k : Name) (t : Nat) : Option K := ((vars.find k).bind (·[t]?)).join

/-- The value the command works with. -/
def look (vars : SMap (List (Option K))) (k : Name) (t : Nat) : Option K := (val vars k t).map flush

theorem getVar_ok {vars : SMap (List (Option K))} {k : Name} {t : Nat} {v : Option K} (h : getVar vars k t = .ok v) :
    v = look vars k t ∧ ∀ x, vars.find k = some x → t < x.length := by
  unfold getVar at h
  unfold look val
  cases hk : vars.find k with
  | none => rw [hk] at h; cases h; exact ⟨rfl, by intro x hx; cases hx⟩
  | some x =>
    rw [hk] at h
    simp only at h
    cases ht : x[t]? with
    | none => rw [ht] at h; cases h
    | some w =>
      rw [ht] at h
      cases h
      refine ⟨by simp [ht], fun x' hx' => ?_⟩
      cases hx'
      rcases Nat.lt_or_ge t x.length with hl | hl
      · exact hl
      · rw [List.getElem?_eq_none hl] at ht; cases ht

section Read
variable {vars : SMap (List (Option K))} {name : Nat → Nat → Name} {rt ct : Nat}

/-- Entry of the matrix: the reference value, 0 if the cell is fixed. -/
def entry (vars : SMap (List (Option K))) (name : Nat → Nat → Name) (rt ct r c : Nat) : K :=
  if (look vars (name r c) ct).isSome then 0 else (look vars (name r c) rt).getD 0

/-- The fixed value of a cell, 0 if it is not fixed. -/
def fixed (vars : SMap (List (Option K))) (name : Nat → Nat → Name) (ct r c : Nat) : K := (look vars (name r c) ct).getD 0

theorem readCell_spec {r c : Nat} {d d' : Data K} (h : readCell vars (name r c) rt ct r c d = .ok d') :
    (look vars (name r c) rt).isSome = true ∧
    (∀ i j, d'.a i j = if i = r ∧ j = c then entry vars name rt ct r c else d.a i j) ∧
    (∀ i, d'.row i = if i = r then d.row i - fixed vars name ct r c else d.row i) ∧
    (∀ j, d'.col j = if j = c then d.col j - fixed vars name ct r c else d.col j) := by
  unfold readCell at h
  obtain ⟨v, h1, h⟩ := Iode.Lec.Res.bind_eq_ok' h
  have hv := (getVar_ok h1).1
  cases v with
  | none => cases h
  | some v =>
    simp only at h
    obtain ⟨w, h2, h⟩ := Iode.Lec.Res.bind_eq_ok' h
    have hw := (getVar_ok h2).1
    unfold entry fixed
    rw [← hv, ← hw]
    cases w with
    | none =>
      cases h
      refine ⟨rfl, fun i j => rfl, fun i => ?_, fun j => ?_⟩ <;> simp
    | some w =>
      cases h
      exact ⟨rfl, fun i j => rfl, fun i => rfl, fun j => rfl⟩

theorem readCols_spec {r : Nat} : ∀ {n c : Nat} {d d' : Data K}, readCols vars name rt ct r n c d = .ok d' →
    (∀ j, c ≤ j → j < c + n → (look vars (name r j) rt).isSome = true) ∧
    (∀ i j, d'.a i j = if i = r ∧ c ≤ j ∧ j < c + n then entry vars name rt ct r j else d.a i j) ∧
    (∀ i, d'.row i = if i = r then d.row i - ∑ k ∈ range n, fixed vars name ct r (c + k) else d.row i) ∧
    (∀ j, d'.col j = if c ≤ j ∧ j < c + n then d.col j - fixed vars name ct r j else d.col j)
  | 0, c, d, d', h => by
    cases h
    exact ⟨fun j _ _ => by omega, fun i j => by rw [if_neg (by omega)], fun i => by simp, fun j => by rw [if_neg (by omega)]⟩
  | n + 1, c, d, d', h => by
    unfold readCols at h
    obtain ⟨d1, h1, h⟩ := Iode.Lec.Res.bind_eq_ok' h
    obtain ⟨a0, a1, a2, a3⟩ := readCell_spec h1
    obtain ⟨b0, b1, b2, b3⟩ := readCols_spec h
    refine ⟨fun j h1 h2 => ?_, fun i j => ?_, fun i => ?_, fun j => ?_⟩
    · by_cases hj : j = c
      · rw [hj]; exact a0
      · exact b0 j (by omega) (by omega)
    · rw [b1 i j, a1 i j]
      by_cases hi : i = r
      · by_cases hj : j = c
        · subst hj
          rw [if_neg (by omega), if_pos ⟨hi, rfl⟩, if_pos ⟨hi, by omega, by omega⟩]
        · by_cases hj' : c ≤ j ∧ j < c + (n + 1)
          · rw [if_pos ⟨hi, by omega, by omega⟩, if_pos ⟨hi, hj'⟩]
          · rw [if_neg (by omega), if_neg (fun h => hj h.2), if_neg (fun h => hj' h.2)]
      · rw [if_neg (fun h => hi h.1), if_neg (fun h => hi h.1), if_neg (fun h => hi h.1)]
    · rw [b2 i, a2 i, sum_range_succ', Nat.add_zero]
      by_cases hi : i = r
      · simp only [if_pos hi]
        rw [show ∑ k ∈ range n, fixed vars name ct r (c + 1 + k) = ∑ k ∈ range n, fixed vars name ct r (c + (k + 1)) from
          sum_congr rfl fun k _ => by rw [show c + 1 + k = c + (k + 1) by omega]]
        ring
      · simp only [if_neg hi]
    · rw [b3 j, a3 j]
      by_cases hj : j = c
      · subst hj
        rw [if_neg (by omega), if_pos rfl, if_pos (by omega)]
      · by_cases hj' : c ≤ j ∧ j < c + (n + 1)
        · rw [if_pos (by omega), if_neg hj, if_pos hj']
        · rw [if_neg (by omega), if_neg hj, if_neg hj']

theorem readRows_spec {nc : Nat} : ∀ {n r : Nat} {d d' : Data K}, readRows vars name rt ct nc n r d = .ok d' →
    (∀ i j, r ≤ i → i < r + n → j < nc → (look vars (name i j) rt).isSome = true) ∧
    (∀ i j, r ≤ i → i < r + n → j < nc → d'.a i j = entry vars name rt ct i j) ∧
    (∀ i j, i < r → d'.a i j = d.a i j) ∧
    (∀ i, d'.row i = if r ≤ i ∧ i < r + n then d.row i - ∑ k ∈ range nc, fixed vars name ct i k else d.row i) ∧
    (∀ j, j < nc → d'.col j = d.col j - ∑ k ∈ range n, fixed vars name ct (r + k) j)
  | 0, r, d, d', h => by
    cases h
    exact ⟨fun i j _ _ => by omega, fun i j _ _ => by omega, fun i j _ => rfl, fun i => by rw [if_neg (by omega)], fun j _ => by simp⟩
  | n + 1, r, d, d', h => by
    unfold readRows at h
    obtain ⟨d1, h1, h⟩ := Iode.Lec.Res.bind_eq_ok' h
    obtain ⟨a0, a1, a2, a3⟩ := readCols_spec h1
    obtain ⟨b0, b1, b2, b3, b4⟩ := readRows_spec h
    refine ⟨fun i j h1 h2 h3 => ?_, fun i j h1 h2 h3 => ?_, fun i j hi => ?_, fun i => ?_, fun j hj => ?_⟩
    · by_cases hi : i = r
      · rw [hi]; exact a0 j (by omega) (by omega)
      · exact b0 i j (by omega) (by omega) h3
    · by_cases hi : i = r
      · subst hi
        rw [b2 i j (by omega), a1 i j, if_pos ⟨rfl, by omega, by omega⟩]
      · exact b1 i j (by omega) (by omega) h3
    · rw [b2 i j (by omega), a1 i j, if_neg (by omega)]
    · rw [b3 i, a2 i]
      by_cases hi : i = r
      · subst hi
        rw [if_neg (by omega), if_pos rfl, if_pos (by omega)]
        simp only [Nat.zero_add]
      · by_cases hi' : r ≤ i ∧ i < r + (n + 1)
        · rw [if_pos (by omega), if_neg hi, if_pos hi']
        · rw [if_neg (by omega), if_neg hi, if_neg hi']
    · rw [b4 j hj, a3 j, if_pos (by omega), sum_range_succ', Nat.add_zero]
      rw [show ∑ k ∈ range n, fixed vars name ct (r + 1 + k) j = ∑ k ∈ range n, fixed vars name ct (r + (k + 1)) j from
        sum_congr rfl fun k _ => by rw [show r + 1 + k = r + (k + 1) by omega]]
      ring

theorem addTotals_spec {nm : Nat → Name} : ∀ {n i : Nat} {f f' : Nat → K}, addTotals vars nm ct n i f = .ok f' →
    ∀ k, (i ≤ k ∧ k < i + n → ∃ v, look vars (nm k) ct = some v ∧ f' k = f k + v) ∧ (¬ (i ≤ k ∧ k < i + n) → f' k = f k)
  | 0, i, f, f', h, k => by cases h; exact ⟨fun _ => by omega, fun _ => rfl⟩
  | n + 1, i, f, f', h, k => by
    unfold addTotals at h
    obtain ⟨v, h1, h⟩ := Iode.Lec.Res.bind_eq_ok' h
    have hv := (getVar_ok h1).1
    cases v with
    | none => cases h
    | some v =>
      obtain ⟨g1, g2⟩ := addTotals_spec h k
      refine ⟨fun hk => ?_, fun hk => ?_⟩
      · by_cases he : k = i
        · refine ⟨v, by rw [he]; exact hv.symm, ?_⟩
          rw [g2 (by omega), if_pos he]
        · obtain ⟨w, w1, w2⟩ := g1 (by omega)
          refine ⟨w, w1, ?_⟩
          rw [w2, if_neg he]
      · rw [g2 (by omega), if_neg (by omega)]

end Read

section Write
variable {name : Nat → Nat → Name} {ct : Nat}

/-- Only the missing value of `k` at `ct` may be replaced. -/
theorem writeCell_spec {k : Name} {v : K} {vars vars' : SMap (List (Option K))} (h : writeCell k ct v vars = .ok vars') :
    (∀ k' t, val vars' k' t = if k' = k ∧ t = ct then some ((val vars k t).getD v) else val vars k' t) ∧
    (∀ k', k' ≠ k → vars'.find k' = vars.find k') := by
  unfold writeCell at h
  obtain ⟨w, h1, h⟩ := Iode.Lec.Res.bind_eq_ok' h
  obtain ⟨hw, hl⟩ := getVar_ok h1
  cases w with
  | some w =>
    cases h
    refine ⟨fun k' t => ?_, fun k' _ => rfl⟩
    unfold look at hw
    split
    · next hk =>
      obtain ⟨rfl, rfl⟩ := hk
      cases hv : val vars k' t with
      | none => rw [hv] at hw; cases hw
      | some u => rfl
    · rfl
  | none =>
    simp only at h
    have hnone : val vars k ct = none := by
      unfold look at hw
      cases hv : val vars k ct with
      | none => rfl
      | some u => rw [hv] at hw; cases hw
    cases hk : vars.find k with
    | none => rw [hk] at h; cases h
    | some x =>
      rw [hk] at h
      cases h
      have hlt := hl x hk
      refine ⟨fun k' t => ?_, fun k' hne => SMap.find_insert_ne _ _ hne⟩
      by_cases hkk : k' = k
      · subst hkk
        by_cases ht : t = ct
        · subst ht
          rw [if_pos ⟨rfl, rfl⟩, hnone]
          unfold val
          rw [SMap.find_insert_self]
          simp [List.getElem?_set_self hlt]
        · rw [if_neg (fun h => ht h.2)]
          unfold val
          rw [SMap.find_insert_self, hk]
          simp only [Option.bind_some]
          rw [List.getElem?_set_ne (fun h => ht h.symm)]
      · rw [if_neg (fun h => hkk h.1)]
        unfold val
        rw [SMap.find_insert_ne _ _ hkk]

theorem writeCols_spec {a : Mat K} {r : Nat} (hinj : ∀ c c', name r c = name r c' → c = c') :
    ∀ {n c : Nat} {vars vars' : SMap (List (Option K))}, writeCols name ct a r n c vars = .ok vars' →
    (∀ j, c ≤ j → j < c + n → val vars' (name r j) ct = some ((val vars (name r j) ct).getD (a r j))) ∧
    (∀ k t, t ≠ ct → val vars' k t = val vars k t) ∧
    (∀ k, (∀ j, c ≤ j → j < c + n → k ≠ name r j) → vars'.find k = vars.find k)
  | 0, c, vars, vars', h => by cases h; exact ⟨fun j _ _ => by omega, fun _ _ _ => rfl, fun _ _ => rfl⟩
  | n + 1, c, vars, vars', h => by
    unfold writeCols at h
    obtain ⟨v1, h1, h⟩ := Iode.Lec.Res.bind_eq_ok' h
    obtain ⟨a1, a2⟩ := writeCell_spec h1
    obtain ⟨b1, b2, b3⟩ := writeCols_spec hinj h
    refine ⟨fun j h1 h2 => ?_, fun k t ht => ?_, fun k hk => ?_⟩
    · by_cases hj : j = c
      · subst hj
        have hf := b3 (name r j) (fun j' h1 h2 he => by have := hinj _ _ he; omega)
        have e : val vars' (name r j) ct = val v1 (name r j) ct := by unfold val; rw [hf]
        rw [e, a1, if_pos ⟨rfl, rfl⟩]
      · rw [b1 j (by omega) (by omega), a1, if_neg (fun h => hj (hinj _ _ h.1))]
    · rw [b2 k t ht, a1, if_neg (fun h => ht h.2)]
    · rw [b3 k (fun j h1 h2 => hk j (by omega) (by omega)), a2 k (hk c (by omega) (by omega))]

theorem writeRows_spec {a : Mat K} {nc : Nat} (hinj : ∀ r c r' c', name r c = name r' c' → r = r' ∧ c = c') :
    ∀ {n r : Nat} {vars vars' : SMap (List (Option K))}, writeRows name ct a nc n r vars = .ok vars' →
    (∀ i j, r ≤ i → i < r + n → j < nc → val vars' (name i j) ct = some ((val vars (name i j) ct).getD (a i j))) ∧
    (∀ k t, t ≠ ct → val vars' k t = val vars k t) ∧
    (∀ k, (∀ i j, r ≤ i → i < r + n → j < nc → k ≠ name i j) → vars'.find k = vars.find k)
  | 0, r, vars, vars', h => by cases h; exact ⟨fun i j _ _ => by omega, fun _ _ _ => rfl, fun _ _ => rfl⟩
  | n + 1, r, vars, vars', h => by
    unfold writeRows at h
    obtain ⟨v1, h1, h⟩ := Iode.Lec.Res.bind_eq_ok' h
    obtain ⟨a1, a2, a3⟩ := writeCols_spec (fun c c' he => (hinj r c r c' he).2) h1
    obtain ⟨b1, b2, b3⟩ := writeRows_spec hinj h
    refine ⟨fun i j h1 h2 h3 => ?_, fun k t ht => ?_, fun k hk => ?_⟩
    · by_cases hi : i = r
      · subst hi
        have hf := b3 (name i j) (fun i' j' h1 h2 _ he => by have := (hinj _ _ _ _ he).1; omega)
        have e : val vars' (name i j) ct = val v1 (name i j) ct := by unfold val; rw [hf]
        rw [e, a1 j (by omega) (by omega)]
      · rw [b1 i j (by omega) (by omega) h3]
        have hf := a3 (name i j) (fun j' _ _ he => hi (hinj _ _ _ _ he).1)
        have e : val v1 (name i j) ct = val vars (name i j) ct := by unfold val; rw [hf]
        rw [e]
    · rw [b2 k t ht, a2 k t ht]
    · rw [b3 k (fun i j h1 h2 h3 => hk i j (by omega) (by omega) h3), a3 k (fun j _ h2 => hk r j (by omega) (by omega) (by omega))]

end Write

/-- No value is so small that the command takes it for 0. -/
def NoTiny (vars : SMap (List (Option K))) : Prop := ∀ k t v, val vars k t = some v → flush v = v

theorem look_eq {vars : SMap (List (Option K))} (h : NoTiny vars) (k : Name) (t : Nat) : look vars k t = val vars k t := by
  unfold look
  cases hv : val vars k t with
  | none => rfl
  | some v => rw [Option.map_some, h k t v hv]

/-- The command: it only fills the missing cells of the current period; the rows add up to their totals and the columns almost, except
where the cells given leave nothing to distribute. -/
theorem C42_command_partial {name : Nat → Nat → Name} {nr nc rt ct maxit : Nat} {eps : K} {vars vars' : SMap (List (Option K))}
    (hinj : ∀ r c r' c', name r c = name r' c' → r = r' ∧ c = c') (htiny : NoTiny vars) (he : eps < 1)
    (h : execute name nr nc rt ct maxit eps vars = .ok vars') :
    (∀ k, (∀ r c, r < nr → c < nc → k ≠ name r c) → vars'.find k = vars.find k) ∧
    (∀ k t, t ≠ ct → val vars' k t = val vars k t) ∧
    ∃ x : Mat K, (∀ r c, r < nr → c < nc → val vars' (name r c) ct = some (x r c) ∧
        (∀ v, val vars (name r c) ct = some v → x r c = v)) ∧
      (∀ r, r < nr → ∃ total, val vars (name r nc) ct = some total ∧
        (∑ c ∈ range nc, (val vars (name r c) ct).getD 0 ≠ total → ∑ c ∈ range nc, x r c = total)) ∧
      (∀ c, c < nc → ∃ total, val vars (name nr c) ct = some total ∧
        (∑ r ∈ range nr, (val vars (name r c) ct).getD 0 ≠ total → |∑ r ∈ range nr, x r c - total| ≤
          eps / (1 - eps) * ∑ r ∈ range nr, |x r c - (val vars (name r c) ct).getD 0|)) := by
  unfold execute at h
  split at h
  · cases h
  obtain ⟨d, h1, h⟩ := Iode.Lec.Res.bind_eq_ok' h
  obtain ⟨row, h2, h⟩ := Iode.Lec.Res.bind_eq_ok' h
  obtain ⟨col, h3, h⟩ := Iode.Lec.Res.bind_eq_ok' h
  obtain ⟨_, d1, _, d2, d3⟩ := readRows_spec h1
  cases hb : balance nr nc row col maxit eps d.a with
  | none => rw [hb] at h; cases h
  | some a =>
    rw [hb] at h
    simp only at h
    obtain ⟨w1, w2, w3⟩ := writeRows_spec hinj h
    have hfix : ∀ r c, fixed vars name ct r c = (val vars (name r c) ct).getD 0 := by
      intro r c
      unfold fixed
      rw [look_eq htiny]
    have hzero : ∀ r c, r < nr → c < nc → ∀ v, val vars (name r c) ct = some v → a r c = 0 := by
      intro r c hr hc v hv
      refine C42_zero_cells hb ?_
      rw [d1 r c (by omega) (by omega) hc]
      unfold entry
      rw [look_eq htiny, hv]
      rfl
    have hx : ∀ r c, r < nr → c < nc → (val vars (name r c) ct).getD (a r c) = (val vars (name r c) ct).getD 0 + a r c := by
      intro r c hr hc
      cases hv : val vars (name r c) ct with
      | none => simp
      | some v => rw [hzero r c hr hc v hv]; simp
    refine ⟨fun k hk => w3 k (fun i j _ hi hj => hk i j (by omega) hj), w2,
      fun r c => (val vars (name r c) ct).getD (a r c), fun r c hr hc => ⟨w1 r c (by omega) (by omega) hc, fun v hv => by simp [hv]⟩,
      fun r hr => ?_, fun c hc => ?_⟩
    · obtain ⟨total, t1, t2⟩ := (addTotals_spec h2 r).1 (by omega)
      rw [look_eq htiny] at t1
      refine ⟨total, t1, fun hne => ?_⟩
      rw [d2 r, if_pos (by omega)] at t2
      simp only [hfix, zero_sub] at t2
      have hr0 : row r ≠ 0 := by
        rw [t2]
        intro h0
        exact hne (by linarith)
      have := C42_rows hb he hr hr0
      rw [sum_congr rfl fun c hc => hx r c hr (mem_range.1 hc), sum_add_distrib, this, t2]
      ring
    · obtain ⟨total, t1, t2⟩ := (addTotals_spec h3 c).1 (by omega)
      rw [look_eq htiny] at t1
      refine ⟨total, t1, fun hne => ?_⟩
      rw [d3 c hc] at t2
      simp only [hfix, zero_sub, Nat.zero_add] at t2
      have hc0 : col c ≠ 0 := by
        rw [t2]
        intro h0
        exact hne (by linarith)
      have := C42_columns hb he hc hc0
      have e1 : ∑ r ∈ range nr, |(val vars (name r c) ct).getD (a r c) - (val vars (name r c) ct).getD 0| = ∑ r ∈ range nr, |a r c| :=
        sum_congr rfl fun r hr => by rw [hx r c (mem_range.1 hr) hc, add_sub_cancel_left]
      have e2 : ∑ r ∈ range nr, (val vars (name r c) ct).getD (a r c) - total = ∑ r ∈ range nr, a r c - col c := by
        rw [sum_congr rfl fun r hr => hx r c (mem_range.1 hr) hc, sum_add_distrib, t2]
        ring
      rw [e1, e2]
      exact this

/-- The variable has a value or a missing value at `t`. -/
def Stored (vars : SMap (List (Option K))) (k : Name) (t : Nat) : Prop := ∃ x, vars.find k = some x ∧ t < x.length

theorem readCell_stored {vars : SMap (List (Option K))} {k : Name} {rt ct r c : Nat} {d d' : Data K}
    (h : readCell vars k rt ct r c d = .ok d') : Stored vars k ct := by
  unfold readCell at h
  obtain ⟨v, h1, h⟩ := Iode.Lec.Res.bind_eq_ok' h
  have hv := (getVar_ok h1).1
  cases v with
  | none => cases h
  | some v =>
    simp only at h
    obtain ⟨w, h2, h⟩ := Iode.Lec.Res.bind_eq_ok' h
    cases hk : vars.find k with
    | none => unfold look val at hv; rw [hk] at hv; cases hv
    | some x => exact ⟨x, hk, (getVar_ok h2).2 x hk⟩

theorem readCols_stored {vars : SMap (List (Option K))} {name : Nat → Nat → Name} {rt ct r : Nat} : ∀ {n c : Nat} {d d' : Data K},
    readCols vars name rt ct r n c d = .ok d' → ∀ j, c ≤ j → j < c + n → Stored vars (name r j) ct
  | 0, _, _, _, _ => fun j _ _ => by omega
  | n + 1, c, d, d', h => by
    unfold readCols at h
    obtain ⟨d1, h1, h⟩ := Iode.Lec.Res.bind_eq_ok' h
    intro j h2 h3
    by_cases hj : j = c
    · rw [hj]; exact readCell_stored h1
    · exact readCols_stored h j (by omega) (by omega)

theorem readRows_stored {vars : SMap (List (Option K))} {name : Nat → Nat → Name} {rt ct nc : Nat} : ∀ {n r : Nat} {d d' : Data K},
    readRows vars name rt ct nc n r d = .ok d' → ∀ i j, r ≤ i → i < r + n → j < nc → Stored vars (name i j) ct
  | 0, _, _, _, _ => fun i j _ _ => by omega
  | n + 1, r, d, d', h => by
    unfold readRows at h
    obtain ⟨d1, h1, h⟩ := Iode.Lec.Res.bind_eq_ok' h
    intro i j h2 h3 h4
    by_cases hi : i = r
    · rw [hi]; exact readCols_stored h1 j (by omega) (by omega)
    · exact readRows_stored h i j (by omega) (by omega) h4

theorem writeCell_stored {k : Name} {ct : Nat} {v : K} {vars : SMap (List (Option K))} (h : Stored vars k ct) :
    ∃ vars', writeCell k ct v vars = .ok vars' ∧ ∀ k', Stored vars k' ct → Stored vars' k' ct := by
  obtain ⟨x, h1, h2⟩ := h
  unfold writeCell getVar
  rw [h1]
  simp only [List.getElem?_eq_getElem h2, Iode.Lec.Res.bindOk]
  cases hx : x[ct] with
  | some w => exact ⟨vars, rfl, fun k' h => h⟩
  | none =>
    refine ⟨_, rfl, ?_⟩
    rintro k' ⟨x', g1, g2⟩
    by_cases hk : k' = k
    · exact ⟨_, by rw [hk, SMap.find_insert_self], by rw [List.length_set]; exact h2⟩
    · exact ⟨x', by rw [SMap.find_insert_ne _ _ hk]; exact g1, g2⟩

theorem writeCols_stored {name : Nat → Nat → Name} {ct r : Nat} {a : Mat K} : ∀ {n c : Nat} {vars : SMap (List (Option K))},
    (∀ j, c ≤ j → j < c + n → Stored vars (name r j) ct) →
    ∃ vars', writeCols name ct a r n c vars = .ok vars' ∧ ∀ k', Stored vars k' ct → Stored vars' k' ct
  | 0, _, vars, _ => ⟨vars, rfl, fun _ h => h⟩
  | n + 1, c, vars, h => by
    unfold writeCols
    obtain ⟨v1, e1, e2⟩ := writeCell_stored (v := a r c) (h c (by omega) (by omega))
    obtain ⟨v2, e3, e4⟩ := writeCols_stored (n := n) (c := c + 1) (vars := v1) (a := a)
      (fun j h1 h2 => e2 _ (h j (by omega) (by omega)))
    exact ⟨v2, by rw [e1, Iode.Lec.Res.bindOk, e3], fun k' hk => e4 k' (e2 k' hk)⟩

theorem writeRows_stored {name : Nat → Nat → Name} {ct nc : Nat} {a : Mat K} : ∀ {n r : Nat} {vars : SMap (List (Option K))},
    (∀ i j, r ≤ i → i < r + n → j < nc → Stored vars (name i j) ct) →
    ∃ vars', writeRows name ct a nc n r vars = .ok vars'
  | 0, _, vars, _ => ⟨vars, rfl⟩
  | n + 1, r, vars, h => by
    unfold writeRows
    obtain ⟨v1, e1, e2⟩ := writeCols_stored (a := a) (n := nc) (c := 0) (vars := vars) (fun j _ h2 => h r j (by omega) (by omega) (by omega))
    obtain ⟨v2, e3⟩ := writeRows_stored (n := n) (r := r + 1) (vars := v1) (a := a)
      (fun i j h1 h2 h3 => e2 _ (h i j (by omega) (by omega) h3))
    exact ⟨v2, by rw [e1, Iode.Lec.Res.bindOk, e3]⟩

/-- Once the matrix is balanced, writing the result cannot fail: an error of the command leaves the workspace as it was. -/
theorem C42_no_half_result {name : Nat → Nat → Name} {nr nc rt ct : Nat} {vars : SMap (List (Option K))} {d d' : Data K}
    (h : readRows vars name rt ct nc nr 0 d = .ok d') (a : Mat K) : ∃ vars', writeRows name ct a nc nr 0 vars = .ok vars' :=
  writeRows_stored (fun i j h1 h2 h3 => readRows_stored h i j h1 h2 h3)

/-! ## Examples -/

/-- A 2 x 2 matrix. -/
def exMat (a b c d : ℚ) : Mat ℚ := fun i j => if i = 0 then (if j = 0 then a else b) else (if j = 0 then c else d)
def exVec (a b : ℚ) : Nat → ℚ := fun i => if i = 0 then a else b

/-- Rows 4 and 6, columns 5 and 5: the result of three iterations meets the thresholds. -/
example : (balance 2 2 (exVec 4 6) (exVec 5 5) 10 (1 / 100) (exMat 1 2 3 1)).isSome = true := by decide +kernel

/-- Not within one iteration. -/
example : (balance 2 2 (exVec 4 6) (exVec 5 5) 0 (1 / 100) (exMat 1 2 3 1)).isNone = true := by decide +kernel

/-- The totals must agree. -/
example : (balance 2 2 (exVec 4 6) (exVec 5 6) 10 (1 / 100) (exMat 1 2 3 1)).isNone = true := by decide +kernel

/-- Targets 0 are skipped: a cell whose row and column both must add up to 0 is kept as it is, and RAS reports success. -/
theorem C42_zero_target_counterexample :
    ∃ a', balance 2 2 (exVec 0 1) (exVec 0 1) 100 (1 / 1000) (exMat 5 0 0 1) = some a' ∧ ∑ c ∈ range 2, a' 0 c = 5 ∧ exVec 0 1 0 = 0 := by
  have h : (balance 2 2 (exVec 0 1) (exVec 0 1) 100 (1 / 1000) (exMat 5 0 0 1)).map (fun m => (m 0 0, m 0 1)) = some (5, 0) := by
    decide +kernel
  cases hb : balance 2 2 (exVec 0 1) (exVec 0 1) 100 (1 / 1000) (exMat 5 0 0 1) with
  | none => rw [hb] at h; cases h
  | some a' =>
    rw [hb] at h
    simp only [Option.map_some, Option.some.injEq, Prod.mk.injEq] at h
    refine ⟨a', rfl, ?_, rfl⟩
    rw [sum_range_succ, sum_range_one, h.1, h.2]
    norm_num

/-- `A00` to `A22`, the last row and column being totals. -/
def exName (r c : Nat) : Name := List.replicate r 'A' ++ 'B' :: List.replicate c 'C'

/-- The current period (position 1): cell 0,1 is given, the other cells are missing. -/
def exVars : SMap (List (Option ℚ)) :=
  [(exName 1 0, [some 3, none]), (exName 1 1, [some 1, none]), (exName 1 2, [some 4, some 6]),
   (exName 2 0, [some 4, some 5]), (exName 2 1, [some 3, some 5]),
   (exName 0 0, [some 1, none]), (exName 0 1, [some 2, some 1]), (exName 0 2, [some 3, some 4])]

/-- The cell given is kept, the others are filled: the first row is 3 and 1. -/
example : (match execute exName 2 2 0 1 100 (1 / 100 : ℚ) exVars with
    | .ok v => (val v (exName 0 0) 1, val v (exName 0 1) 1, (val v (exName 1 0) 1).isSome, val v (exName 0 0) 0)
    | _ => (none, none, false, none)) = (some 3, some 1, true, some 1) := by decide +kernel

theorem exName_inj (r c r' c' : Nat) (h : exName r c = exName r' c') : r = r' ∧ c = c' := by
  have h1 := congrArg (List.count 'A') h
  have h2 := congrArg (List.count 'C') h
  simp [exName, List.count_cons, List.count_replicate] at h1 h2
  exact ⟨h1, h2⟩

end Iode.Ras
