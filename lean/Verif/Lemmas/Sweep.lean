import Verif.Lemmas.Linear
import Mathlib.Algebra.BigOperators.Field

/-!
# Lemmas on the inverse by sweeping
-/
namespace Iode.Lin

open Spec.Linear Finset

variable {K : Type} [Field K] [LinearOrder K]

omit [LinearOrder K] in
theorem shift_eq (c : K) : ∀ (f i : Nat) (a : Nat → Nat → K) (i' j' : Nat),
    shift c f i a i' j' = if i ≤ i' ∧ i' < i + f ∧ i' = j' then a i' j' + c else a i' j'
  | 0, i, a, i', j' => by rw [shift, if_neg (by omega)]
  | f + 1, i, a, i', j' => by
    rw [shift, shift_eq c f (i + 1)]
    by_cases h : i' = i ∧ j' = i
    · obtain ⟨rfl, rfl⟩ := h
      rw [if_neg (by omega), if_pos ⟨rfl, rfl⟩, if_pos (by omega)]
    · simp only [if_neg h]
      by_cases h' : i + 1 ≤ i' ∧ i' < i + 1 + f ∧ i' = j'
      · rw [if_pos h', if_pos (by omega)]
      · rw [if_neg h', if_neg (by omega)]

omit [LinearOrder K] in
theorem sweepRows_eq {n m : Nat} (hm : m < n) : ∀ (f i : Nat) (a : Nat → Nat → K) (i' j' : Nat),
    sweepRows n m f i a i' j'
      = if i ≤ i' ∧ i' < i + f ∧ i' ≠ m ∧ j' < n then a i' j' - a i' m * a m j' else a i' j'
  | 0, i, a, i', j' => by rw [sweepRows, if_neg (by omega)]
  | f + 1, i, a, i', j' => by
    rw [sweepRows]
    by_cases hi : i = m
    · rw [if_pos hi, sweepRows_eq hm f (i + 1)]
      by_cases h : i + 1 ≤ i' ∧ i' < i + 1 + f ∧ i' ≠ m ∧ j' < n
      · rw [if_pos h, if_pos (by omega)]
      · rw [if_neg h, if_neg (by omega)]
    · rw [if_neg hi, sweepRows_eq hm f (i + 1)]
      by_cases h : i' = i
      · subst h
        rw [if_neg (by omega)]
        by_cases hj : j' < n
        · rw [if_pos ⟨rfl, hj⟩, if_pos (by omega)]
        · rw [if_neg (by omega), if_neg (by omega)]
      · have h1 : ∀ j, ¬ (i' = i ∧ j < n) := fun j hc => h hc.1
        have h2 : ∀ j, ¬ (m = i ∧ j < n) := fun j hc => hi hc.1.symm
        simp only [if_neg (h1 _), if_neg (h2 _)]
        by_cases h' : i + 1 ≤ i' ∧ i' < i + 1 + f ∧ i' ≠ m ∧ j' < n
        · rw [if_pos h', if_pos (by omega)]
        · rw [if_neg h', if_neg (by omega)]

/-- One step on the matrix without the ones of the diagonal. -/
def exchange (m : Nat) (t : Nat → Nat → K) (i j : Nat) : K :=
  if i = m then (if j = m then 1 / t m m else t m j / t m m)
  else if j = m then -t i m / t m m else t i j - t i m * t m j / t m m

/-- The matrix without the ones of the diagonal. -/
def core (a : Nat → Nat → K) (i j : Nat) : K := a i j - if i = j then 1 else 0

theorem core_step {n m : Nat} (hm : m < n) (a : Nat → Nat → K) (hp : a m m - 1 ≠ 0) {i j : Nat} (hi : i < n) (hj : j < n) :
    core (sweepRows n m n 0 (divRow n m (a m m - 1) a)) i j = exchange m (core a) i j := by
  have hmm : core a m m = a m m - 1 := by rw [core, if_pos rfl]
  rw [core, sweepRows_eq hm, exchange, hmm]
  simp only [divRow]
  by_cases h : i = m
  · subst h
    rw [if_neg (by omega), if_pos ⟨rfl, hj⟩, if_pos rfl]
    by_cases h' : j = i
    · subst h'
      rw [if_pos rfl, if_pos rfl]
      field_simp
      ring
    · rw [if_neg (Ne.symm h'), if_neg h', core, if_neg (Ne.symm h')]
      ring
  · rw [if_pos (by omega), if_neg (by omega), if_pos (c := True ∧ j < n) ⟨trivial, hj⟩, if_neg h,
      if_neg (c := i = m ∧ m < n) (by omega)]
    by_cases h' : j = m
    · subst h'
      rw [if_neg h, if_pos rfl, core, if_neg h]
      field_simp
      ring
    · rw [if_neg h', core, core, core, if_neg h, if_neg (Ne.symm h')]
      field_simp
      ring

/-- The values on the left and on the right when the first `m` unknowns have been exchanged. -/
def lhs (m : Nat) (x y : Nat → K) (i : Nat) : K := if i < m then x i else -y i
def rhs (m : Nat) (x y : Nat → K) (j : Nat) : K := if j < m then y j else -x j

/-- The relation kept by the exchanges. -/
def Rel (n m : Nat) (t : Nat → Nat → K) (x y : Nat → K) : Prop :=
  ∀ i, i < n → ∑ j ∈ range n, t i j * rhs m x y j = lhs m x y i

omit [LinearOrder K] in
theorem sum_split {n m : Nat} (hm : m < n) (f : Nat → K) :
    ∑ j ∈ range n, f j = f m + ∑ j ∈ range n, if j = m then 0 else f j := by
  have : ∀ j ∈ range n, f j = (if j = m then f m else 0) + if j = m then 0 else f j := by
    intro j _
    by_cases h : j = m
    · subst h; simp
    · simp [h]
  rw [sum_congr rfl this, sum_add_distrib, Finset.sum_ite_eq' (range n) m, if_pos (mem_range.2 hm)]

theorem rel_step {n m : Nat} (hm : m < n) (t : Nat → Nat → K) (hp : t m m ≠ 0) (x y : Nat → K) :
    Rel n m t x y ↔ Rel n (m + 1) (exchange m t) x y := by
  -- the common part of the sums
  have hold : ∀ i, ∑ j ∈ range n, t i j * rhs m x y j
      = t i m * -x m + ∑ j ∈ range n, if j = m then 0 else t i j * rhs m x y j := by
    intro i
    rw [sum_split hm, rhs, if_neg (lt_irrefl m)]
  have hrhs : ∀ j, j ≠ m → rhs (m + 1) x y j = rhs m x y j := by
    intro j hj
    simp only [rhs]
    by_cases h : j < m
    · rw [if_pos h, if_pos (by omega)]
    · rw [if_neg h, if_neg (by omega)]
  have hlhs : ∀ i, i ≠ m → lhs (m + 1) x y i = lhs m x y i := by
    intro j hj
    simp only [lhs]
    by_cases h : j < m
    · rw [if_pos h, if_pos (by omega)]
    · rw [if_neg h, if_neg (by omega)]
  have hrm : rhs (m + 1) x y m = y m := if_pos (by omega)
  have hlm : lhs (m + 1) x y m = x m := if_pos (by omega)
  have hlm0 : lhs m x y m = -y m := if_neg (lt_irrefl m)
  have hnewm : ∑ j ∈ range n, exchange m t m j * rhs (m + 1) x y j
      = (y m + ∑ j ∈ range n, if j = m then 0 else t m j * rhs m x y j) / t m m := by
    rw [sum_split hm, hrm, exchange, if_pos rfl, if_pos rfl, add_div, Finset.sum_div]
    congr 1
    · ring
    · refine sum_congr rfl fun j _ => ?_
      by_cases h : j = m
      · rw [if_pos h, if_pos h, zero_div]
      · rw [if_neg h, if_neg h, hrhs j h, exchange, if_pos rfl, if_neg h]
        ring
  have hnew : ∀ i, i ≠ m → ∑ j ∈ range n, exchange m t i j * rhs (m + 1) x y j
      = (∑ j ∈ range n, if j = m then 0 else t i j * rhs m x y j)
        - t i m * ((y m + ∑ j ∈ range n, if j = m then 0 else t m j * rhs m x y j) / t m m) := by
    intro i hi
    have hs : (∑ j ∈ range n, if j = m then (0 : K) else exchange m t i j * rhs (m + 1) x y j)
        = (∑ j ∈ range n, if j = m then 0 else t i j * rhs m x y j)
          - t i m / t m m * ∑ j ∈ range n, if j = m then 0 else t m j * rhs m x y j := by
      rw [mul_sum, ← sum_sub_distrib]
      refine sum_congr rfl fun j _ => ?_
      by_cases h : j = m
      · simp [h]
      · rw [if_neg h, if_neg h, if_neg h, hrhs j h, exchange, if_neg hi, if_neg h]
        ring
    rw [sum_split hm, hs, hrm, exchange, if_neg hi, if_pos rfl]
    ring
  constructor
  · intro h
    have hm' := h m hm
    rw [hold, hlm0] at hm'
    have hS : ∑ j ∈ range n, (if j = m then 0 else t m j * rhs m x y j) = t m m * x m - y m := by
      linear_combination hm'
    intro i hi
    by_cases him : i = m
    · subst him
      rw [hnewm, hlm, hS]
      field_simp
      ring
    · rw [hnew i him, hlhs i him, ← h i hi, hold, hS]
      field_simp
      ring
  · intro h
    have hm' := h m hm
    rw [hnewm, hlm, div_eq_iff hp] at hm'
    have hS : ∑ j ∈ range n, (if j = m then 0 else t m j * rhs m x y j) = t m m * x m - y m := by
      linear_combination hm'
    intro i hi
    by_cases him : i = m
    · subst him
      rw [hold, hlm0, hS]
      ring
    · have := h i hi
      rw [hnew i him, hlhs i him, hS] at this
      rw [hold, ← this]
      field_simp
      ring

omit [LinearOrder K] in
theorem rel_congr {n m : Nat} {t t' : Nat → Nat → K} (h : ∀ i j, i < n → j < n → t i j = t' i j) (x y : Nat → K) :
    Rel n m t x y ↔ Rel n m t' x y := by
  have : ∀ i, i < n → ∑ j ∈ range n, t i j * rhs m x y j = ∑ j ∈ range n, t' i j * rhs m x y j :=
    fun i hi => sum_congr rfl fun j hj => by rw [h i j hi (mem_range.1 hj)]
  exact ⟨fun hr i hi => by rw [← this i hi]; exact hr i hi, fun hr i hi => by rw [this i hi]; exact hr i hi⟩

theorem sweep_rel {n : Nat} : ∀ (k m : Nat) (a a' : Nat → Nat → K), m + k = n → sweep n k m a = some a' → ∀ x y,
    (Rel n m (core a) x y ↔ Rel n n (core a') x y)
  | 0, m, a, a', hk, h, x, y => by
    rw [sweep] at h
    rw [← Option.some.inj h, show m = n by omega]
  | k + 1, m, a, a', hk, h, x, y => by
    rw [sweep] at h
    by_cases hp : a m m - 1 = 0
    · rw [if_pos hp] at h; cases h
    · rw [if_neg hp] at h
      rw [← sweep_rel k (m + 1) _ a' (by omega) h x y]
      have hc : core a m m ≠ 0 := by rw [core, if_pos rfl]; exact hp
      rw [rel_step (by omega) (core a) hc x y]
      exact rel_congr (fun i j hi hj => (core_step (by omega) a hp hi hj).symm) x y

theorem rel_start {n : Nat} (a : Nat → Nat → K) (x y : Nat → K) :
    Solves n a y x ↔ Rel n 0 (core (shift 1 n 0 a)) x y := by
  have hc : ∀ i j, i < n → core (shift 1 n 0 a) i j = a i j := by
    intro i j hi
    rw [core, shift_eq]
    by_cases hij : i = j
    · rw [if_pos (by omega), if_pos hij]; ring
    · rw [if_neg (by omega), if_neg hij]; ring
  have hsum : ∀ i, i < n → ∑ j ∈ range n, core (shift 1 n 0 a) i j * rhs 0 x y j = -∑ j ∈ range n, a i j * x j := by
    intro i hi
    rw [← sum_neg_distrib]
    refine sum_congr rfl fun j _ => ?_
    rw [hc i j hi, rhs, if_neg (by omega)]
    ring
  constructor
  · intro hs i hi
    rw [hsum i hi, hs i hi, lhs, if_neg (by omega)]
  · intro hs i hi
    have := hs i hi
    rw [hsum i hi, lhs, if_neg (by omega)] at this
    exact neg_inj.1 this

/-- The matrix given by `M_inv_1` undoes the one it was given. -/
theorem inv1_iff {n : Nat} {a b : Nat → Nat → K} (h : inv1 n a = some b) (x y : Nat → K) :
    Solves n a y x ↔ Solves n b x y := by
  rw [inv1] at h
  cases hs : sweep n n 0 (shift 1 n 0 a) with
  | none => rw [hs] at h; cases h
  | some a' =>
    rw [hs] at h
    have hb : b = shift (-1) n 0 a' := (Option.some.inj h).symm
    have hr := sweep_rel n 0 (shift 1 n 0 a) a' (by omega) hs x y
    have h0 := rel_start (n := n) a x y
    have h1 : Solves n b x y ↔ Rel n n (core a') x y := by
      have hc : ∀ i j, i < n → core a' i j = b i j := by
        intro i j hi
        rw [hb, core, shift_eq]
        by_cases hij : i = j
        · rw [if_pos hij, if_pos (by omega)]; ring
        · rw [if_neg hij, if_neg (by omega)]; ring
      have hsum : ∀ i, i < n → ∑ j ∈ range n, core a' i j * rhs n x y j = ∑ j ∈ range n, b i j * y j := by
        intro i hi
        refine sum_congr rfl fun j hj => ?_
        rw [hc i j hi, rhs, if_pos (mem_range.1 hj)]
      constructor
      · intro hs i hi
        rw [hsum i hi, hs i hi, lhs, if_pos hi]
      · intro hs i hi
        have := hs i hi
        rwa [hsum i hi, lhs, if_pos hi] at this
    exact h0.trans (hr.trans h1.symm)

/-- What has been exchanged before a pivot that is zero, or when there is none. -/
theorem sweep_run {n : Nat} : ∀ (k m : Nat) (a : Nat → Nat → K), m + k = n →
    match sweep n k m a with
    | none => ∃ r t, m ≤ r ∧ r < n ∧ t r r = 0 ∧ ∀ x y, Rel n m (core a) x y ↔ Rel n r t x y
    | some _ => ∀ r, m ≤ r → r ≤ n → ∃ t, ∀ x y, Rel n m (core a) x y ↔ Rel n r t x y
  | 0, m, a, hk => fun r h1 h2 => ⟨core a, fun x y => by rw [show r = m by omega]⟩
  | k + 1, m, a, hk => by
    rw [sweep]
    by_cases hp : a m m - 1 = 0
    · rw [if_pos hp]
      exact ⟨m, core a, le_refl _, by omega, by rw [core, if_pos rfl]; exact hp, fun _ _ => Iff.rfl⟩
    · rw [if_neg hp]
      have hc : core a m m ≠ 0 := by rw [core, if_pos rfl]; exact hp
      have hstep : ∀ x y, Rel n m (core a) x y
          ↔ Rel n (m + 1) (core (sweepRows n m n 0 (divRow n m (a m m - 1) a))) x y := fun x y =>
        (rel_step (by omega) (core a) hc x y).trans
          (rel_congr (fun i j hi hj => (core_step (by omega) a hp hi hj).symm) x y)
      have ih := sweep_run (n := n) k (m + 1) (sweepRows n m n 0 (divRow n m (a m m - 1) a)) (by omega)
      revert ih
      cases sweep n k (m + 1) (sweepRows n m n 0 (divRow n m (a m m - 1) a)) with
      | none =>
        rintro ⟨r, t, h1, h2, h3, h4⟩
        exact ⟨r, t, by omega, h2, h3, fun x y => (hstep x y).trans (h4 x y)⟩
      | some a' =>
        intro h r h1 h2
        by_cases hr : r = m
        · subst hr
          exact ⟨core a, fun _ _ => Iff.rfl⟩
        · obtain ⟨t, ht⟩ := h r (by omega) h2
          exact ⟨t, fun x y => (hstep x y).trans (ht x y)⟩

omit [LinearOrder K] in
/-- A sum whose last terms vanish. -/
theorem sum_short {n r : Nat} (hr : r ≤ n) (f : Nat → K) (h : ∀ j, r ≤ j → f j = 0) :
    ∑ j ∈ range n, f j = ∑ j ∈ range r, f j := by
  have hn : n = r + (n - r) := by omega
  rw [hn, sum_range_add, sum_eq_zero (s := range (n - r)) (fun j _ => h (r + j) (by omega)), add_zero]

/-- `M_inv_1` fails exactly when one of the leading blocks of the matrix is singular. -/
theorem inv1_none_iff {n : Nat} (a : Nat → Nat → K) : inv1 n a = none ↔ ∃ r, r ≤ n ∧ Singular r a := by
  have hrun := sweep_run (n := n) n 0 (shift 1 n 0 a) (by omega)
  rw [inv1, Option.map_eq_none_iff]
  revert hrun
  cases sweep n n 0 (shift 1 n 0 a) with
  | none =>
    rintro ⟨r, t, _, hr, ht, hrel⟩
    refine ⟨fun _ => ⟨r + 1, by omega, ?_⟩, fun _ => rfl⟩
    -- the vector whose image has zeros down to row `r`
    let z : Nat → K := fun j => if j = r then -1 else 0
    let w : Nat → K := fun i => ∑ j ∈ range n, t i j * z j
    let x : Nat → K := fun i => if i < r then w i else if i = r then 1 else 0
    let y : Nat → K := fun i => if i < r then 0 else -w i
    have hz : rhs r x y = z := by
      funext j
      simp only [rhs, x, y, z]
      by_cases h : j < r
      · rw [if_pos h, if_pos h, if_neg (by omega)]
      · rw [if_neg h, if_neg h]
        by_cases h' : j = r
        · rw [if_pos h', if_pos h']
        · rw [if_neg h', if_neg h', neg_zero]
    have hR : Rel n r t x y := by
      intro i hi
      rw [hz, lhs]
      by_cases h : i < r
      · rw [if_pos h]
        exact (if_pos h).symm
      · rw [if_neg h]
        simp only [y, if_neg h, neg_neg]
        rfl
    have hS : Solves n a y x := (rel_start a x y).2 ((hrel x y).2 hR)
    have hyr : y r = 0 := by
      have : w r = 0 := by
        apply sum_eq_zero
        intro j _
        by_cases h : j = r
        · rw [h, ht, zero_mul]
        · simp only [z, if_neg h, mul_zero]
      simp only [y, lt_irrefl, if_false, this, neg_zero]
    refine ⟨x, ⟨r, by omega, ?_⟩, fun i hi => ?_⟩
    · simp only [x, lt_irrefl, if_false, if_true]
      exact one_ne_zero
    · rw [← sum_short (n := n) (by omega) (fun j => a i j * x j) (fun j hj => ?_), hS i (by omega)]
      · by_cases h : i < r
        · exact if_pos h
        · rw [show i = r by omega, hyr]
      · have : x j = 0 := by
          simp only [x]
          rw [if_neg (by omega), if_neg (by omega)]
        rw [this, mul_zero]
  | some a' =>
    intro hrun
    refine ⟨fun h => by simp at h, ?_⟩
    rintro ⟨r, hr, v, ⟨i, hi, hv⟩, h0⟩
    exfalso
    obtain ⟨t, ht⟩ := hrun r (Nat.zero_le _) hr
    let x : Nat → K := fun j => if j < r then v j else 0
    let y : Nat → K := fun i => ∑ j ∈ range n, a i j * x j
    have hS : Solves n a y x := fun i _ => rfl
    have hy : ∀ i, i < r → y i = 0 := by
      intro i hi
      show ∑ j ∈ range n, a i j * x j = 0
      rw [sum_short (n := n) hr (fun j => a i j * x j) (fun j hj => by simp only [x]; rw [if_neg (by omega), mul_zero])]
      refine Eq.trans (sum_congr rfl fun j hj => ?_) (h0 i hi)
      simp only [x]
      rw [if_pos (mem_range.1 hj)]
    have hR := (ht x y).1 ((rel_start a x y).1 hS) i (by omega)
    rw [lhs, if_pos hi] at hR
    have hz : ∑ j ∈ range n, t i j * rhs r x y j = 0 := by
      apply sum_eq_zero
      intro j _
      have : rhs r x y j = 0 := by
        simp only [rhs]
        by_cases h : j < r
        · rw [if_pos h, hy j h]
        · rw [if_neg h]
          simp only [x]
          rw [if_neg h, neg_zero]
      rw [this, mul_zero]
    rw [hz] at hR
    have : x i = v i := if_pos hi
    rw [this] at hR
    exact hv hR.symm

end Iode.Lin
