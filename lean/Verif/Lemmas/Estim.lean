import Verif.Model.Estim
import Verif.Spec.Estim
import Verif.Props.C54
import Mathlib.Algebra.BigOperators.Ring.Finset
import Mathlib.Algebra.Order.BigOperators.Ring.Finset
import Mathlib.Tactic.Ring
import Mathlib.Tactic.FieldSimp
import Mathlib.Tactic.LinearCombination

namespace Iode.Estim

open Iode.Lin Iode.Spec.Estim Iode.Spec.Linear Finset

variable {K : Type} [Field K] [LinearOrder K] [IsStrictOrderedRing K]

theorem sum0 (f : Nat → K) (n : Nat) : sumLoop f n 0 0 = ∑ j ∈ range n, f j := by
  rw [sumLoop_eq, zero_add]
  exact sum_congr rfl fun j _ => by rw [Nat.zero_add]

/-! ### The bilinear form behind `gmg` and `gmu` -/

def bil (p : Prob K) (d w : Nat → Nat → K) (on : Bool) (f h : Nat → Nat → K) : K :=
  sumLoop (fun i => sumLoop (fun t => f i t *
    proj p d on (fun t => sumLoop (fun j => h j t * w i j) p.neq 0 0) t) p.T 0 0) p.neq 0 0

theorem gmg_eq (p : Prob K) (d w : Nat → Nat → K) (g : Nat → Nat → Nat → K) (a b : Nat) :
    gmg p d w g a b = bil p d w (decide (1 < nInstr p)) (g a) (g b) := rfl

theorem gmu_eq (p : Prob K) (d w : Nat → Nat → K) (g : Nat → Nat → Nat → K) (u : Nat → Nat → K) (a : Nat) :
    gmu p d w g u a = bil p d w (decide (1 ≤ nInstr p)) (g a) u := rfl

/-- The kernel of `proj`. -/
def kern (d : Nat → Nat → K) (on : Bool) (t s : Nat) : K := if on then d t s else if t = s then 1 else 0

theorem proj_eq (p : Prob K) (d : Nat → Nat → K) (on : Bool) (v : Nat → K) {t : Nat} (ht : t < p.T) :
    proj p d on v t = ∑ s ∈ range p.T, kern d on t s * v s := by
  unfold proj kern
  cases on with
  | true => simp only [if_true]; exact sum0 _ _
  | false =>
    simp only [Bool.false_eq_true, if_false]
    rw [sum_eq_single t]
    · rw [if_pos rfl, one_mul]
    · intro s _ hs
      rw [if_neg (Ne.symm hs), zero_mul]
    · intro h
      exact absurd (mem_range.2 ht) h

theorem bil_eq (p : Prob K) (d w : Nat → Nat → K) (on : Bool) (f h : Nat → Nat → K) :
    bil p d w on f h = ∑ i ∈ range p.neq, ∑ j ∈ range p.neq, w i j *
      ∑ t ∈ range p.T, ∑ s ∈ range p.T, f i t * kern d on t s * h j s := by
  unfold bil
  rw [sum0]
  refine sum_congr rfl fun i _ => ?_
  rw [sum0]
  have h1 : ∀ t ∈ range p.T, f i t * proj p d on (fun t => sumLoop (fun j => h j t * w i j) p.neq 0 0) t =
      ∑ j ∈ range p.neq, ∑ s ∈ range p.T, w i j * (f i t * kern d on t s * h j s) := by
    intro t ht
    rw [proj_eq p d on _ (mem_range.1 ht), mul_sum, sum_comm]
    refine sum_congr rfl fun s _ => ?_
    rw [sum0, mul_sum, mul_sum]
    exact sum_congr rfl fun j _ => by ring
  rw [sum_congr rfl h1, sum_comm]
  refine sum_congr rfl fun j _ => ?_
  rw [mul_sum]
  exact sum_congr rfl fun t _ => by rw [mul_sum]

theorem bil_lin (p : Prob K) (d w : Nat → Nat → K) (on : Bool) (f u g : Nat → Nat → K) (l : K) :
    bil p d w on f (fun i t => u i t - l * g i t) = bil p d w on f u - l * bil p d w on f g := by
  simp only [bil_eq]
  rw [mul_sum, ← sum_sub_distrib]
  refine sum_congr rfl fun i _ => ?_
  rw [mul_sum, ← sum_sub_distrib]
  refine sum_congr rfl fun j _ => ?_
  have : ∑ t ∈ range p.T, ∑ s ∈ range p.T, f i t * kern d on t s * (u j s - l * g j s) =
      ∑ t ∈ range p.T, ∑ s ∈ range p.T, f i t * kern d on t s * u j s -
      l * ∑ t ∈ range p.T, ∑ s ∈ range p.T, f i t * kern d on t s * g j s := by
    rw [mul_sum, ← sum_sub_distrib]
    refine sum_congr rfl fun t _ => ?_
    rw [mul_sum, ← sum_sub_distrib]
    exact sum_congr rfl fun s _ => by ring
  rw [this]
  ring

theorem bil_sub (p : Prob K) (d w : Nat → Nat → K) (on : Bool) (f u : Nat → Nat → K) (l : Nat → K)
    (g : Nat → Nat → Nat → K) : ∀ n : Nat,
    bil p d w on f (fun i t => u i t - ∑ b ∈ range n, l b * g b i t) =
      bil p d w on f u - ∑ b ∈ range n, l b * bil p d w on f (g b)
  | 0 => by simp
  | n + 1 => by
    rw [sum_range_succ, ← sub_sub, ← bil_sub p d w on f u l g n, ← bil_lin]
    congr 1
    funext i t
    rw [sum_range_succ, sub_sub]

/-! ### Linear blocks -/

/-- The block that `p` stands for. -/
def block (p : Prob K) (a : Nat → Nat → K) (x : Nat → Nat → Nat → K) : Block K := ⟨p.neq, p.nc, p.T, p.lhs, a, x⟩

/-- The right hand sides are linear in the coefficients, and the relaxation parameters are 0 or 1. -/
structure IsLinear (p : Prob K) (a : Nat → Nat → K) (x : Nat → Nat → Nat → K) : Prop where
  rhs : ∀ i c t, i < p.neq → t < p.T → p.rhs i c t = some (a i t + ∑ k ∈ range p.nc, c k * x i k t)
  inEq : ∀ k i, i < p.neq → p.inEq k i = false → ∀ t, x i k t = 0
  relax : ∀ k, k < p.nc → p.relax k = 0 ∨ p.relax k = 1

/-- The coefficients that are estimated. -/
def Free (p : Prob K) (k : Nat) : Prop := k < p.nc ∧ p.relax k ≠ 0

/-- No estimated coefficient is taken for zero. -/
def Regular (p : Prob K) (c : Nat → K) : Prop := ∀ k, Free p k → tiny (c k) = false

omit [IsStrictOrderedRing K] in
theorem mem_est {p : Prob K} {k : Nat} : k ∈ est p ↔ Free p k := by
  simp [est, Free]

variable {p : Prob K} {a : Nat → Nat → K} {x : Nat → Nat → Nat → K}

theorem est_nce (hl : IsLinear p a x) : (est p).length = nce p := by
  unfold est nce
  congr 1
  refine List.filter_congr fun k hk => ?_
  rcases hl.relax k (List.mem_range.1 hk) with h | h
  · rw [h]; simp
  · rw [h]; simp

/-- The columns of the estimated coefficients. -/
def design (p : Prob K) (x : Nat → Nat → Nat → K) (j i t : Nat) : K :=
  if j < nce p ∧ i < p.neq ∧ t < p.T then x i ((est p).getD j 0) t else 0

theorem sum_set (n : Nat) (c f : Nat → K) {k : Nat} (hk : k < n) (v : K) :
    ∑ m ∈ range n, set c k v m * f m = ∑ m ∈ range n, c m * f m + (v - c k) * f k := by
  have h : ∀ m ∈ range n, set c k v m * f m = c m * f m + (if m = k then (v - c k) * f k else 0) := by
    intro m _
    unfold set
    split
    · next h => subst h; ring
    · ring
  rw [sum_congr rfl h, sum_add_distrib, sum_ite_eq' (range n) k, if_pos (mem_range.2 hk)]

theorem rhsMat_linear (hl : IsLinear p a x) (c : Nat → K) :
    ∃ r, rhsMat p c = some r ∧ ∀ i t, i < p.neq → t < p.T → r i t = a i t + ∑ k ∈ range p.nc, c k * x i k t := by
  refine ⟨fun i t => (p.rhs i c t).getD 0, ?_, fun i t hi ht => by simp only [hl.rhs i c t hi ht, Option.getD_some]⟩
  rw [rhsMat, if_pos]
  rw [List.all_eq_true]
  intro i hi
  rw [List.all_eq_true]
  intro t ht
  rw [hl.rhs i c t (List.mem_range.1 hi) (List.mem_range.1 ht)]
  rfl

theorem modRes_linear (hl : IsLinear p a x) {c : Nat → K} {r : Nat → Nat → K}
    (hr : ∀ i t, i < p.neq → t < p.T → r i t = a i t + ∑ k ∈ range p.nc, c k * x i k t)
    {k : Nat} (hk : k < p.nc) (hc : c k ≠ 0) :
    ∃ row, modRes p k (set c k (c k * (1 + 1 / 10 ^ 4))) r (c k * (1 / 10 ^ 4)) = some row ∧
      ∀ i t, i < p.neq → t < p.T → row i t = x i k t := by
  refine ⟨_, if_pos ?_, fun i t hi ht => ?_⟩
  · rw [List.all_eq_true]
    intro i hi
    rw [Bool.or_eq_true, List.all_eq_true]
    right
    intro t ht
    rw [hl.rhs i _ t (List.mem_range.1 hi) (List.mem_range.1 ht)]
    rfl
  · show (if p.inEq k i then ((p.rhs i (set c k (c k * (1 + 1 / 10 ^ 4))) t).getD 0 - r i t) / (c k * (1 / 10 ^ 4)) else 0) = _
    cases he : p.inEq k i with
    | false =>
      rw [if_neg Bool.false_ne_true]
      exact (hl.inEq k i hi he t).symm
    | true =>
      rw [if_pos rfl, hl.rhs i _ t hi ht, Option.getD_some, hr i t hi ht, sum_set p.nc c (fun m => x i m t) hk]
      field_simp
      ring

theorem ne_of_regular {c : Nat → K} (hc : Regular p c) {k : Nat} (hk : Free p k) : c k ≠ 0 := by
  intro h
  have := hc k hk
  rw [h, tiny, abs_zero, decide_eq_false_iff_not] at this
  exact this (by positivity)

omit [Field K] [LinearOrder K] [IsStrictOrderedRing K] in
theorem set_self (c : Nat → K) (k : Nat) : set c k (c k) = c := by
  funext i
  unfold set
  split
  · next h => rw [h]
  · rfl

theorem jac_linear (hl : IsLinear p a x) {c : Nat → K} (hc : Regular p c) {r : Nat → Nat → K}
    (hr : ∀ i t, i < p.neq → t < p.T → r i t = a i t + ∑ k ∈ range p.nc, c k * x i k t) :
    ∀ (ks : List Nat) (j : Nat) (g : Nat → Nat → Nat → K), (∀ k ∈ ks, Free p k) → j + ks.length ≤ nce p →
    ∃ g', jac p r ks j c g = .ok (c, g') ∧ ∀ m i t, i < p.neq → t < p.T →
      g' m i t = if j ≤ m ∧ m < j + ks.length then x i (ks.getD (m - j) 0) t else g m i t
  | [], j, g, _, _ => ⟨g, rfl, fun m i t _ _ => by rw [if_neg]; simp⟩
  | k :: ks, j, g, hf, hn => by
    rw [List.length_cons] at hn
    have hk := hf k (List.mem_cons_self ..)
    obtain ⟨row, h1, h2⟩ := modRes_linear hl hr hk.1 (ne_of_regular hc hk)
    obtain ⟨g', h3, h4⟩ := jac_linear hl hc hr ks (j + 1) (set g j row) (fun k' h => hf k' (List.mem_cons_of_mem _ h)) (by omega)
    refine ⟨g', ?_, fun m i t hi ht => ?_⟩
    · rw [jac, if_neg (by omega)]
      simp only [hc k hk, Bool.false_eq_true, if_false, h1, set_self]
      exact h3
    · rw [h4 m i t hi ht, List.length_cons]
      by_cases hm : m = j
      · subst hm
        rw [if_neg (by omega), if_pos (by omega), Nat.sub_self, List.getD_cons_zero, set, if_pos rfl, h2 i t hi ht]
      · by_cases hin : j + 1 ≤ m ∧ m < j + 1 + ks.length
        · rw [if_pos hin, if_pos (by omega), show m - j = (m - (j + 1)) + 1 by omega, List.getD_cons_succ]
        · rw [if_neg hin, if_neg (by omega), set, if_neg hm]

omit [LinearOrder K] [IsStrictOrderedRing K] in
theorem inner_congr {T : Nat} {f f' h h' : Nat → K} (k : Nat → Nat → K) (hf : ∀ t, t < T → f t = f' t) (hh : ∀ t, t < T → h t = h' t) :
    ∑ t ∈ range T, ∑ s ∈ range T, f t * k t s * h s = ∑ t ∈ range T, ∑ s ∈ range T, f' t * k t s * h' s :=
  sum_congr rfl fun t ht => sum_congr rfl fun s hs => by rw [hf t (mem_range.1 ht), hh s (mem_range.1 hs)]

theorem bil_congr (p : Prob K) (d w : Nat → Nat → K) (on : Bool) {f f' h h' : Nat → Nat → K}
    (hf : ∀ i t, i < p.neq → t < p.T → f i t = f' i t) (hh : ∀ i t, i < p.neq → t < p.T → h i t = h' i t) :
    bil p d w on f h = bil p d w on f' h' := by
  rw [bil_eq, bil_eq]
  refine sum_congr rfl fun i hi => sum_congr rfl fun j hj => ?_
  rw [inner_congr (kern d on) (fun t ht => hf i t (mem_range.1 hi) ht) (fun t ht => hh j t (mem_range.1 hj) ht)]

/-- The matrix of the normal equations. -/
def normal (p : Prob K) (x : Nat → Nat → Nat → K) (d w : Nat → Nat → K) : Nat → Nat → K := gmg p d w (design p x)

/-- Their right hand side at `c`. -/
def normalB (p : Prob K) (a : Nat → Nat → K) (x : Nat → Nat → Nat → K) (d w : Nat → Nat → K) (c : Nat → K) (j : Nat) : K :=
  bil p d w (decide (1 < nInstr p)) (design p x j) (resid (block p a x) c)

theorem iter_linear (hl : IsLinear p a x) (h4 : p.met ≠ 4) (h1 : nInstr p ≠ 1) (d : Nat → Nat → K) {s : St K}
    (hc : Regular p s.c) (hg : ∀ m i t, nce p ≤ m → i < p.neq → t < p.T → s.g m i t = 0) :
    match mSolve (nce p) ⟨normal p x d s.ivcu, normalB p a x d s.ivcu s.c⟩ s.dc with
    | none => iter p d s = .err s.c
    | some dc => ∃ s', iter p d s = .ok s' ∧ s'.c = adapt p dc (est p) 0 s.c ∧ s'.ivcu = s.ivcu ∧ s'.it = s.it + 1 ∧
        (∀ m i t, i < p.neq → t < p.T → s'.g m i t = design p x m i t) ∧
        s'.conv = decide (convSum s.c dc (est p) 0 0 ≤ p.eps * p.eps) := by
  obtain ⟨r, hr1, hr2⟩ := rhsMat_linear hl s.c
  obtain ⟨g', hj1, hj2⟩ := jac_linear hl hc hr2 (est p) 0 s.g (fun k hk => mem_est.1 hk) (by rw [est_nce hl]; omega)
  have hgd : ∀ m i t, i < p.neq → t < p.T → g' m i t = design p x m i t := by
    intro m i t hi ht
    rw [hj2 m i t hi ht, est_nce hl, design, Nat.sub_zero]
    by_cases hm : m < nce p
    · rw [if_pos ⟨by omega, by omega⟩, if_pos ⟨hm, hi, ht⟩]
    · rw [if_neg (by omega), if_neg (by tauto), hg m i t (by omega) hi ht]
  have hN : gmg p d s.ivcu g' = normal p x d s.ivcu := by
    funext m n
    exact bil_congr p d s.ivcu _ (hgd m) (hgd n)
  have hB : gmu p d s.ivcu g' (fun i t => p.lhs i t - r i t) = normalB p a x d s.ivcu s.c := by
    funext m
    rw [gmu_eq, normalB, show decide (1 ≤ nInstr p) = decide (1 < nInstr p) by simp; omega]
    refine bil_congr p d s.ivcu _ (hgd m) (fun i t hi ht => ?_)
    rw [hr2 i t hi ht]
    rfl
  have hget : getC p s.c = s.c := by
    funext k
    rw [getC]
    by_cases hk : Free p k
    · rw [hc k hk]; simp
    · rw [if_neg]
      simp only [Free] at hk
      simp only [Bool.and_eq_true, decide_eq_true_eq]
      tauto
  have hit : iter p d s = iterG p d s (fun i t => p.lhs i t - r i t) s.c g' := by
    rw [iter, hr1]
    simp only [hj1]
  rw [hit, iterG]
  simp only [if_neg h4, hN, hB, hget]
  cases mSolve (nce p) ⟨normal p x d s.ivcu, normalB p a x d s.ivcu s.c⟩ s.dc with
  | none => rfl
  | some dc => exact ⟨_, rfl, rfl, rfl, rfl, hgd, rfl⟩

/-! ### The step -/

theorem getD_lt (ks : List Nat) {m : Nat} (hm : m < ks.length) : ks.getD m 0 = ks[m] := by
  simp [List.getD_eq_getElem?_getD, hm]

omit [LinearOrder K] [IsStrictOrderedRing K] in
theorem adapt_off (dc : Nat → K) : ∀ (ks : List Nat) (j : Nat) (c : Nat → K) (k : Nat), k ∉ ks → adapt p dc ks j c k = c k
  | [], _, _, _, _ => rfl
  | k' :: ks, j, c, k, h => by
    rw [List.mem_cons, not_or] at h
    rw [adapt, adapt_off dc ks _ _ k h.2, set, if_neg h.1]

theorem adapt_sum (hl : IsLinear p a x) (dc f : Nat → K) : ∀ (ks : List Nat) (j : Nat) (c : Nat → K), (∀ k ∈ ks, Free p k) →
    ∑ k ∈ range p.nc, adapt p dc ks j c k * f k =
      ∑ k ∈ range p.nc, c k * f k + ∑ m ∈ range ks.length, dc (j + m) * f (ks.getD m 0)
  | [], _, _, _ => by simp [adapt]
  | k :: ks, j, c, h => by
    have hk := h k (List.mem_cons_self ..)
    have h1 : p.relax k = 1 := (hl.relax k hk.1).resolve_left hk.2
    rw [adapt, adapt_sum hl dc f ks (j + 1) _ (fun k' h' => h k' (List.mem_cons_of_mem _ h')), sum_set p.nc c f hk.1,
      List.length_cons, sum_range_succ']
    simp only [List.getD_cons_succ, List.getD_cons_zero, Nat.add_zero, h1]
    have : ∀ m ∈ range ks.length, dc (j + 1 + m) * f (ks.getD m 0) = dc (j + (m + 1)) * f (ks.getD m 0) :=
      fun m _ => by rw [show j + 1 + m = j + (m + 1) by omega]
    rw [sum_congr rfl this]
    ring

theorem adapt_to (hl : IsLinear p a x) (c' dc : Nat → K) : ∀ (ks : List Nat) (j : Nat) (c : Nat → K), (∀ k ∈ ks, Free p k) →
    ks.Nodup → (∀ m, m < ks.length → dc (j + m) = c' (ks.getD m 0) - c (ks.getD m 0)) →
    ∀ k ∈ ks, adapt p dc ks j c k = c' k
  | k :: ks, j, c, h, hn, hd, k', hk' => by
    have hk := h k (List.mem_cons_self ..)
    have h1 : p.relax k = 1 := (hl.relax k hk.1).resolve_left hk.2
    rw [List.nodup_cons] at hn
    have hd0 : dc j = c' k - c k := by simpa using hd 0 (by simp)
    rw [adapt]
    by_cases he : k' = k
    · subst he
      rw [adapt_off dc ks _ _ k' hn.1, set, if_pos rfl, h1, hd0]
      ring
    · refine adapt_to hl c' dc ks (j + 1) _ (fun k' h' => h k' (List.mem_cons_of_mem _ h')) hn.2 (fun m hm => ?_) k'
        ((List.mem_cons.1 hk').resolve_left he)
      have := hd (m + 1) (by rw [List.length_cons]; omega)
      rw [List.getD_cons_succ] at this
      rw [show j + 1 + m = j + (m + 1) by omega, this, set, if_neg]
      intro hkm
      apply hn.1
      rw [← hkm, getD_lt _ hm]
      exact List.getElem_mem hm

omit [IsStrictOrderedRing K] in
theorem est_nodup (p : Prob K) : (est p).Nodup := List.nodup_range.filter _

theorem resid_adapt (hl : IsLinear p a x) (dc c : Nat → K) {i t : Nat} (hi : i < p.neq) (ht : t < p.T) :
    resid (block p a x) (adapt p dc (est p) 0 c) i t =
      resid (block p a x) c i t - ∑ m ∈ range (nce p), dc m * design p x m i t := by
  rw [resid, resid]
  simp only [block]
  rw [adapt_sum hl dc (fun k => x i k t) (est p) 0 c (fun k hk => mem_est.1 hk), est_nce hl]
  have : ∀ m ∈ range (nce p), dc (0 + m) * x i ((est p).getD m 0) t = dc m * design p x m i t := by
    intro m hm
    rw [design, if_pos ⟨mem_range.1 hm, hi, ht⟩, Nat.zero_add]
  rw [sum_congr rfl this]
  ring

/-- The difference of two choices of the estimated coefficients. -/
def delta (p : Prob K) (c c' : Nat → K) (m : Nat) : K := c' ((est p).getD m 0) - c ((est p).getD m 0)

theorem adapt_delta (hl : IsLinear p a x) {c c' : Nat → K} (h : ∀ k, ¬ Free p k → c' k = c k) :
    adapt p (delta p c c') (est p) 0 c = c' := by
  funext k
  by_cases hk : Free p k
  · exact adapt_to hl c' _ (est p) 0 c (fun k hk => mem_est.1 hk) (est_nodup p) (fun m _ => by rw [delta, Nat.zero_add]) k
      (mem_est.2 hk)
  · rw [adapt_off _ _ _ _ _ (fun h => hk (mem_est.1 h)), h k hk]

theorem normalB_adapt (hl : IsLinear p a x) (d w : Nat → Nat → K) (dc c : Nat → K) (j : Nat) :
    normalB p a x d w (adapt p dc (est p) 0 c) j =
      normalB p a x d w c j - ∑ m ∈ range (nce p), normal p x d w j m * dc m := by
  rw [normalB, bil_congr p d w _ (fun i t _ _ => rfl) (fun i t hi ht => resid_adapt hl dc c hi ht), bil_sub]
  rw [normalB]
  congr 1
  exact sum_congr rfl fun m _ => mul_comm _ _

/-- `c` satisfies the normal equations. -/
def Normal (p : Prob K) (a : Nat → Nat → K) (x : Nat → Nat → Nat → K) (d w : Nat → Nat → K) (c : Nat → K) : Prop :=
  ∀ j, j < nce p → normalB p a x d w c j = 0

theorem normal_unique (hl : IsLinear p a x) {d w : Nat → Nat → K} (hs : ¬ Singular (nce p) (normal p x d w)) {c c' : Nat → K}
    (h : ∀ k, ¬ Free p k → c' k = c k) (hn : Normal p a x d w c) (hn' : Normal p a x d w c') : c' = c := by
  have h0 : Solves (nce p) (normal p x d w) (fun _ => 0) (delta p c c') := by
    intro j hj
    have := normalB_adapt hl d w (delta p c c') c j
    rw [adapt_delta hl h, hn j hj, hn' j hj, zero_sub, eq_comm, neg_eq_zero] at this
    exact this
  have hz : ∀ m, m < nce p → delta p c c' m = 0 := by
    intro m hm
    by_contra hne
    exact hs ⟨_, ⟨m, hm, hne⟩, h0⟩
  funext k
  by_cases hk : Free p k
  · obtain ⟨m, hm, he⟩ := List.getElem_of_mem (mem_est.2 hk)
    have := hz m (by rw [← est_nce hl]; exact hm)
    rw [delta, getD_lt _ hm, he, sub_eq_zero] at this
    exact this
  · exact h k hk

theorem convSum_zero (c dc : Nat → K) : ∀ (ks : List Nat) (j : Nat) (s : K), (∀ m, m < ks.length → dc (j + m) = 0) →
    convSum c dc ks j s = s
  | [], _, _, _ => rfl
  | k :: ks, j, s, h => by
    have h0 : dc j = 0 := by simpa using h 0 (by simp)
    rw [convSum, convSum_zero c dc ks (j + 1) _ (fun m hm => by
      rw [show j + 1 + m = j + (m + 1) by omega]; exact h (m + 1) (by rw [List.length_cons]; omega))]
    rw [h0, zero_div, abs_zero]
    split
    · next hc =>
      rw [if_pos (abs_pos.2 hc)]
      ring
    · rfl

/-! ### The loop -/

omit [IsStrictOrderedRing K] in
theorem clear_same (z : K → Bool) (r : Nat) : ∀ (f row : Nat) (s s' : Sys K), s.a = s'.a →
    (clear z r f row s).a = (clear z r f row s').a
  | 0, _, _, _, h => h
  | f + 1, row, s, s', h => by
    rw [clear, clear, h]
    split
    · exact clear_same z r f _ _ _ (by simp only [Sys.addRow, h])
    · exact clear_same z r f _ _ _ h

omit [IsStrictOrderedRing K] in
theorem pivot_same (z : K → Bool) (r : Nat) : ∀ (f k : Nat) (s s' : Sys K), s.a = s'.a →
    (pivot z r f k s).map Sys.a = (pivot z r f k s').map Sys.a
  | 0, _, _, _, _ => rfl
  | f + 1, k, s, s', h => by
    rw [pivot, pivot, h]
    split
    · simp only [Option.map_some, Sys.swap, h]
    · exact pivot_same z r f _ s s' h

omit [IsStrictOrderedRing K] in
theorem sharp_same {n : Nat} : ∀ (k r : Nat) (s s' : Sys K), s.a = s'.a → C54.sharp n k r s = C54.sharp n k r s'
  | 0, _, s, s', h => by rw [C54.sharp, C54.sharp, h]
  | k + 1, r, s, s', h => by
    rw [C54.sharp, C54.sharp, h]
    congr 1
    have hp := pivot_same isZero r (n - r) r s s' h
    by_cases hz : isZero (s'.a r r) = true
    · simp only [if_pos hz]
      revert hp
      cases pivot isZero r (n - r) r s <;> cases pivot isZero r (n - r) r s' <;> intro hp
      · rfl
      · cases hp
      · cases hp
      · exact sharp_same k (r + 1) _ _ (clear_same _ _ _ _ _ _ (Option.some.inj hp))
    · simp only [if_neg hz]
      exact sharp_same k (r + 1) _ _ (clear_same _ _ _ _ _ _ h)

/-- The elimination of the normal equations never meets a number between zero and its threshold. -/
def Sharp (p : Prob K) (x : Nat → Nat → Nat → K) (d w : Nat → Nat → K) : Prop :=
  C54.sharp (nce p) (nce p - 1) 0 ⟨normal p x d w, fun _ => 0⟩ = true

theorem iter_step (hl : IsLinear p a x) (h4 : p.met ≠ 4) (h1 : nInstr p ≠ 1) (hn : 0 < nce p) {d : Nat → Nat → K} {s : St K}
    (hsh : Sharp p x d s.ivcu) (hns : ¬ Singular (nce p) (normal p x d s.ivcu))
    (hc : Regular p s.c) (hg : ∀ m i t, nce p ≤ m → i < p.neq → t < p.T → s.g m i t = 0)
    {m : Nat → K} (hm : ∀ k, ¬ Free p k → m k = s.c k) (hmn : Normal p a x d s.ivcu m) :
    ∃ s', iter p d s = .ok s' ∧ s'.c = m ∧ s'.ivcu = s.ivcu ∧ s'.it = s.it + 1 ∧
        (∀ m i t, i < p.neq → t < p.T → s'.g m i t = design p x m i t) ∧ (0 < p.eps → s.c = m → s'.conv = true) := by
  have hi := iter_linear hl h4 h1 d hc hg
  have hsol := C54.C54_solve_partial (K := K) hn ⟨normal p x d s.ivcu, normalB p a x d s.ivcu s.c⟩ s.dc
    (by rw [← hsh]; exact sharp_same _ _ _ _ rfl)
  revert hi hsol
  cases mSolve (nce p) ⟨normal p x d s.ivcu, normalB p a x d s.ivcu s.c⟩ s.dc with
  | none => intro _ hsol; exact absurd (hsol.1.1 rfl) hns
  | some dc =>
    rintro ⟨s', e1, e2, e3, e4, e5, e6⟩ hsol
    obtain ⟨hs1, hs2⟩ := hsol.2 dc rfl
    refine ⟨s', e1, ?_, e3, e4, e5, ?_⟩
    · rw [e2]
      refine normal_unique hl hns (fun k hk => ?_) hmn (fun j hj => ?_)
      · rw [adapt_off _ _ _ _ _ (fun h => hk (mem_est.1 h)), hm k hk]
      · rw [normalB_adapt hl, (hs1 j hj : _ = normalB p a x d s.ivcu s.c j), sub_self]
    · intro heps hcm
      rw [e6, decide_eq_true_eq, convSum_zero]
      · positivity
      · intro i hi
        rw [est_nce hl] at hi
        rw [Nat.zero_add]
        refine (hs2 (fun _ => 0) (fun j hj => ?_) i hi).symm
        rw [hcm]
        simp only [mul_zero, sum_const_zero]
        exact (hmn j hj).symm

theorem loop_linear (hl : IsLinear p a x) (h4 : p.met ≠ 4) (h1 : nInstr p ≠ 1) (hn : 0 < nce p) (heps : 0 < p.eps)
    {d : Nat → Nat → K} {s : St K}
    (hsh : Sharp p x d s.ivcu) (hns : ¬ Singular (nce p) (normal p x d s.ivcu))
    (hc : Regular p s.c) (hg : ∀ m i t, nce p ≤ m → i < p.neq → t < p.T → s.g m i t = 0) (hconv : s.conv = false)
    {m : Nat → K} (hm : ∀ k, ¬ Free p k → m k = s.c k) (hmn : Normal p a x d s.ivcu m) (hmr : Regular p m)
    (hit : s.it + 2 ≤ p.maxit) (f : Nat) :
    ∃ s', loop p d (f + 2) s = .ok s' ∧ s'.c = m ∧ s'.ivcu = s.ivcu ∧ s'.it ≤ s.it + 2 ∧ s'.conv = true ∧
        (∀ m i t, i < p.neq → t < p.T → s'.g m i t = design p x m i t) := by
  obtain ⟨s1, a1, a2, a3, a4, a5, _⟩ := iter_step hl h4 h1 hn hsh hns hc hg hm hmn
  rw [loop, if_neg (by rw [hconv]; simp; omega)]
  simp only [a1]
  rw [loop]
  cases hc1 : s1.conv with
  | true =>
    rw [Bool.true_or, if_pos rfl]
    exact ⟨s1, rfl, a2, a3, by omega, hc1, a5⟩
  | false =>
    rw [if_neg (by simp; omega)]
    have hg1 : ∀ m i t, nce p ≤ m → i < p.neq → t < p.T → s1.g m i t = 0 := fun m i t h hi ht => by
      rw [a5 m i t hi ht, design, if_neg (by omega)]
    rw [← a3] at hsh hns hmn
    obtain ⟨s2, b1, b2, b3, b4, b5, b6⟩ := iter_step hl h4 h1 hn (s := s1) hsh hns (by rw [a2]; exact hmr) hg1
      (m := m) (fun k _ => by rw [a2]) hmn
    simp only [b1]
    have hc2 : s2.conv = true := b6 heps a2
    refine ⟨s2, ?_, b2, b3.trans a3, by omega, hc2, b5⟩
    cases f with
    | zero => rfl
    | succ f => rw [loop, hc2, Bool.true_or, if_pos rfl]

theorem loop_singular (hl : IsLinear p a x) (h4 : p.met ≠ 4) (h1 : nInstr p ≠ 1) (hn : 0 < nce p)
    {d : Nat → Nat → K} {s : St K}
    (hsh : Sharp p x d s.ivcu) (hns : Singular (nce p) (normal p x d s.ivcu))
    (hc : Regular p s.c) (hg : ∀ m i t, nce p ≤ m → i < p.neq → t < p.T → s.g m i t = 0) (hconv : s.conv = false)
    (hit : s.it < p.maxit) (f : Nat) : loop p d (f + 1) s = .err s.c := by
  have hi := iter_linear hl h4 h1 d hc hg
  have hsol := (C54.C54_solve_partial (K := K) hn ⟨normal p x d s.ivcu, normalB p a x d s.ivcu s.c⟩ s.dc
    (by rw [← hsh]; exact sharp_same _ _ _ _ rfl)).1.2 hns
  rw [hsol] at hi
  rw [loop, if_neg (by rw [hconv]; simp; omega)]
  simp only [hi]

/-! ### Positive weights and projections -/

/-- The quadratic form of a matrix. -/
def quad (n : Nat) (w : Nat → Nat → K) (y : Nat → K) : K := ∑ i ∈ range n, ∑ j ∈ range n, w i j * (y i * y j)

/-- Symmetric and positive definite. -/
structure Pos (n : Nat) (w : Nat → Nat → K) : Prop where
  symm : ∀ i j, i < n → j < n → w i j = w j i
  nonneg : ∀ y, 0 ≤ quad n w y
  zero : ∀ y, quad n w y = 0 → ∀ i, i < n → y i = 0

/-- A projection: what it removes is orthogonal to what it leaves. -/
def Adj (p : Prob K) (d : Nat → Nat → K) (on : Bool) : Prop :=
  ∀ f h : Nat → K, ∑ t ∈ range p.T, f t * proj p d on h t = ∑ t ∈ range p.T, proj p d on f t * proj p d on h t

theorem bil_proj {d : Nat → Nat → K} {on : Bool} (ha : Adj p d on) (w f h : Nat → Nat → K) :
    bil p d w on f h = ∑ i ∈ range p.neq, ∑ j ∈ range p.neq, w i j *
      ∑ t ∈ range p.T, proj p d on (f i) t * proj p d on (h j) t := by
  rw [bil_eq]
  refine sum_congr rfl fun i _ => sum_congr rfl fun j _ => ?_
  rw [← ha]
  congr 1
  refine sum_congr rfl fun t ht => ?_
  rw [proj_eq p d on (h j) (mem_range.1 ht), mul_sum]
  exact sum_congr rfl fun s _ => by ring

theorem bil_quad {d : Nat → Nat → K} {on : Bool} (ha : Adj p d on) (w f : Nat → Nat → K) :
    bil p d w on f f = ∑ t ∈ range p.T, quad p.neq w (fun i => proj p d on (f i) t) := by
  rw [bil_proj ha]
  simp only [quad]
  symm
  rw [sum_comm]
  refine sum_congr rfl fun i _ => ?_
  rw [sum_comm]
  refine sum_congr rfl fun j _ => ?_
  rw [mul_sum]

theorem bil_nonneg {d w : Nat → Nat → K} {on : Bool} (ha : Adj p d on) (hw : Pos p.neq w) (f : Nat → Nat → K) :
    0 ≤ bil p d w on f f := by
  rw [bil_quad ha]
  exact sum_nonneg fun t _ => hw.nonneg _

theorem bil_zero {d w : Nat → Nat → K} {on : Bool} (ha : Adj p d on) (hw : Pos p.neq w) {f : Nat → Nat → K}
    (h : bil p d w on f f = 0) {i t : Nat} (hi : i < p.neq) (ht : t < p.T) : proj p d on (f i) t = 0 := by
  rw [bil_quad ha] at h
  exact hw.zero _ ((sum_eq_zero_iff_of_nonneg fun t _ => hw.nonneg _).1 h t (mem_range.2 ht)) i hi

theorem bil_comm {d w : Nat → Nat → K} {on : Bool} (ha : Adj p d on) (hw : Pos p.neq w) (f h : Nat → Nat → K) :
    bil p d w on f h = bil p d w on h f := by
  rw [bil_proj ha, bil_proj ha, sum_comm]
  refine sum_congr rfl fun j hj => sum_congr rfl fun i hi => ?_
  rw [hw.symm i j (mem_range.1 hi) (mem_range.1 hj)]
  congr 1
  exact sum_congr rfl fun t _ => mul_comm _ _

/-- The form at a combination of columns. -/
theorem bil_sub_sub {d w : Nat → Nat → K} {on : Bool} (ha : Adj p d on) (hw : Pos p.neq w) (u : Nat → Nat → K) (n : Nat)
    (l : Nat → K) (g : Nat → Nat → Nat → K) :
    bil p d w on (fun i t => u i t - ∑ b ∈ range n, l b * g b i t) (fun i t => u i t - ∑ b ∈ range n, l b * g b i t) =
      bil p d w on u u - 2 * ∑ b ∈ range n, l b * bil p d w on (g b) u +
        ∑ b ∈ range n, l b * ∑ b' ∈ range n, bil p d w on (g b) (g b') * l b' := by
  rw [bil_sub, bil_comm ha hw _ u, bil_sub]
  have h1 : ∀ b ∈ range n, l b * bil p d w on (fun i t => u i t - ∑ b ∈ range n, l b * g b i t) (g b) =
      l b * bil p d w on (g b) u - l b * ∑ b' ∈ range n, bil p d w on (g b) (g b') * l b' := by
    intro b _
    rw [bil_comm ha hw _ (g b), bil_sub, mul_sub]
    congr 2
    exact sum_congr rfl fun b' _ => mul_comm _ _
  rw [sum_congr rfl h1, sum_sub_distrib]
  have h2 : ∀ b ∈ range n, l b * bil p d w on u (g b) = l b * bil p d w on (g b) u := fun b _ => by rw [bil_comm ha hw]
  rw [sum_congr rfl h2]
  ring

/-- The sum of the columns. -/
theorem bil_comb {d w : Nat → Nat → K} {on : Bool} (ha : Adj p d on) (hw : Pos p.neq w) (n : Nat)
    (l : Nat → K) (g : Nat → Nat → Nat → K) :
    bil p d w on (fun i t => ∑ b ∈ range n, l b * g b i t) (fun i t => ∑ b ∈ range n, l b * g b i t) =
      ∑ b ∈ range n, l b * ∑ b' ∈ range n, bil p d w on (g b) (g b') * l b' := by
  have h0 : ∀ f : Nat → Nat → K, bil p d w on f (fun _ _ => 0) = 0 := fun f => by
    rw [bil_eq]; simp
  have h := bil_sub_sub ha hw (fun _ _ => 0) n (fun b => -l b) g
  simp only [h0, mul_zero, sum_const_zero, sub_zero, zero_add] at h
  rw [show (fun i t => ∑ b ∈ range n, l b * g b i t) = fun i t => (0 : K) - ∑ b ∈ range n, -l b * g b i t by
    funext i t; rw [zero_sub, ← sum_neg_distrib]; exact sum_congr rfl fun b _ => by ring]
  rw [h]
  refine sum_congr rfl fun b _ => ?_
  rw [neg_mul, ← mul_neg, ← sum_neg_distrib]
  congr 1
  exact sum_congr rfl fun b' _ => by ring

/-- The projection that is used. -/
abbrev P (p : Prob K) (d : Nat → Nat → K) : (Nat → K) → Nat → K := proj p d (decide (1 < nInstr p))

theorem crit_eq (hl : IsLinear p a x) {d w : Nat → Nat → K} (ha : Adj p d (decide (1 < nInstr p))) (c : Nat → K) :
    crit (block p a x) w (P p d) c =
      bil p d w (decide (1 < nInstr p)) (resid (block p a x) c) (resid (block p a x) c) := by
  rw [bil_proj ha]
  rfl

theorem crit_adapt (hl : IsLinear p a x) {d w : Nat → Nat → K} (ha : Adj p d (decide (1 < nInstr p))) (hw : Pos p.neq w)
    (dc c : Nat → K) :
    crit (block p a x) w (P p d) (adapt p dc (est p) 0 c) =
      crit (block p a x) w (P p d) c - 2 * ∑ j ∈ range (nce p), dc j * normalB p a x d w c j +
        ∑ j ∈ range (nce p), dc j * ∑ j' ∈ range (nce p), normal p x d w j j' * dc j' := by
  rw [crit_eq hl ha, bil_congr p d w _ (fun i t hi ht => resid_adapt hl dc c hi ht) (fun i t hi ht => resid_adapt hl dc c hi ht),
    bil_sub_sub ha hw, ← crit_eq hl ha]
  rfl

theorem normal_nonneg {d w : Nat → Nat → K} (ha : Adj p d (decide (1 < nInstr p))) (hw : Pos p.neq w) (dc : Nat → K) :
    0 ≤ ∑ j ∈ range (nce p), dc j * ∑ j' ∈ range (nce p), normal p x d w j j' * dc j' := by
  rw [show ∑ j ∈ range (nce p), dc j * ∑ j' ∈ range (nce p), normal p x d w j j' * dc j' = _ from
    (bil_comb ha hw (nce p) dc (design p x)).symm]
  exact bil_nonneg ha hw _

theorem least_of_normal (hl : IsLinear p a x) {d w : Nat → Nat → K} (ha : Adj p d (decide (1 < nInstr p))) (hw : Pos p.neq w)
    {c : Nat → K} (h : Normal p a x d w c) : Least (Free p) (crit (block p a x) w (P p d)) c := by
  intro c' hc'
  rw [← adapt_delta hl hc', crit_adapt hl ha hw]
  have h0 : ∑ j ∈ range (nce p), delta p c c' j * normalB p a x d w c j = 0 :=
    sum_eq_zero fun j hj => by rw [h j (mem_range.1 hj), mul_zero]
  have := normal_nonneg (x := x) ha hw (delta p c c')
  rw [h0]
  linarith

theorem normal_of_least (hl : IsLinear p a x) {d w : Nat → Nat → K} (ha : Adj p d (decide (1 < nInstr p))) (hw : Pos p.neq w)
    {c : Nat → K} (h : Least (Free p) (crit (block p a x) w (P p d)) c) : Normal p a x d w c := by
  intro j hj
  have key : ∀ e : K, 0 ≤ -(2 * (e * normalB p a x d w c j)) + e * (normal p x d w j j * e) := by
    intro e
    have h1 := h (adapt p (fun m => if m = j then e else 0) (est p) 0 c)
      (fun k hk => adapt_off _ _ _ _ _ (fun h => hk (mem_est.1 h)))
    rw [crit_adapt hl ha hw] at h1
    have e1 : ∀ f : Nat → K, ∑ m ∈ range (nce p), (if m = j then e else 0) * f m = e * f j := fun f => by
      rw [sum_eq_single j]
      · rw [if_pos rfl]
      · intro m _ hm
        rw [if_neg hm, zero_mul]
      · intro hm
        exact absurd (mem_range.2 hj) hm
    have e2 : ∑ m ∈ range (nce p), normal p x d w j m * (if m = j then e else 0) = normal p x d w j j * e := by
      rw [← mul_comm e, ← e1 (fun m => normal p x d w j m)]
      exact sum_congr rfl fun m _ => mul_comm _ _
    rw [e1, e1, e2] at h1
    linarith
  have hjj : 0 ≤ normal p x d w j j := bil_nonneg ha hw _
  by_contra hne
  have := key (normalB p a x d w c j / (normal p x d w j j + 1))
  have hpos : 0 < normal p x d w j j + 1 := by linarith
  have hb : 0 < normalB p a x d w c j ^ 2 := by positivity
  have e3 : -(2 * (normalB p a x d w c j / (normal p x d w j j + 1) * normalB p a x d w c j)) +
      normalB p a x d w c j / (normal p x d w j j + 1) * (normal p x d w j j * (normalB p a x d w c j / (normal p x d w j j + 1))) =
      -(normalB p a x d w c j ^ 2 * (normal p x d w j j + 2) / (normal p x d w j j + 1) ^ 2) := by
    field_simp
    ring
  rw [e3] at this
  have : 0 < normalB p a x d w c j ^ 2 * (normal p x d w j j + 2) / (normal p x d w j j + 1) ^ 2 := by positivity
  linarith

theorem normal_zero (hl : IsLinear p a x) {d w : Nat → Nat → K} (ha : Adj p d (decide (1 < nInstr p))) (hw : Pos p.neq w)
    (hi : Independent (Free p) (block p a x) (P p d)) {l : Nat → K}
    (h : ∑ j ∈ range (nce p), l j * ∑ j' ∈ range (nce p), normal p x d w j j' * l j' = 0) : ∀ j, j < nce p → l j = 0 := by
  have hb : bil p d w (decide (1 < nInstr p)) (fun i t => ∑ b ∈ range (nce p), l b * design p x b i t)
      (fun i t => ∑ b ∈ range (nce p), l b * design p x b i t) = 0 := (bil_comb ha hw (nce p) l (design p x)).trans h
  let v : Nat → K := fun k => if k ∈ est p then l ((est p).idxOf k) else 0
  have hidx : ∀ m, m < (est p).length → (est p).idxOf ((est p).getD m 0) = m := fun m hm => by
    rw [getD_lt _ hm]
    exact (est_nodup p).idxOf_getElem m hm
  have hv : adapt p l (est p) 0 (fun _ => 0) = v := by
    funext k
    by_cases hk : k ∈ est p
    · refine adapt_to hl v l (est p) 0 _ (fun k hk => mem_est.1 hk) (est_nodup p) (fun m hm => ?_) k hk
      have : (est p).getD m 0 ∈ est p := by rw [getD_lt _ hm]; exact List.getElem_mem hm
      simp only [v]
      rw [if_pos this, hidx m hm, Nat.zero_add, sub_zero]
    · rw [adapt_off _ _ _ _ _ hk]
      simp only [v]
      rw [if_neg hk]
  have hz := hi v (fun k hk => by
      simp only [v]
      exact if_neg fun h => hk (mem_est.1 h)) (fun i hi t ht => by
    rw [← bil_zero ha hw hb hi ht]
    simp only [P]
    rw [proj_eq _ _ _ _ ht, proj_eq _ _ _ _ ht]
    refine sum_congr rfl fun s hs => ?_
    congr 1
    have hsum := adapt_sum hl l (fun k => x i k s) (est p) 0 (fun _ => 0) (fun k hk => mem_est.1 hk)
    rw [hv] at hsum
    simp only [block]
    rw [hsum, est_nce hl]
    simp only [zero_mul, sum_const_zero, zero_add]
    refine sum_congr rfl fun m hm => ?_
    rw [design, if_pos ⟨mem_range.1 hm, hi, mem_range.1 hs⟩])
  intro j hj
  rw [← est_nce hl] at hj
  have hmem : (est p).getD j 0 ∈ est p := by rw [getD_lt _ hj]; exact List.getElem_mem hj
  have := hz _ (mem_est.1 hmem).1
  simp only [v] at this
  rw [if_pos hmem, hidx j hj] at this
  exact this

theorem normal_regular (hl : IsLinear p a x) {d w : Nat → Nat → K} (ha : Adj p d (decide (1 < nInstr p))) (hw : Pos p.neq w)
    (hi : Independent (Free p) (block p a x) (P p d)) : ¬ Singular (nce p) (normal p x d w) := by
  rintro ⟨l, ⟨j, hj, hlj⟩, hs⟩
  refine hlj (normal_zero hl ha hw hi ?_ j hj)
  exact sum_eq_zero fun i hi => by rw [(hs i (mem_range.1 hi) : _ = (0 : K)), mul_zero]

theorem normal_inverse (hl : IsLinear p a x) {d w : Nat → Nat → K} (ha : Adj p d (decide (1 < nInstr p))) (hw : Pos p.neq w)
    (hi : Independent (Free p) (block p a x) (P p d)) :
    ∃ b, inv1 (nce p) (normal p x d w) = some b ∧ IsInverse (nce p) (normal p x d w) b := by
  refine C54.C54_positive _ fun v hv => lt_of_le_of_ne (normal_nonneg ha hw v) fun h => ?_
  obtain ⟨j, hj, hne⟩ := hv
  exact hne (normal_zero hl ha hw hi h.symm j hj)

/-! ### The weights -/

omit [IsStrictOrderedRing K] in
theorem quad_one (n : Nat) (y : Nat → K) : quad n (fun i j => if i = j then 1 else 0) y = ∑ i ∈ range n, y i ^ 2 := by
  unfold quad
  refine sum_congr rfl fun i hi => ?_
  rw [sum_eq_single i]
  · simp only [if_true]; ring
  · intro j _ hj
    simp only [if_neg (Ne.symm hj), zero_mul]
  · intro h
    exact absurd hi h

theorem pos_one (n : Nat) : Pos (K := K) n fun i j => if i = j then 1 else 0 where
  symm i j _ _ := by simp only [eq_comm]
  nonneg y := by rw [quad_one]; exact sum_nonneg fun i _ => sq_nonneg _
  zero y h i hi := by
    rw [quad_one] at h
    have := (sum_eq_zero_iff_of_nonneg fun i _ => sq_nonneg _).1 h i (mem_range.2 hi)
    exact pow_eq_zero_iff (two_ne_zero) |>.1 this

theorem vcu_quad (p : Prob K) (u : Nat → Nat → K) (y : Nat → K) :
    quad p.neq (vcuOf p u) y = (1 / p.T) * ∑ t ∈ range p.T, (∑ i ∈ range p.neq, y i * u i t) ^ 2 := by
  have h1 : ∀ t ∈ range p.T, (∑ i ∈ range p.neq, y i * u i t) ^ 2 =
      ∑ i ∈ range p.neq, ∑ j ∈ range p.neq, (y i * u i t) * (y j * u j t) := fun t _ => by rw [sq, sum_mul_sum]
  rw [sum_congr rfl h1, sum_comm, mul_sum]
  unfold quad
  refine sum_congr rfl fun i _ => ?_
  rw [sum_comm, mul_sum]
  refine sum_congr rfl fun j _ => ?_
  rw [vcuOf, sum0, sum_mul, sum_mul, mul_sum]
  exact sum_congr rfl fun t _ => by ring

theorem pos_vcu (hT : 0 < p.T) {u : Nat → Nat → K} (hu : Distinct (block p a x) u) : Pos p.neq (vcuOf p u) where
  symm i j _ _ := by
    rw [vcuOf, vcuOf, sum0, sum0]
    congr 1
    exact sum_congr rfl fun t _ => mul_comm _ _
  nonneg y := by
    rw [vcu_quad]
    have : (0 : K) < p.T := Nat.cast_pos.2 hT
    have h2 : 0 ≤ ∑ t ∈ range p.T, (∑ i ∈ range p.neq, y i * u i t) ^ 2 := sum_nonneg fun t _ => sq_nonneg _
    positivity
  zero y h := by
    rw [vcu_quad] at h
    have hT' : (p.T : K) ≠ 0 := Nat.cast_ne_zero.2 (by omega)
    rcases mul_eq_zero.1 h with h | h
    · exact absurd h (one_div_ne_zero hT')
    · refine hu y fun t ht => ?_
      have := (sum_eq_zero_iff_of_nonneg fun t _ => sq_nonneg _).1 h t (mem_range.2 ht)
      exact pow_eq_zero_iff (two_ne_zero) |>.1 this

theorem quad_eq (n : Nat) (w : Nat → Nat → K) (y : Nat → K) :
    quad n w y = ∑ i ∈ range n, y i * ∑ j ∈ range n, w i j * y j := by
  unfold quad
  refine sum_congr rfl fun i _ => ?_
  rw [mul_sum]
  exact sum_congr rfl fun j _ => by ring

/-- A positive matrix has an inverse, which is positive. -/
theorem pos_inverse {n : Nat} {v : Nat → Nat → K} (hv : Pos n v) :
    ∃ w, inv1 n v = some w ∧ IsInverse n v w ∧ Pos n w := by
  obtain ⟨w, h1, h2⟩ := C54.C54_positive v fun y hy => lt_of_le_of_ne (by rw [← quad_eq]; exact hv.nonneg y) fun h => by
    obtain ⟨j, hj, hne⟩ := hy
    rw [← quad_eq] at h
    exact hne (hv.zero y h.symm j hj)
  have hsol := C54.C54_inverse_solves h1
  have hq : ∀ y, quad n w y = quad n v (fun i => ∑ j ∈ range n, w i j * y j) := by
    intro y
    have hs := (hsol (fun i => ∑ j ∈ range n, w i j * y j) y).2 fun i _ => rfl
    rw [quad_eq, quad_eq]
    refine sum_congr rfl fun i hi => ?_
    rw [(hs i (mem_range.1 hi) : _ = y i), mul_comm]
  refine ⟨w, h1, h2, ⟨fun i j hi hj => ?_, fun y => by rw [hq]; exact hv.nonneg _, fun y h i hi => ?_⟩⟩
  · have e1 : ∑ k ∈ range n, ∑ l ∈ range n, w k i * v k l * w l j = w j i := by
      have : ∀ k ∈ range n, ∑ l ∈ range n, w k i * v k l * w l j = if k = j then w k i else 0 := fun k hk => by
        simp only [mul_assoc]
        rw [← mul_sum, h2.1 k j (mem_range.1 hk) hj]
        split <;> simp
      rw [sum_congr rfl this, sum_ite_eq', if_pos (mem_range.2 hj)]
    have e2 : ∑ k ∈ range n, ∑ l ∈ range n, w k i * v k l * w l j = w i j := by
      rw [sum_comm]
      have : ∀ l ∈ range n, ∑ k ∈ range n, w k i * v k l * w l j = if l = i then w l j else 0 := fun l hl => by
        rw [← sum_mul]
        have : ∑ k ∈ range n, w k i * v k l = ∑ k ∈ range n, v l k * w k i :=
          sum_congr rfl fun k hk => by rw [hv.symm k l (mem_range.1 hk) (mem_range.1 hl), mul_comm]
        rw [this, h2.1 l i (mem_range.1 hl) hi]
        split <;> simp
      rw [sum_congr rfl this, sum_ite_eq', if_pos (mem_range.2 hi)]
    rw [← e2, e1]
  · rw [hq] at h
    have hz := hv.zero _ h
    have hs := (hsol (fun i => ∑ j ∈ range n, w i j * y j) y).2 fun i _ => rfl
    rw [← (hs i hi : _ = y i)]
    exact sum_eq_zero fun j hj => by simp only [hz j (mem_range.1 hj), mul_zero]

/-! ### The instruments -/

theorem adj_off (p : Prob K) (d : Nat → Nat → K) : Adj p d false := fun f h => by
  simp [proj]

theorem fit_instr {d : Nat → Nat → K} (h : instrMat p = some d) : Fit p.T (p.ninst + 1) (instr p) (proj p d true) := by
  obtain ⟨b, hb, rfl⟩ := Option.map_eq_some_iff.1 h
  intro v
  let cz : Nat → K := fun j => ∑ s ∈ range p.T, instr p s j * v s
  let l : Nat → K := fun i => ∑ j ∈ range (p.ninst + 1), b i j * cz j
  have hP : ∀ t, proj p (fun t s => sumLoop (fun j => sumLoop (fun i => instr p t i * b i j) (p.ninst + 1) 0 0 * instr p s j)
      (p.ninst + 1) 0 0) true v t = ∑ i ∈ range (p.ninst + 1), l i * instr p t i := by
    intro t
    simp only [proj, if_true, sum0, l, cz]
    simp only [sum_mul, mul_sum]
    rw [sum_comm]
    refine (sum_congr rfl fun j _ => sum_comm).trans (sum_comm.trans ?_)
    exact sum_congr rfl fun i _ => sum_congr rfl fun j _ => sum_congr rfl fun s _ => by ring
  refine ⟨⟨l, hP⟩, fun i hi => ?_⟩
  have hs := (C54.C54_inverse_solves hb l cz).2 fun i _ => rfl
  have hi' : _ = cz i := hs i hi
  simp only [hP, mul_sub, sum_sub_distrib]
  rw [show ∑ t ∈ range p.T, instr p t i * v t = cz i from rfl, ← hi', sub_eq_zero]
  simp only [sum0, mul_sum, sum_mul]
  rw [sum_comm]
  exact sum_congr rfl fun t _ => sum_congr rfl fun j _ => by ring

theorem adj_fit {m : Nat} {z : Nat → Nat → K} {d : Nat → Nat → K} (h : Fit p.T m z (proj p d true)) : Adj p d true := by
  intro f g
  obtain ⟨l, hg⟩ := (h g).1
  have horth := (h f).2
  rw [← sub_eq_zero, ← sum_sub_distrib]
  have : ∀ t ∈ range p.T, f t * proj p d true g t - proj p d true f t * proj p d true g t =
      ∑ i ∈ range m, l i * (z t i * (f t - proj p d true f t)) := fun t _ => by
    rw [hg t, ← sub_mul, mul_sum]
    exact sum_congr rfl fun i _ => by ring
  rw [sum_congr rfl this, sum_comm]
  refine sum_eq_zero fun i hi => ?_
  rw [← mul_sum, horth i (mem_range.1 hi), mul_zero]

/-! ### A stage -/

theorem distinct_congr {u u' : Nat → Nat → K} (h : ∀ i t, i < p.neq → t < p.T → u i t = u' i t)
    (hd : Distinct (block p a x) u') : Distinct (block p a x) u := by
  intro v hv
  refine hd v fun t ht => ?_
  rw [← hv t ht]
  exact sum_congr rfl fun i hi => by rw [h i t (mem_range.1 hi) ht]

theorem stage_linear (hl : IsLinear p a x) (h4 : p.met ≠ 4) (h1 : nInstr p ≠ 1) (hn : 0 < nce p) (hT : 0 < p.T) (heps : 0 < p.eps)
    {d : Nat → Nat → K} {s : St K}
    (hsh : Sharp p x d s.ivcu) (hns : ¬ Singular (nce p) (normal p x d s.ivcu))
    (hc : Regular p s.c) (hg : ∀ m i t, nce p ≤ m → i < p.neq → t < p.T → s.g m i t = 0) (hconv : s.conv = false)
    {m : Nat → K} (hm : ∀ k, ¬ Free p k → m k = s.c k) (hmn : Normal p a x d s.ivcu m) (hmr : Regular p m)
    (hd : Distinct (block p a x) (resid (block p a x) m)) (hit : s.it + 2 ≤ p.maxit) :
    ∃ s', stage p d s = .ok s' ∧ s'.c = m ∧ s'.it ≤ s.it + 2 ∧ s'.conv = true ∧
        (∀ m i t, i < p.neq → t < p.T → s'.g m i t = design p x m i t) ∧
        (∀ i t, i < p.neq → t < p.T → s'.u i t = resid (block p a x) m i t) ∧
        s'.vcu = vcuOf p s'.u ∧ inv1 p.neq s'.vcu = some s'.ivcu ∧ IsInverse p.neq s'.vcu s'.ivcu ∧ Pos p.neq s'.ivcu ∧
        s'.vcc = normal p x d s.ivcu := by
  obtain ⟨f, hf⟩ : ∃ f, p.maxit = f + 2 := ⟨p.maxit - 2, by omega⟩
  obtain ⟨s1, a1, a2, a3, a4, a5, a6⟩ := loop_linear hl h4 h1 hn heps hsh hns hc hg hconv hm hmn hmr hit f
  obtain ⟨r, r1, r2⟩ := rhsMat_linear hl m
  have hu : ∀ i t, i < p.neq → t < p.T → p.lhs i t - r i t = resid (block p a x) m i t := fun i t hi ht => by
    rw [r2 i t hi ht]; rfl
  obtain ⟨w, w1, w2, w3⟩ := pos_inverse (pos_vcu hT (distinct_congr (u := fun i t => p.lhs i t - r i t) hu hd))
  refine ⟨{ s1 with vcc := gmg p d s1.ivcu s1.g, u := fun i t => p.lhs i t - r i t, vcu := vcuOf p fun i t => p.lhs i t - r i t,
                    ivcu := w }, ?_, a2, a4, a5, a6, hu, rfl, w1, w2, w3, ?_⟩
  · rw [stage, hf, a1]
    simp only [after, residuals, a2, r1, Option.map_some, w1]
  · show gmg p d s1.ivcu s1.g = _
    rw [a3]
    funext i j
    exact bil_congr p d s.ivcu _ (a6 i) (a6 j)

theorem getC_regular (p : Prob K) (c : Nat → K) : Regular p (getC p c) := by
  intro k hk
  rw [getC]
  simp only [Free] at hk
  split
  · rw [tiny, decide_eq_false_iff_not, not_lt, abs_of_pos (by positivity)]
    norm_num
  · next h =>
    simp only [Bool.and_eq_true, decide_eq_true_eq] at h
    cases ht : tiny (c k) with
    | false => rfl
    | true => exact absurd ⟨hk, ht⟩ h

omit [IsStrictOrderedRing K] in
theorem getC_fixed {c : Nat → K} {k : Nat} (hk : ¬ Free p k) : getC p c k = c k := by
  rw [getC, if_neg]
  simp only [Free] at hk
  simp only [Bool.and_eq_true, decide_eq_true_eq]
  tauto

theorem bil_weights (d : Nat → Nat → K) {w w' : Nat → Nat → K} (h : ∀ i j, i < p.neq → j < p.neq → w i j = w' i j) (on : Bool)
    (f g : Nat → Nat → K) : bil p d w on f g = bil p d w' on f g := by
  rw [bil_eq, bil_eq]
  exact sum_congr rfl fun i hi => sum_congr rfl fun j hj => by rw [h i j (mem_range.1 hi) (mem_range.1 hj)]

omit [LinearOrder K] [IsStrictOrderedRing K] in
theorem inverse_unique {n : Nat} {v v' w w' : Nat → Nat → K} (hv : ∀ i j, i < n → j < n → v i j = v' i j)
    (h : IsInverse n v w) (h' : IsInverse n v' w') : ∀ i j, i < n → j < n → w i j = w' i j := by
  intro i j hi hj
  have e1 : ∑ k ∈ range n, ∑ l ∈ range n, w i k * v k l * w' l j = w i j := by
    have : ∀ k ∈ range n, ∑ l ∈ range n, w i k * v k l * w' l j = if k = j then w i k else 0 := fun k hk => by
      simp only [mul_assoc]
      rw [← mul_sum, sum_congr rfl fun l hl => by rw [hv k l (mem_range.1 hk) (mem_range.1 hl)], h'.1 k j (mem_range.1 hk) hj]
      split <;> simp
    rw [sum_congr rfl this, sum_ite_eq', if_pos (mem_range.2 hj)]
  have e2 : ∑ k ∈ range n, ∑ l ∈ range n, w i k * v k l * w' l j = w' i j := by
    rw [sum_comm]
    have : ∀ l ∈ range n, ∑ k ∈ range n, w i k * v k l * w' l j = if i = l then w' l j else 0 := fun l hl => by
      rw [← sum_mul, h.2 i l hi (mem_range.1 hl)]
      split <;> simp
    rw [sum_congr rfl this, sum_ite_eq, if_pos (mem_range.2 hi)]
  rw [← e1, e2]

/-! ### Dependence -/

theorem singular_of_dependent (hl : IsLinear p a x) {d : Nat → Nat → K} (w : Nat → Nat → K) (ha : Adj p d (decide (1 < nInstr p)))
    (hi : ¬ Independent (Free p) (block p a x) (P p d)) : Singular (nce p) (normal p x d w) := by
  unfold Independent at hi
  push Not at hi
  obtain ⟨v, hv, hz, k, hk, hne⟩ := hi
  have hfree : Free p k := by
    by_contra h
    exact hne (hv k h)
  have hlt := List.idxOf_lt_length_of_mem (mem_est.2 hfree)
  refine ⟨fun j => v ((est p).getD j 0), ⟨(est p).idxOf k, by rw [← est_nce hl]; exact hlt, ?_⟩, fun j hj => ?_⟩
  · show v _ ≠ 0
    rw [getD_lt _ hlt, List.getElem_idxOf hlt]
    exact hne
  · have h1 := bil_sub p d w (decide (1 < nInstr p)) (design p x j) (fun _ _ => 0)
      (fun j => v ((est p).getD j 0)) (design p x) (nce p)
    have h00 : bil p d w (decide (1 < nInstr p)) (design p x j) (fun _ _ => 0) = 0 := by
      rw [bil_eq]; simp
    have h2 : bil p d w (decide (1 < nInstr p)) (design p x j)
        (fun i t => 0 - ∑ b ∈ range (nce p), v ((est p).getD b 0) * design p x b i t) = 0 := by
      rw [bil_proj ha]
      refine sum_eq_zero fun i _ => sum_eq_zero fun i' hi' => ?_
      rw [mul_eq_zero]
      refine Or.inr (sum_eq_zero fun t ht => ?_)
      rw [mul_eq_zero]
      refine Or.inr ?_
      have h3 := hz i' (mem_range.1 hi') t (mem_range.1 ht)
      rw [P, proj_eq _ _ _ _ (mem_range.1 ht)] at h3
      rw [proj_eq _ _ _ _ (mem_range.1 ht), ← neg_eq_zero, ← sum_neg_distrib]
      refine Eq.trans (sum_congr rfl fun s hs => ?_) h3
      rw [zero_sub, mul_neg, neg_neg]
      congr 1
      have hd := adapt_delta hl (c := fun _ => (0 : K)) (c' := v) fun k hk => hv k hk
      have hsum := adapt_sum hl (delta p (fun _ => 0) v) (fun k => x i' k s) (est p) 0 (fun _ => 0) (fun k hk => mem_est.1 hk)
      rw [hd, est_nce hl] at hsum
      simp only [zero_mul, sum_const_zero, zero_add, delta, sub_zero] at hsum
      simp only [block]
      rw [hsum]
      exact sum_congr rfl fun m hm => by rw [design, if_pos ⟨mem_range.1 hm, mem_range.1 hi', mem_range.1 hs⟩]
    rw [h2, h00, zero_sub, eq_comm, neg_eq_zero] at h1
    show ∑ b ∈ range (nce p), normal p x d w j b * v ((est p).getD b 0) = 0
    refine Eq.trans ?_ h1
    exact sum_congr rfl fun b _ => mul_comm _ _

omit [LinearOrder K] [IsStrictOrderedRing K] in
theorem cov_singular {u : Nat → Nat → K} (hd : ¬ Distinct (block p a x) u) : Singular p.neq (cov (block p a x) u) := by
  unfold Distinct at hd
  push Not at hd
  obtain ⟨v, hv, i, hi, hne⟩ := hd
  refine ⟨v, ⟨i, hi, hne⟩, fun j _ => ?_⟩
  have hterm : ∀ k ∈ range p.neq, cov (block p a x) u j k * v k = ∑ t ∈ range p.T, (u j t / (p.T : K)) * (v k * u k t) :=
    fun k _ => by
      rw [cov, div_mul_eq_mul_div, sum_mul, sum_div]
      simp only [block]
      exact sum_congr rfl fun t _ => by ring
  rw [sum_congr rfl hterm, sum_comm]
  refine sum_eq_zero fun t ht => ?_
  have hvt : ∑ i ∈ range p.neq, v i * u i t = 0 := hv t (mem_range.1 ht)
  rw [← mul_sum, hvt, mul_zero]

/-- A way to see that columns are independent. -/
theorem independent_of (hl : IsLinear p a x) {d w : Nat → Nat → K} (ha : Adj p d (decide (1 < nInstr p)))
    (h : (inv1 (nce p) (normal p x d w)).isSome = true) : Independent (Free p) (block p a x) (P p d) := by
  by_contra hi
  rw [(C54.C54_inverse_none _).2 ⟨nce p, le_rfl, singular_of_dependent hl w ha hi⟩] at h
  exact absurd h (by simp)

/-- A way to see that residuals are independent. -/
theorem distinct_of {u : Nat → Nat → K} (h : (inv1 p.neq (cov (block p a x) u)).isSome = true) : Distinct (block p a x) u := by
  by_contra hi
  rw [(C54.C54_inverse_none _).2 ⟨p.neq, le_rfl, cov_singular hi⟩] at h
  exact absurd h (by simp)

end Iode.Estim
