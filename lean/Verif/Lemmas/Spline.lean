import Verif.Model.Spline
import Verif.Spec.Spline
import Verif.Lemmas.Convert
import Mathlib.Algebra.BigOperators.Intervals
import Mathlib.Algebra.Order.BigOperators.Group.Finset
import Mathlib.Tactic.Ring
import Mathlib.Tactic.FieldSimp
import Mathlib.Tactic.Linarith

/-! # Lemmas on cubic splines -/
namespace Iode.Spline

open Iode.Convert (Kind get put get_ok put_ok)

variable {K : Type} [Field K]

theorem bindOk {α β : Type} (a : α) (f : α → Res β) : (Res.ok a).bind f = f a := rfl

theorem Known.lt {x : List (Option K)} {i : Nat} (h : Known x i) : i < x.length := by
  obtain ⟨v, h⟩ := h
  rcases Nat.lt_or_ge i x.length with g | g
  · exact g
  · rw [List.getElem?_eq_none g] at h; cases h

theorem rounds_in : ∀ (l : List (Option K)) (i : Nat), i < rounds l → Known l i ∧ i + 1 < l.length
  | [], i, h => by simp [rounds] at h
  | none :: l, i, h => by simp [rounds] at h
  | [some v], i, h => by simp [rounds] at h
  | some v :: b :: l, i, h => by
    simp only [rounds] at h
    cases i with
    | zero => exact ⟨⟨v, rfl⟩, by simp⟩
    | succ i =>
      obtain ⟨⟨w, a⟩, c⟩ := rounds_in (b :: l) i (by omega)
      exact ⟨⟨w, by simpa using a⟩, by simp at c ⊢; omega⟩

theorem rounds_stop : ∀ (l : List (Option K)), ¬ (Known l (rounds l) ∧ rounds l + 1 < l.length)
  | [], h => by simp at h
  | none :: l, h => by obtain ⟨⟨v, h⟩, _⟩ := h; simp [rounds] at h
  | [some v], h => by simp [rounds] at h
  | some v :: b :: l, h => by
    simp only [rounds] at h
    obtain ⟨⟨w, a⟩, c⟩ := h
    exact rounds_stop (b :: l) ⟨⟨w, by simpa using a⟩, by simp at c ⊢; omega⟩

theorem scale_known (s : Nat) : ∀ (l : List (Option K)) (i : Nat), (∀ j, j ≤ i → Known l j) →
    ∀ v, l[i]? = some (some v) → (scale s l)[i]? = some (some (v / (s : K)))
  | [], i, h, v, hv => by simp at hv
  | none :: l, i, h, v, hv => by obtain ⟨w, h⟩ := h 0 (by omega); simp at h
  | some a :: l, 0, h, v, hv => by simp at hv; subst hv; simp [scale]
  | some a :: l, i + 1, h, v, hv => by
    simp only [scale, List.getElem?_cons_succ]
    exact scale_known s l i (fun j hj => by obtain ⟨w, h⟩ := h (j + 1) (by omega); exact ⟨w, by simpa using h⟩) v (by simpa using hv)

theorem scale_rest (s : Nat) : ∀ (l : List (Option K)) (j i : Nat), j ≤ i → l[j]? = some none → (scale s l)[i]? = l[i]?
  | [], j, i, h, hj => by simp at hj
  | none :: l, j, i, h, hj => rfl
  | some a :: l, 0, i, h, hj => by simp at hj
  | some a :: l, j + 1, 0, h, hj => by omega
  | some a :: l, j + 1, i + 1, h, hj => by
    simp only [scale, List.getElem?_cons_succ]
    exact scale_rest s l j i (by omega) (by simpa using hj)

theorem scale_length (s : Nat) : ∀ l : List (Option K), (scale s l).length = l.length
  | [] => rfl
  | none :: l => rfl
  | some a :: l => by simp [scale, scale_length s l]

theorem scale_rounds (s : Nat) : ∀ l : List (Option K), rounds (scale s l) = rounds l
  | [] => rfl
  | none :: l => rfl
  | [some v] => rfl
  | some v :: none :: l => rfl
  | some v :: some b :: l => by
    have := scale_rounds s (some b :: l)
    simp only [scale, rounds] at this ⊢
    rw [this]

/-! ## One value -/

/-- The value between two points. -/
def cub (y y2 : Nat → K) (lo : Nat) (b : K) : K :=
  (1 - b) * y lo + b * y (lo + 1) + (((1 - b) * (1 - b) * (1 - b) - (1 - b)) * y2 lo + (b * b * b - b) * y2 (lo + 1)) / 6

theorem ycs_some (s : Nat) {y : List (Option K)} (y2 : Nat → K) {k : Nat} {l h : K} (hl : y[k / s]? = some (some l))
    (hh : y[k / s + 1]? = some (some h)) :
    ycs s y y2 (k : Int) = .ok (some (cub (val y) y2 (k / s) (((k % s : Nat) : K) / (s : K)))) := by
  unfold ycs
  rw [if_neg (by omega)]
  simp only [Int.toNat_natCast]
  unfold Iode.Convert.get
  rw [hl]
  simp only [bindOk]
  rw [hh]
  simp only [bindOk]
  unfold cub val
  rw [hl, hh]
  rfl

theorem ycs_none_left (s : Nat) {y : List (Option K)} (y2 : Nat → K) {k : Nat} (hl : y[k / s]? = some none) :
    ycs s y y2 (k : Int) = .ok none := by
  unfold ycs
  rw [if_neg (by omega)]
  simp only [Int.toNat_natCast]
  unfold Iode.Convert.get
  rw [hl]
  rfl

theorem ycs_ok (s : Nat) {y : List (Option K)} (y2 : Nat → K) {k : Int} (h : (k.toNat / s) + 1 < y.length) :
    ∃ v, ycs s y y2 k = .ok v := by
  unfold ycs
  by_cases hk : k < 0
  · exact ⟨none, by rw [if_pos hk]⟩
  · rw [if_neg hk]
    simp only []
    rw [get_ok (by omega), bindOk]
    cases y[k.toNat / s] with
    | none => exact ⟨none, rfl⟩
    | some l =>
      simp only []
      rw [get_ok h, bindOk]
      cases y[k.toNat / s + 1] with
      | none => exact ⟨none, rfl⟩
      | some h => exact ⟨_, rfl⟩

/-! ## One period -/

/-- The sum as it is kept. -/
def addTo (sum v : Option K) : Option K := match v, sum with | some v, some s => some (s + v) | _, _ => none

theorem flowFill_spec (s : Nat) (y : List (Option K)) (y2 : Nat → K) (f : Nat) (v : Nat → Option K)
    (hv : ∀ j, j < s → ycs s y y2 ((f * s + j : Nat) - 1) = .ok (v j)) : ∀ (n j : Nat) (sum : Option K) (dst : List (Option K)),
    j + n = s → f * s + s ≤ dst.length →
    ∃ r, flowFill s y y2 f n j sum dst = .ok (r, ((List.range' j n).map v).foldl addTo sum) ∧ r.length = dst.length ∧
      ∀ u, r[u]? = if f * s + j ≤ u ∧ u < f * s + s then some (v (u - f * s)) else dst[u]?
  | 0, j, sum, dst, h, hd => ⟨dst, rfl, rfl, fun u => by rw [if_neg (by omega)]⟩
  | n + 1, j, sum, dst, h, hd => by
    unfold flowFill
    rw [hv j (by omega), bindOk, put_ok (by omega), bindOk]
    obtain ⟨r, e1, e2, e3⟩ := flowFill_spec s y y2 f v hv n (j + 1) (addTo sum (v j)) (dst.set (f * s + j) (v j)) (by omega)
      (by simpa using hd)
    refine ⟨r, ?_, by simpa using e2, fun u => ?_⟩
    · rw [List.range'_succ]
      exact e1
    · rw [e3]
      by_cases h1 : f * s + (j + 1) ≤ u ∧ u < f * s + s
      · rw [if_pos h1, if_pos (by omega)]
      · rw [if_neg h1, List.getElem?_set]
        by_cases h2 : f * s + j = u
        · rw [if_pos h2, if_pos (by omega), if_pos (by omega)]
          subst h2
          congr 2
          omega
        · rw [if_neg h2, if_neg (by omega)]

theorem fold_none : ∀ l : List (Option K), l.foldl addTo none = none
  | [] => rfl
  | none :: l => fold_none l
  | some a :: l => fold_none l

theorem fold_miss : ∀ (l : List (Option K)) (s : Option K), none ∈ l → l.foldl addTo s = none
  | [], s, h => by simp at h
  | none :: l, s, h => by
    simp only [List.foldl_cons]
    exact fold_none l
  | some a :: l, s, h => by
    simp only [List.foldl_cons]
    exact fold_miss l _ (by simpa using h)

theorem fold_some (w : Nat → K) : ∀ (n j : Nat) (s : K),
    ((List.range' j n).map fun i => some (w i)).foldl addTo (some s) = some (s + ∑ i ∈ Finset.Ico j (j + n), w i)
  | 0, j, s => by simp
  | n + 1, j, s => by
    rw [List.range'_succ, List.map_cons, List.foldl_cons]
    show List.foldl addTo (some (s + w j)) _ = _
    rw [fold_some w n (j + 1) (s + w j), Finset.sum_eq_sum_Ico_succ_bot (by omega : j < j + (n + 1))]
    congr 1
    rw [show j + 1 + n = j + (n + 1) by omega]
    ring

theorem addLoop_spec (d : K) (t s : Nat) : ∀ (n j : Nat) (dst : List (Option K)), j + n = s → t + s ≤ dst.length →
    ∃ r, addLoop d t n j dst = .ok r ∧ r.length = dst.length ∧
      ∀ u, r[u]? = if t + j ≤ u ∧ u < t + s then (dst[u]?).map (Option.map (· + d)) else dst[u]?
  | 0, j, dst, h, hd => ⟨dst, rfl, rfl, fun u => by rw [if_neg (by omega)]⟩
  | n + 1, j, dst, h, hd => by
    unfold addLoop
    rw [get_ok (by omega), bindOk, put_ok (by omega), bindOk]
    obtain ⟨r, e1, e2, e3⟩ := addLoop_spec d t s n (j + 1) (dst.set (t + j) (Option.map (· + d) dst[t + j])) (by omega)
      (by simpa using hd)
    refine ⟨r, e1, by simpa using e2, fun u => ?_⟩
    rw [e3]
    by_cases h1 : t + (j + 1) ≤ u ∧ u < t + s
    · rw [if_pos h1, if_pos (by omega), List.getElem?_set, if_neg (by omega)]
    · rw [if_neg h1, List.getElem?_set]
      by_cases h2 : t + j = u
      · rw [if_pos h2, if_pos (by omega), if_pos (by omega)]
        subst h2
        rw [List.getElem?_eq_getElem (by omega)]
        rfl
      · rw [if_neg h2, if_neg (by omega)]

theorem stockFill_spec (s : Nat) (y : List (Option K)) (y2 : Nat → K) (f : Nat) (v : Nat → Option K)
    (hv : ∀ j, j < s → ycs s y y2 (f * s + j + 1 : Nat) = .ok (v j)) : ∀ (n j : Nat) (dst : List (Option K)),
    j + n = s → (f + 1) * s + s ≤ dst.length →
    ∃ r, stockFill s y y2 f n j dst = .ok r ∧ r.length = dst.length ∧
      ∀ u, r[u]? = if (f + 1) * s + j ≤ u ∧ u < (f + 1) * s + s then some (v (u - (f + 1) * s)) else dst[u]?
  | 0, j, dst, h, hd => ⟨dst, rfl, rfl, fun u => by rw [if_neg (by omega)]⟩
  | n + 1, j, dst, h, hd => by
    unfold stockFill
    rw [hv j (by omega), bindOk, put_ok (by omega), bindOk]
    obtain ⟨r, e1, e2, e3⟩ := stockFill_spec s y y2 f v hv n (j + 1) (dst.set ((f + 1) * s + j) (v j)) (by omega)
      (by simpa using hd)
    refine ⟨r, e1, by simpa using e2, fun u => ?_⟩
    rw [e3]
    by_cases h1 : (f + 1) * s + (j + 1) ≤ u ∧ u < (f + 1) * s + s
    · rw [if_pos h1, if_pos (by omega)]
    · rw [if_neg h1, List.getElem?_set]
      by_cases h2 : (f + 1) * s + j = u
      · rw [if_pos h2, if_pos (by omega), if_pos (by omega)]
        subst h2
        congr 2
        omega
      · rw [if_neg h2, if_neg (by omega)]

/-- What is computed at a position. -/
def raw (s : Nat) (y : List (Option K)) (y2 : Nat → K) (k : Int) : Option K :=
  match ycs s y y2 k with
  | .ok v => v
  | _ => none

/-- The first position written for the period `f`. -/
def off (k : Kind) (s f : Nat) : Nat := match k with | .flow => f * s | .stock => (f + 1) * s

/-- The value of the sub-period `j` of the period `f`. -/
def blk (k : Kind) (s : Nat) (y : List (Option K)) (y2 : Nat → K) (f j : Nat) : Option K :=
  match k with
  | .flow =>
    match ((List.range' 0 s).map fun i => raw s y y2 ((f * s + i : Nat) - 1)).foldl addTo (some 0) with
    | none => raw s y y2 ((f * s + j : Nat) - 1)
    | some sum => (raw s y y2 ((f * s + j : Nat) - 1)).map (· + (val y f * (s : K) - sum) / (s : K))
  | .stock => raw s y y2 (f * s + j + 1 : Nat)

theorem div_lt {f s j : Nat} (hj : j < s) : (f * s + j) / s = f := by
  rw [Nat.add_comm, Nat.add_mul_div_right _ _ (by omega), Nat.div_eq_of_lt hj, Nat.zero_add]

theorem period_spec (k : Kind) {s : Nat} (y : List (Option K)) (y2 : Nat → K) (f : Nat) (dst : List (Option K))
    (hf : f + 2 < y.length) (hd : off k s f + s ≤ dst.length) :
    ∃ r, period k s y y2 f dst = .ok r ∧ r.length = dst.length ∧
      ∀ u, r[u]? = if off k s f ≤ u ∧ u < off k s f + s then some (blk k s y y2 f (u - off k s f)) else dst[u]? := by
  cases k with
  | stock =>
    have hv : ∀ j, j < s → ycs s y y2 (f * s + j + 1 : Nat) = .ok (raw s y y2 (f * s + j + 1 : Nat)) := by
      intro j hj
      have hle : (f * s + j + 1) / s ≤ f + 1 := by
        refine Nat.le_of_lt_succ (Nat.div_lt_of_lt_mul ?_)
        have : s * (f + 1).succ = f * s + s + s := by rw [Nat.succ_eq_add_one]; ring
        omega
      obtain ⟨v, hv⟩ := ycs_ok s (y := y) y2 (k := (f * s + j + 1 : Nat)) (by rw [Int.toNat_natCast]; omega)
      unfold raw
      rw [hv]
    obtain ⟨r, e1, e2, e3⟩ := stockFill_spec s y y2 f _ hv s 0 dst (by omega) hd
    exact ⟨r, e1, e2, fun u => e3 u⟩
  | flow =>
    have hv : ∀ j, j < s → ycs s y y2 ((f * s + j : Nat) - 1) = .ok (raw s y y2 ((f * s + j : Nat) - 1)) := by
      intro j hj
      have hle : (f * s + j - 1) / s ≤ f := by
        refine Nat.le_trans (Nat.div_le_div_right (Nat.sub_le _ 1)) (Nat.le_of_eq (div_lt hj))
      obtain ⟨v, hv⟩ := ycs_ok s (y := y) y2 (k := ((f * s + j : Nat) - 1 : Int)) (by
        rw [show (((f * s + j : Nat) : Int) - 1).toNat = f * s + j - 1 by omega]; omega)
      unfold raw
      rw [hv]
    obtain ⟨r, e1, e2, e3⟩ := flowFill_spec s y y2 f (fun j => raw s y y2 ((f * s + j : Nat) - 1)) hv s 0 (some 0) dst (by omega) hd
    unfold period
    simp only []
    rw [e1, bindOk]
    simp only []
    unfold blk off at *
    simp only [] at *
    cases hs : ((List.range' 0 s).map fun i => raw s y y2 ((f * s + i : Nat) - 1)).foldl addTo (some 0) with
    | none => exact ⟨r, rfl, e2, fun u => e3 u⟩
    | some sum =>
      simp only []
      rw [get_ok (by omega), bindOk]
      obtain ⟨r', g1, g2, g3⟩ := addLoop_spec ((y[f].getD 0 * (s : K) - sum) / (s : K)) (f * s) s s 0 r (by omega) (by omega)
      refine ⟨r', g1, by omega, fun u => ?_⟩
      rw [g3, e3]
      have hval : val y f = (y[f]'(by omega)).getD 0 := by
        unfold val
        rw [List.getElem?_eq_getElem (by omega)]
        rfl
      rw [hval]
      by_cases h1 : f * s ≤ u ∧ u < f * s + s
      · rw [if_pos (by omega), if_pos (by omega), if_pos h1]
        rfl
      · rw [if_neg (by omega), if_neg (by omega), if_neg h1]

theorem off_succ (k : Kind) (s f : Nat) : off k s (f + 1) = off k s f + s := by
  cases k <;> simp only [off] <;> ring

theorem off_mono (k : Kind) (s : Nat) {f g : Nat} (h : f ≤ g) : off k s f ≤ off k s g := by
  cases k
  · exact Nat.mul_le_mul_right _ h
  · exact Nat.mul_le_mul_right _ (by omega)

theorem periods_spec (k : Kind) {s : Nat} (y : List (Option K)) (y2 : Nat → K) : ∀ (n f : Nat) (dst : List (Option K)),
    (n = 0 ∨ f + n + 1 < y.length) → (n = 0 ∨ off k s (f + n) ≤ dst.length) →
    ∃ r, periods k s y y2 n f dst = .ok r ∧ r.length = dst.length ∧
      (∀ g j, f ≤ g → g < f + n → j < s → r[off k s g + j]? = some (blk k s y y2 g j)) ∧
      ∀ u, u < off k s f ∨ off k s (f + n) ≤ u → r[u]? = dst[u]?
  | 0, f, dst, h, hd => ⟨dst, rfl, rfl, fun g j h1 h2 => by omega, fun u _ => rfl⟩
  | n + 1, f, dst, h, hd => by
    have h' : f + (n + 1) + 1 < y.length := by omega
    have hd' : off k s (f + (n + 1)) ≤ dst.length := by omega
    have hm := off_mono k s (show f + 1 ≤ f + (n + 1) by omega)
    have hs := off_succ k s f
    obtain ⟨r, e1, e2, e3⟩ := period_spec k (s := s) y y2 f dst (by omega) (by omega)
    have hfn : f + 1 + n = f + (n + 1) := by omega
    obtain ⟨r', g1, g2, g3, g4⟩ := periods_spec k (s := s) y y2 n (f + 1) r (by omega) (by rw [hfn]; omega)
    unfold periods
    rw [e1, bindOk]
    refine ⟨r', g1, by omega, fun g j h1 h2 hj => ?_, fun u hu => ?_⟩
    · by_cases hg : g = f
      · subst hg
        rw [g4 _ (by omega), e3, if_pos (by omega), Nat.add_sub_cancel_left]
      · exact g3 g j (by omega) (by omega) hj
    · rw [hfn] at g4
      rw [g4 u (by omega), e3, if_neg (by omega)]

/-! ## The runs -/

/-- A value after the division. -/
def sc (k : Kind) (s : Nat) (v : K) : K := match k with | .flow => v / (s : K) | .stock => v

theorem sck_length (k : Kind) (s beg : Nat) (y : List (Option K)) : (sck k s beg y).length = y.length := by
  cases k
  · simp only [sck, List.length_append, List.length_take, scale_length, List.length_drop]; omega
  · rfl

theorem sck_lo (k : Kind) (s : Nat) {beg i : Nat} (y : List (Option K)) (h : i < beg) (hb : beg ≤ y.length) : (sck k s beg y)[i]? = y[i]? := by
  cases k
  · simp only [sck]
    rw [List.getElem?_append_left (by rw [List.length_take]; omega), List.getElem?_take_of_lt h]
  · rfl

theorem sck_hi (s : Nat) {beg i : Nat} (y : List (Option K)) (h : beg ≤ i) (hb : beg ≤ y.length) :
    (sck .flow s beg y)[i]? = (scale s (y.drop beg))[i - beg]? := by
  simp only [sck]
  rw [List.getElem?_append_right (by rw [List.length_take]; omega), List.length_take, Nat.min_eq_left hb]

theorem sck_known (k : Kind) (s : Nat) {beg i : Nat} (y : List (Option K)) (h : beg ≤ i) (hk : ∀ j, beg ≤ j → j ≤ i → Known y j) {v : K}
    (hv : y[i]? = some (some v)) : (sck k s beg y)[i]? = some (some (sc k s v)) := by
  have hb := (hk i h (by omega)).lt
  cases k
  · rw [sck_hi s y h (by omega)]
    refine scale_known s _ _ (fun j hj => ?_) v (by rw [List.getElem?_drop, show beg + (i - beg) = i by omega]; exact hv)
    obtain ⟨w, hw⟩ := hk (beg + j) (by omega) (by omega)
    exact ⟨w, by rw [List.getElem?_drop]; exact hw⟩
  · exact hv

theorem sck_rest (k : Kind) (s : Nat) {beg i j : Nat} (y : List (Option K)) (h1 : beg ≤ j) (h2 : j ≤ i) (hj : y[j]? = some none)
    (hb : beg ≤ y.length) : (sck k s beg y)[i]? = y[i]? := by
  cases k
  · rw [sck_hi s y (by omega) hb, scale_rest s _ (j - beg) (i - beg) (by omega) (by
      rw [List.getElem?_drop, show beg + (j - beg) = j by omega]; exact hj), List.getElem?_drop, show beg + (i - beg) = i by omega]
  · rfl

theorem drop_cons {y : List (Option K)} {beg : Nat} {v : Option K} (h : y[beg]? = some v) : y.drop beg = v :: y.drop (beg + 1) := by
  have hlt : beg < y.length := by
    rcases Nat.lt_or_ge beg y.length with g | g
    · exact g
    · rw [List.getElem?_eq_none g] at h; cases h
  rw [List.getElem?_eq_getElem hlt] at h
  cases h
  exact List.drop_eq_getElem_cons hlt

theorem sck_rounds (k : Kind) (s : Nat) {beg : Nat} {y : List (Option K)} {v : K} (h : y[beg]? = some (some v)) :
    rounds ((sck k s beg y).drop beg).tail = rounds (y.drop (beg + 1)) := by
  have hd := drop_cons h
  have hlt : beg < y.length := Known.lt ⟨v, h⟩
  cases k
  · simp only [sck]
    rw [List.drop_append_of_le_length (by rw [List.length_take]; omega), List.drop_eq_nil_of_le (by rw [List.length_take]; omega), hd]
    simp only [scale, List.nil_append, List.tail_cons]
    exact scale_rounds s _
  · simp only [sck]
    rw [hd, List.tail_cons]

/-- The state in which the period `f` of `x` is computed. -/
structure Ready (k : Kind) (s : Nat) (x : List (Option K)) (f : Nat) (y : List (Option K)) (y2 : Nat → K) : Prop where
  len : y.length = x.length
  stock : k = .stock → y = x
  run : ∃ b, b ≤ f ∧ (∀ i, b ≤ i → i ≤ f + 1 → ∃ v, x[i]? = some (some v) ∧ y[i]? = some (some (sc k s v))) ∧
    (b = 0 ∨ (y[b - 1]? = some none ∧ x[b - 1]? = some none)) ∧
    (b = 0 → y = sck k s 0 x ∧ y2 = (y2cs y (fun _ => 0)).2 ∧ f < rounds x.tail)

/-- The periods that are computed. -/
def Inner (x : List (Option K)) (f : Nat) : Prop := Known x f ∧ Known x (f + 1) ∧ f + 2 < x.length

structure Inv (k : Kind) (x : List (Option K)) (beg : Nat) (y : List (Option K)) (y2 : Nat → K) : Prop where
  len : y.length = x.length
  stock : k = .stock → y = x
  same : beg + 1 = x.length ∨ ∀ i, beg ≤ i → y[i]? = x[i]?
  before : beg = 0 ∨ (y[beg - 1]? = some none ∧ x[beg - 1]? = some none) ∨ x[beg]? = some none ∨ x.length ≤ beg + 1
  start : beg = 0 → y = x ∧ y2 = fun _ => 0

theorem csLoop_spec (k : Kind) {s : Nat} (hs : 0 < s) (x : List (Option K)) : ∀ (n beg : Nat) (y : List (Option K)) (y2 : Nat → K)
    (dst : List (Option K)), Inv k x beg y y2 → x.length < n + beg → x.length * s ≤ dst.length →
    ∃ r, csLoop k s n beg y y2 dst = .ok r ∧ r.length = dst.length ∧ (∀ u, u < off k s beg → r[u]? = dst[u]?) ∧
      ∀ f, beg ≤ f →
        (Inner x f → ∃ y' y2', Ready k s x f y' y2' ∧ ∀ j, j < s → r[off k s f + j]? = some (blk k s y' y2' f j)) ∧
        (¬ Inner x f → ∀ j, j < s → r[off k s f + j]? = dst[off k s f + j]?)
  | 0, beg, y, y2, dst, hi, hn, hd => by
    refine ⟨dst, rfl, rfl, fun u _ => rfl, fun f hf => ⟨fun h => ?_, fun _ _ _ => rfl⟩⟩
    have := h.2.2
    omega
  | n + 1, beg, y, y2, dst, hi, hn, hd => by
    unfold csLoop
    cases hy : y[beg]? with
    | none =>
      have hge : x.length ≤ beg := by
        rw [← hi.len]
        rcases Nat.lt_or_ge beg y.length with g | g
        · rw [List.getElem?_eq_getElem g] at hy; cases hy
        · exact g
      refine ⟨dst, rfl, rfl, fun u _ => rfl, fun f hf => ⟨fun h => ?_, fun _ _ _ => rfl⟩⟩
      have := h.2.2
      omega
    | some o =>
      have hlt : beg < x.length := by
        rw [← hi.len]
        rcases Nat.lt_or_ge beg y.length with g | g
        · exact g
        · rw [List.getElem?_eq_none g] at hy; cases hy
      cases o with
      | none =>
        simp only []
        have hx : beg + 1 = x.length ∨ x[beg]? = some none := by
          rcases hi.same with h | h
          · exact .inl h
          · exact .inr (by rw [← h beg (by omega)]; exact hy)
        obtain ⟨r, e1, e2, e3, e4⟩ := csLoop_spec k hs x n (beg + 1) y y2 dst
          { len := hi.len, stock := hi.stock
            same := by
              rcases hi.same with h | h
              · exact .inr (fun i hi' => by rw [List.getElem?_eq_none (by rw [hi.len]; omega), List.getElem?_eq_none (by omega)])
              · exact .inr (fun i hi' => h i (by omega))
            before := by
              rcases hx with h | h
              · exact .inr (.inr (.inr (by omega)))
              · exact .inr (.inl ⟨hy, h⟩)
            start := fun h => by omega } (by omega) hd
        have hm := off_succ k s beg
        refine ⟨r, e1, e2, fun u hu => e3 u (by omega), fun f hf => ?_⟩
        by_cases hfb : f = beg
        · subst hfb
          refine ⟨fun h => ?_, fun _ j hj => e3 _ (by omega)⟩
          rcases hx with hx | hx
          · have := h.2.2; omega
          · obtain ⟨v, hv⟩ := h.1
            rw [hx] at hv; cases hv
        · exact e4 f (by omega)
      | some v0 =>
        simp only []
        have hD := sck_rounds k s hy
        have hr1 : (y2cs ((sck k s beg y).drop beg) y2).1 = rounds (y.drop (beg + 1)) := hD
        generalize hr : y2cs ((sck k s beg y).drop beg) y2 = rr at hr1
        generalize hDD : rounds (y.drop (beg + 1)) = D at hr1
        have hin : ∀ i, i < D → Known y (beg + 1 + i) ∧ beg + i + 2 < x.length := by
          intro i hi'
          obtain ⟨⟨v, a⟩, b⟩ := rounds_in (y.drop (beg + 1)) i (by omega)
          rw [List.getElem?_drop] at a
          rw [List.length_drop, hi.len] at b
          exact ⟨⟨v, a⟩, by omega⟩
        have hstop : ¬ (Known y (beg + 1 + D) ∧ beg + D + 2 < x.length) := by
          intro ⟨⟨v, a⟩, b⟩
          refine rounds_stop (y.drop (beg + 1)) ⟨⟨v, ?_⟩, ?_⟩
          · rw [List.getElem?_drop, hDD]; exact a
          · rw [List.length_drop, hi.len, hDD]; omega
        have hknown : ∀ i, beg ≤ i → i ≤ beg + D → Known y i := by
          intro i h1 h2
          by_cases h : i = beg
          · subst h; exact ⟨v0, hy⟩
          · obtain ⟨a, _⟩ := hin (i - beg - 1) (by omega)
            rwa [show beg + 1 + (i - beg - 1) = i by omega] at a
        have hlast : D = 0 ∨ beg + D + 1 < x.length := by
          rcases Nat.eq_zero_or_pos D with h | h
          · exact .inl h
          · exact .inr (by have := (hin (D - 1) (by omega)).2; omega)
        have hoff : D = 0 ∨ off k s (beg + D) ≤ dst.length := by
          rcases hlast with h | h
          · exact .inl h
          · right
            refine Nat.le_trans ?_ hd
            cases k
            · exact Nat.mul_le_mul_right _ (by omega)
            · exact Nat.mul_le_mul_right _ (by omega)
        obtain ⟨r0, a1, a2, a3, a4⟩ := periods_spec k (s := s) (sck k s beg y) rr.2 D beg dst
          (by rw [sck_length, hi.len]; exact hlast) hoff
        -- the next run
        have hnext : beg + D + 2 = x.length ∨ (∃ j, j = beg + D + 1 ∧ y[j]? = some none) ∨ x.length ≤ beg + D + 1 := by
          rcases Nat.lt_or_ge (beg + D + 1) x.length with g | g
          · cases hz : y[beg + D + 1]? with
            | none =>
              have : y.length ≤ beg + D + 1 := by
                rcases Nat.lt_or_ge (beg + D + 1) y.length with g' | g'
                · rw [List.getElem?_eq_getElem g'] at hz; cases hz
                · exact g'
              rw [hi.len] at this; omega
            | some o =>
              cases o with
              | none => exact .inr (.inl ⟨_, rfl, hz⟩)
              | some w =>
                left
                have : ¬ beg + D + 2 < x.length := fun h => hstop ⟨⟨w, by rw [show beg + 1 + D = beg + D + 1 by omega]; exact hz⟩, h⟩
                omega
          · exact .inr (.inr g)
        obtain ⟨r, e1, e2, e3, e4⟩ := csLoop_spec k hs x n (beg + D + 1) (sck k s beg y) rr.2 r0
          { len := by rw [sck_length, hi.len]
            stock := fun h => by subst h; exact hi.stock rfl
            same := by
              rcases hnext with h | ⟨j, hj, hz⟩ | h
              · exact .inl (by omega)
              · rcases hi.same with g | g
                · exact .inr (fun i hi' => by
                    rw [List.getElem?_eq_none (by rw [sck_length, hi.len]; omega), List.getElem?_eq_none (by omega)])
                · exact .inr (fun i hi' => by
                    rw [sck_rest k s y (j := j) (by omega) (by omega) hz (by rw [hi.len]; omega)]
                    exact g i (by omega))
              · exact .inr (fun i hi' => by
                  rw [List.getElem?_eq_none (by rw [sck_length, hi.len]; omega), List.getElem?_eq_none (by omega)])
            before := by
              rcases hnext with h | ⟨j, hj, hz⟩ | h
              · exact .inr (.inr (.inr (by omega)))
              · rcases hi.same with g | g
                · exact .inr (.inr (.inr (by omega)))
                · exact .inr (.inr (.inl (by rw [← hj, ← g j (by omega)]; exact hz)))
              · exact .inr (.inr (.inr (by omega)))
            start := fun h => by omega } (by omega) (by omega)
        rw [hr1, a1, bindOk]
        have hm1 : off k s (beg + D + 1) = off k s (beg + D) + s := off_succ k s _
        refine ⟨r, e1, by omega, fun u hu => ?_, fun f hf => ?_⟩
        · have := off_mono k s (show beg ≤ beg + D by omega)
          rw [e3 u (by omega), a4 u (.inl hu)]
        · by_cases h1 : f < beg + D
          · -- computed in this run
            have hne : beg + 1 ≠ x.length := by
              have := hin 0 (by omega)
              omega
            have hsame : ∀ i, beg ≤ i → y[i]? = x[i]? := by
              rcases hi.same with h | h
              · exact absurd h hne
              · exact h
            have hf1 : off k s f + s ≤ off k s (beg + D) := by
              rw [← off_succ]
              exact off_mono k s (by omega)
            have hkn : ∀ i, beg ≤ i → i ≤ beg + D → Known x i := by
              intro i g1 g2
              obtain ⟨v, hv⟩ := hknown i g1 g2
              exact ⟨v, by rw [← hsame i g1]; exact hv⟩
            refine ⟨fun _ => ⟨sck k s beg y, rr.2, ?_, fun j hj => ?_⟩, fun h => ?_⟩
            · refine ⟨by rw [sck_length, hi.len], fun h => by subst h; exact hi.stock rfl, beg, hf, fun i g1 g2 => ?_, ?_, fun h0 => ?_⟩
              · obtain ⟨v, hv⟩ := hknown i g1 (by omega)
                exact ⟨v, by rw [← hsame i g1]; exact hv, sck_known k s y g1 (fun j j1 j2 => hknown j j1 (by omega)) hv⟩
              · rcases Nat.eq_zero_or_pos beg with h0 | h0
                · exact .inl h0
                · right
                  rcases hi.before with h | ⟨h, h'⟩ | h | h
                  · omega
                  · exact ⟨by rw [sck_lo k s y (by omega) (by rw [hi.len]; omega)]; exact h, h'⟩
                  · rw [← hsame beg (by omega), hy] at h; cases h
                  · omega
              · obtain ⟨g1, g2⟩ := hi.start h0
                subst h0 g1 g2
                refine ⟨rfl, by rw [← hr, List.drop_zero], ?_⟩
                rw [← List.drop_one, show (1 : Nat) = 0 + 1 from rfl, hDD]
                omega
            · rw [e3 _ (by omega)]
              exact a3 f j hf h1 hj
            · refine absurd ⟨hkn f hf (by omega), hkn (f + 1) (by omega) (by omega), ?_⟩ h
              have := (hin (f - beg) (by omega)).2
              omega
          · by_cases h2 : f = beg + D
            · subst h2
              refine ⟨fun h => ?_, fun _ j hj => ?_⟩
              · obtain ⟨_, ⟨v, hv⟩, hl⟩ := h
                have hsame : ∀ i, beg ≤ i → y[i]? = x[i]? := by
                  rcases hi.same with h | h
                  · omega
                  · exact h
                exact absurd ⟨⟨v, by rw [hsame _ (by omega), show beg + 1 + D = beg + D + 1 by omega]; exact hv⟩, hl⟩ hstop
              · rw [e3 _ (by omega), a4 _ (.inr (by omega))]
            · obtain ⟨b1, b2⟩ := e4 f (by omega)
              refine ⟨b1, fun h j hj => ?_⟩
              rw [b2 h j hj]
              have := off_mono k s (show beg + D ≤ f by omega)
              exact a4 _ (.inr (by omega))

theorem ltohCs_spec (k : Kind) {s : Nat} (hs : 0 < s) (x : List (Option K)) {tn : Nat} (ht : x.length * s ≤ tn) :
    ∃ r, ltohCs k s tn x = .ok r ∧ r.length = tn ∧ (∀ u, u < off k s 0 → u < tn → r[u]? = some none) ∧
      ∀ f, (Inner x f → ∃ y' y2', Ready k s x f y' y2' ∧ ∀ j, j < s → r[off k s f + j]? = some (blk k s y' y2' f j)) ∧
        (¬ Inner x f → ∀ j, j < s → off k s f + j < tn → r[off k s f + j]? = some none) := by
  obtain ⟨r, e1, e2, e3, e4⟩ := csLoop_spec k hs x (x.length + 1) 0 x (fun _ => 0) (List.replicate tn none)
    ⟨rfl, fun _ => rfl, .inr fun _ _ => rfl, .inl rfl, fun _ => ⟨rfl, rfl⟩⟩ (by omega) (by simpa using ht)
  refine ⟨r, e1, by simpa using e2, fun u h1 h2 => ?_, fun f => ⟨(e4 f (by omega)).1, fun h j hj hlt => ?_⟩⟩
  · rw [e3 u h1, List.getElem?_replicate, if_pos h2]
  · rw [(e4 f (by omega)).2 h j hj, List.getElem?_replicate, if_pos hlt]

end Iode.Spline
