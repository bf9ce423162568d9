import Verif.Lemmas.Convert

/-!
# Lemmas on the conversion from a low to a high periodicity
-/
namespace Iode.Convert

open Iode.Lec Iode.Idt

variable {F : Type}

theorem fillLoop_spec (v : F) : ∀ (n t : Nat) (dst : List F), t + n ≤ dst.length →
    ∃ r, fillLoop v n t dst = .ok r ∧ r.length = dst.length ∧
      (∀ u, r[u]? = if t ≤ u ∧ u < t + n then some v else dst[u]?)
  | 0, t, dst, _ => ⟨dst, rfl, rfl, fun u => by rw [if_neg (by omega)]⟩
  | n + 1, t, dst, h => by
    unfold fillLoop
    rw [put_ok (by omega), Res.bindOk]
    obtain ⟨r, e1, e2, e3⟩ := fillLoop_spec v n (t + 1) (dst.set t v) (by rw [List.length_set]; omega)
    refine ⟨r, e1, by rw [e2, List.length_set], fun u => ?_⟩
    rw [e3 u]
    by_cases hu : u = t
    · subst hu
      rw [if_neg (by omega), if_pos (by omega), List.getElem?_set_self (by omega)]
    · rw [List.getElem?_set_ne (by omega)]
      by_cases h2 : t + 1 ≤ u ∧ u < t + 1 + n
      · rw [if_pos h2, if_pos (by omega)]
      · rw [if_neg h2, if_neg (by omega)]

theorem block_lt {i b j s : Nat} (hj : j < s) (h : i < b) : i * s + j < b * s := by
  have : (i + 1) * s ≤ b * s := Nat.mul_le_mul_right s h
  rw [Nat.add_mul] at this
  omega

theorem stepLoop_spec (A : Arith F) (k : Kind) {s : Nat} : ∀ (vs : List F) (f : Nat) (dst : List F),
    (f + vs.length) * s ≤ dst.length →
    ∃ r, stepLoop A k s vs f dst = .ok r ∧ r.length = dst.length ∧
      (∀ i j, j < s → i < f → r[i * s + j]? = dst[i * s + j]?) ∧
      (∀ i j, j < s → r[(f + i) * s + j]? = match vs[i]? with
        | some v => if A.isNum v then some (stepValue A k s v) else dst[(f + i) * s + j]?
        | none => dst[(f + i) * s + j]?)
  | [], f, dst, _ => ⟨dst, rfl, rfl, fun _ _ _ _ => rfl, fun i j _ => by simp⟩
  | v :: vs, f, dst, h => by
    rw [List.length_cons] at h
    have hge : (f + 1) * s ≤ (f + (vs.length + 1)) * s := Nat.mul_le_mul_right s (by omega)
    rw [Nat.add_mul, Nat.one_mul] at hge
    unfold stepLoop
    cases hv : A.isNum v with
    | true =>
      rw [if_pos (by rfl)]
      obtain ⟨d, d1, d2, d3⟩ := fillLoop_spec (stepValue A k s v) s (f * s) dst (by omega)
      rw [d1, Res.bindOk]
      obtain ⟨r, r1, r2, r3, r4⟩ := stepLoop_spec A k vs (f + 1) d (by rw [d2]; exact Nat.le_trans (Nat.mul_le_mul_right s (by omega)) h)
      refine ⟨r, r1, r2.trans d2, fun i j hj hi => ?_, fun i j hj => ?_⟩
      · rw [r3 i j hj (by omega), d3, if_neg]
        have := block_lt hj hi
        omega
      · cases i with
        | zero =>
          rw [Nat.add_zero, r3 f j hj (by omega), d3, if_pos (by omega)]
          simp [hv]
        | succ i =>
          have := r4 i j hj
          rw [show f + 1 + i = f + (i + 1) by omega] at this
          rw [this, List.getElem?_cons_succ, d3, if_neg]
          have : (f + 1) * s ≤ (f + (i + 1)) * s := Nat.mul_le_mul_right s (by omega)
          rw [Nat.add_mul, Nat.one_mul] at this
          omega
    | false =>
      simp only [Bool.false_eq_true, if_false]
      obtain ⟨r, r1, r2, r3, r4⟩ := stepLoop_spec A k vs (f + 1) dst (Nat.le_trans (Nat.mul_le_mul_right s (by omega)) h)
      refine ⟨r, r1, r2, fun i j hj hi => r3 i j hj (by omega), fun i j hj => ?_⟩
      cases i with
      | zero =>
        rw [Nat.add_zero, r3 f j hj (by omega)]
        simp [hv]
      | succ i =>
        have := r4 i j hj
        rw [show f + 1 + i = f + (i + 1) by omega] at this
        rw [this, List.getElem?_cons_succ]

theorem step_share (A : Arith F) (k : Kind) (s : Nat) (v : F) (d : F) (hd : d = A.na) :
    (if A.isNum v then stepValue A k s v else d) = share A k s v := by
  unfold share stepValue
  rw [hd]
  cases k <;> rfl

/-- One variable by steps: the sub-periods of the value number `i` are `i * s, ..., i * s + s - 1`. -/
theorem ltohStep_spec (A : Arith F) (k : Kind) {s tn : Nat} {x : List F} (h : x.length * s ≤ tn) :
    ∃ y, ltohStep A k s tn x = .ok y ∧ y.length = tn ∧
      ∀ i j, j < s → i * s + j < tn → y[i * s + j]? = some (match x[i]? with | some v => share A k s v | none => A.na) := by
  obtain ⟨r, r1, r2, _, r4⟩ := stepLoop_spec A k x 0 (List.replicate tn A.na) (by simpa using h)
  rw [List.length_replicate] at r2
  refine ⟨r, r1, r2, fun i j hj hi => ?_⟩
  have := r4 i j hj
  rw [Nat.zero_add] at this
  rw [this, List.getElem?_replicate, if_pos hi]
  cases x[i]? with
  | none => rfl
  | some v =>
    simp only
    rw [← step_share A k s v A.na rfl]
    split <;> rfl

end Iode.Convert
