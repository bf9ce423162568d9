import Verif.Model.Pack

/-!
# Lemmas on packs
-/
namespace Iode
namespace Pack

theorem rd_congr {m m' : Nat → Byte} (w : Nat) : ∀ {a : Nat}, (∀ x, a ≤ x → x < a + w → m x = m' x) →
    rd m a w = rd m' a w := by
  induction w with
  | zero => intro a _; rfl
  | succ w ih =>
    intro a h
    simp only [rd]
    rw [h a (by omega) (by omega), ih (fun x h1 h2 => h x (by omega) (by omega))]

theorem rd_of_digits {m : Nat → Byte} (w : Nat) : ∀ {a v : Nat}, (∀ j, j < w → (m (a + j)).val = v / 256 ^ j % 256) →
    rd m a w = v % 256 ^ w := by
  induction w with
  | zero => intro a v _; simp [rd, Nat.mod_one]
  | succ w ih =>
    intro a v h
    simp only [rd]
    rw [ih (v := v / 256)]
    · have h0 := h 0 (by omega)
      simp only [Nat.add_zero, Nat.pow_zero, Nat.div_one] at h0
      rw [h0, Nat.pow_succ, Nat.mul_comm (256 ^ w) 256, Nat.mod_mul]
    · intro j hj
      have := h (j + 1) (by omega)
      rw [show a + 1 + j = a + (j + 1) by omega, this, Nat.pow_succ, Nat.mul_comm (256 ^ j) 256, Nat.div_div_eq_div_mul]

theorem rd_wr_same (m : Nat → Byte) (a v w : Nat) : rd (wr m a v w) a w = v % 256 ^ w := by
  apply rd_of_digits
  intro j hj
  simp only [wr]
  rw [if_pos (by omega)]
  simp only [Nat.add_sub_cancel_left]

theorem rd_wr_other (m : Nat → Byte) {a b : Nat} (v w n : Nat) (h : b + n ≤ a ∨ a + w ≤ b) :
    rd (wr m a v w) b n = rd m b n := by
  apply rd_congr
  intro x h1 h2
  simp only [wr]
  rw [if_neg (by omega)]

theorem rd_cpy (m : Nat → Byte) {a b : Nat} (bs : List Byte) (n : Nat) (h : b + n ≤ a) :
    rd (cpy m a bs) b n = rd m b n := by
  apply rd_congr
  intro x h1 h2
  simp only [cpy]
  rw [if_neg (by omega)]

variable {W : Nat}

theorem word_lt_of_ne {k k' : Nat} (h : k ≠ k') : W * k + W ≤ W * k' ∨ W * k' + W ≤ W * k := by
  rcases Nat.lt_or_gt_of_ne h with h | h
  · left
    have : W * (k + 1) ≤ W * k' := Nat.mul_le_mul_left W h
    rw [Nat.mul_add] at this; omega
  · right
    have : W * (k' + 1) ≤ W * k := Nat.mul_le_mul_left W h
    rw [Nat.mul_add] at this; omega

theorem setWord_ok {p : Pack} {k : Nat} (v : Nat) (h : W * k + W ≤ p.size) :
    ∃ q, setWord W p k v = .ok q ∧ q.size = p.size ∧
      (v < 256 ^ W → word W q k = v) ∧ (∀ k', k' ≠ k → word W q k' = word W p k') ∧
      (∀ x, W * k + W ≤ x → q.mem x = p.mem x) := by
  refine ⟨⟨p.size, wr p.mem (W * k) v W⟩, by simp [setWord, h], rfl, ?_, ?_, ?_⟩
  · intro hv
    show rd (wr p.mem (W * k) v W) (W * k) W = v
    rw [rd_wr_same, Nat.mod_eq_of_lt hv]
  · intro k' hk'
    show rd (wr p.mem (W * k) v W) (W * k') W = _
    rw [rd_wr_other]
    · rfl
    · exact word_lt_of_ne hk'
  · intro x hx
    simp only [wr]
    rw [if_neg (by omega)]

theorem put_ok {p : Pack} {a : Nat} (bs : List Byte) (h : a + bs.length ≤ p.size) :
    ∃ q, put p a bs = .ok q ∧ q.size = p.size ∧
      (∀ k, W * k + W ≤ a → word W q k = word W p k) ∧
      (∀ x, a ≤ x → x < a + bs.length → q.mem x = bs.getD (x - a) 0) := by
  refine ⟨⟨p.size, cpy p.mem a bs⟩, by simp [put, h], rfl, ?_, ?_⟩
  · intro k hk; exact rd_cpy p.mem bs W hk
  · intro x h1 h2
    simp only [cpy]
    rw [if_pos ⟨h1, h2⟩]

/-- The shifting loop. -/
theorem shift_ok (np : Nat) (n : Nat) : ∀ (i : Nat) (p : Pack), W * (i + n + 2) ≤ p.size →
    (∀ k, i ≤ k → k < i + n → word W p (k + 2) + np < 256 ^ W) →
    ∃ q, shift W np p i n = .ok q ∧ q.size = p.size ∧
      (∀ k, i ≤ k → k < i + n → word W q (k + 2) = word W p (k + 2) + np) ∧
      (∀ k, k < i + 2 ∨ i + n + 2 ≤ k → word W q k = word W p k) ∧
      (∀ x, W * (i + n + 2) ≤ x → q.mem x = p.mem x) := by
  induction n with
  | zero =>
    intro i p _ _
    exact ⟨p, rfl, rfl, fun k h1 h2 => absurd h2 (by omega), fun _ _ => rfl, fun _ _ => rfl⟩
  | succ n ih =>
    intro i p hsz hlt
    have e1 : W * (i + (n + 1) + 2) = W * (i + 1 + n + 2) := by congr 1; omega
    have hle : W * (i + 2) + W ≤ W * (i + 1 + n + 2) := by
      have : W * (i + 2) + W = W * (i + 3) := by rw [← Nat.mul_succ]
      rw [this]; exact Nat.mul_le_mul_left W (by omega)
    rw [e1] at hsz
    obtain ⟨q1, s1, s2, s3, s4, s5⟩ := setWord_ok (W := W) (p := p) (k := i + 2) (word W p (i + 2) + np) (by omega)
    obtain ⟨q2, r1, r2, r3, r4, r5⟩ := ih (i + 1) q1 (by omega) (by
      intro k h1 h2
      rw [s4 (k + 2) (by omega)]
      exact hlt k (by omega) (by omega))
    refine ⟨q2, ?_, by omega, ?_, ?_, ?_⟩
    · simp only [shift, s1]; exact r1
    · intro k h1 h2
      by_cases hk : k = i
      · subst hk
        rw [r4 (k + 2) (by omega), s3 (hlt k (by omega) (by omega))]
      · rw [r3 k (by omega) (by omega), s4 (k + 2) (by omega)]
    · intro k hk
      rw [r4 k (by omega), s4 k (by omega)]
    · intro x hx
      rw [e1] at hx
      rw [r5 x hx, s5 x (by omega)]

end Pack
end Iode
