import Verif.Lemmas.Dbl
import Verif.Spec.AscEqs

/-! # Rounding to `float` -/
namespace Iode
namespace Printf
open Decimals Asc.Written

theorem unitF_normal {q : Rat} (h : -149 ≤ ilog 2 |q| - 23) : unitF q = unit 2 24 q := by
  rw [unitF, unit, max_eq_left h]
  norm_num

theorem binaryF_neg {q : Rat} (h : BinaryF q) : BinaryF (-q) := by
  obtain ⟨m, e, h1, h2, h3⟩ := h
  exact ⟨-m, e, by rwa [abs_neg], h2, by rw [h3]; push_cast; ring⟩

theorem binaryF_short {q : Rat} (h : BinaryF q) : Short 2 24 q := by
  obtain ⟨m, e, h1, _, h3⟩ := h
  exact ⟨m, e, by simpa using h1, by simpa using h3⟩

theorem roundF_normal {q : Rat} (h0 : q ≠ 0) (h : -149 ≤ ilog 2 |q| - 23) : roundF q = sig 2 24 q := by
  rw [roundF, sig, if_neg h0, unitF_normal h]
  simp only [mant]
  norm_num

theorem roundF_zero : roundF 0 = 0 := by simp [roundF, roundEven_zero]

theorem roundF_neg (q : Rat) : roundF (-q) = -roundF q := by
  by_cases h : q = 0
  · subst h; simp [roundF_zero]
  · rw [roundF, roundF, unitF, unitF, abs_neg]
    rcases lt_or_gt_of_ne h with h | h
    · rw [if_neg (by linarith), if_pos h]; ring
    · rw [if_pos (by linarith), if_neg (by linarith)]

theorem roundF_nearest (q : Rat) : BinaryF (roundF q) ∧ ∀ s, BinaryF s → |q - roundF q| ≤ |q - s| := by
  by_cases h0 : q = 0
  · subst h0
    rw [roundF_zero]
    exact ⟨⟨0, 0, by norm_num, by norm_num, by simp⟩, fun s _ => by simp⟩
  · by_cases h : -149 ≤ ilog 2 |q| - 23
    · have hn := sig_nearest (b := 2) (P := 24) (by omega) (by omega) q
      refine ⟨?_, fun s hs => ?_⟩
      · have key : BinaryF ((mant 2 24 q : Rat) * (2 : Rat) ^ unit 2 24 q) := by
          have hm := (mant_bounds (b := 2) (P := 24) (by omega) (by omega) h0).2
          have hu : unit 2 24 q = ilog 2 |q| - 23 := by rw [unit]; norm_num
          by_cases e : mant 2 24 q = 2 ^ 24
          · refine ⟨2 ^ 23, unit 2 24 q + 1, by norm_num, by omega, ?_⟩
            rw [e, zpow_add_one₀ (by norm_num)]
            push_cast
            ring
          · refine ⟨mant 2 24 q, unit 2 24 q, ?_, by omega, by simp⟩
            rw [abs_of_nonneg (by omega)]
            exact_mod_cast (by omega : mant 2 24 q < 2 ^ 24)
        rw [roundF_normal h0 h, sig, if_neg h0]
        push_cast
        split
        · exact binaryF_neg key
        · exact key
      · rw [roundF_normal h0 h]
        exact hn.2 s (binaryF_short hs)
    · have hu : unitF q = -149 := by rw [unitF]; exact max_eq_right (by omega)
      have hp : (0 : Rat) < (2 : Rat) ^ (-149 : Int) := zpow_pos (by norm_num) _
      have hx : 0 ≤ |q| / (2 : Rat) ^ (-149 : Int) := div_nonneg (abs_nonneg _) hp.le
      have hq : |q| / (2 : Rat) ^ (-149 : Int) ≤ ((2 ^ 23 : Nat) : Rat) := by
        obtain ⟨_, h4⟩ := ilog_spec (b := 2) (by omega) (abs_pos.2 h0)
        rw [div_le_iff₀ hp]
        calc |q| ≤ ((2 : Nat) : Rat) ^ (ilog 2 |q| + 1) := h4.le
          _ ≤ (2 : Rat) ^ (-126 : Int) := by
            push_cast
            exact zpow_le_zpow_right₀ (by norm_num) (by omega)
          _ = ((2 ^ 23 : Nat) : Rat) * (2 : Rat) ^ (-149 : Int) := by
            rw [show (-126 : Int) = 23 + -149 by norm_num, zpow_add₀ (by norm_num)]
            norm_num
      have hm := roundEven_le hx hq
      have hnear := roundEven_near hx
      generalize hA : roundEven (|q| / (2 : Rat) ^ (-149 : Int)) = m at *
      have key : BinaryF ((m : Rat) * (2 : Rat) ^ (-149 : Int)) := by
        refine ⟨m, -149, ?_, by omega, by simp⟩
        rw [abs_of_nonneg (by omega)]
        have : (2 : Nat) ^ 23 < 2 ^ 24 := by norm_num
        exact_mod_cast (by omega : m < 2 ^ 24)
      have near : ∀ s, BinaryF s → abs (|q| - (m : Rat) * (2 : Rat) ^ (-149 : Int)) ≤ abs (|q| - s) := by
        rintro s ⟨a, e, _, he, rfl⟩
        have := hnear (a * 2 ^ (e + 149).toNat)
        have e1 : ∀ y : Rat, |q| - y * (2 : Rat) ^ (-149 : Int) = (|q| / (2 : Rat) ^ (-149 : Int) - y) * (2 : Rat) ^ (-149 : Int) := by
          intro y
          rw [sub_mul, div_mul_cancel₀ _ hp.ne']
        have e2 : (a : Rat) * (2 : Rat) ^ e = ((a * 2 ^ (e + 149).toNat : Int) : Rat) * (2 : Rat) ^ (-149 : Int) := by
          push_cast
          rw [mul_assoc, ← zpow_natCast, ← zpow_add₀ (by norm_num)]
          congr 2
          omega
        rw [e2, e1, e1, abs_mul, abs_mul]
        exact mul_le_mul_of_nonneg_right this (abs_nonneg _)
      have hr : roundF q = if q < 0 then -((m : Rat) * (2 : Rat) ^ (-149 : Int)) else (m : Rat) * (2 : Rat) ^ (-149 : Int) := by
        rw [roundF, hu, hA]
      rw [hr]
      split
      · rename_i hn
        refine ⟨binaryF_neg key, fun s hs => ?_⟩
        have := near (-s) (binaryF_neg hs)
        rw [abs_of_neg hn] at this
        have e1 : q - -((m : Rat) * (2 : Rat) ^ (-149 : Int)) = -(-q - (m : Rat) * (2 : Rat) ^ (-149 : Int)) := by ring
        have e2 : q - s = -(-q - -s) := by ring
        rw [e1, e2, abs_neg, abs_neg]
        exact this
      · rename_i hn
        refine ⟨key, fun s hs => ?_⟩
        have := near s hs
        rwa [abs_of_nonneg (not_lt.1 hn)] at this

theorem roundF_binaryF {q : Rat} (h : BinaryF q) : roundF q = q := by
  have := (roundF_nearest q).2 q h
  rw [sub_self, abs_zero] at this
  have := abs_nonpos_iff.1 this
  linarith

/-! ## Rounding is monotone and symmetric -/

theorem sig_neg {b P : Nat} (q : Rat) : sig b P (-q) = -sig b P q := by
  by_cases h : q = 0
  · subst h; simp [sig]
  · rw [sig, sig, if_neg (by simpa using h), if_neg h, mant, mant, unit, unit, abs_neg]
    rcases lt_or_gt_of_ne h with h | h
    · rw [if_neg (by linarith), if_pos h]; ring
    · rw [if_pos (by linarith), if_neg (by linarith)]

theorem sig_mono {b P : Nat} (hb : 2 ≤ b) (hP : 1 ≤ P) {x y : Rat} (h : x ≤ y) : sig b P x ≤ sig b P y := by
  by_contra hc
  have hne : x ≠ y := by
    rintro rfl
    exact hc (le_refl _)
  have h1 : x < y := lt_of_le_of_ne h hne
  have h2 : sig b P y < sig b P x := not_le.1 hc
  have n1 := (sig_nearest hb hP x).2 _ (sig_nearest hb hP y).1
  have n2 := (sig_nearest hb hP y).2 _ (sig_nearest hb hP x).1
  generalize sig b P x = u at *
  generalize sig b P y = v at *
  rw [← sq_le_sq] at n1 n2
  nlinarith

theorem roundEven_spec {x : Rat} (hx : 0 ≤ x) : |x - roundEven x| ≤ 1 / 2 ∧ (|x - roundEven x| = 1 / 2 → roundEven x % 2 = 0) := by
  refine ⟨roundEven_half hx, ?_⟩
  obtain ⟨h1, h2⟩ := floor_nat hx
  rw [roundEven]
  generalize x.floor.toNat = f at *
  split
  · rename_i h
    rw [abs_of_nonneg (by linarith)]
    intro e
    linarith
  · split
    · rename_i h
      push_cast
      rw [abs_of_nonpos (by linarith)]
      intro e
      linarith
    · split
      · rename_i h
        exact fun _ => h
      · intro _
        omega

theorem roundEven_unique {x : Rat} (hx : 0 ≤ x) {n : Nat} (h : |x - n| ≤ 1 / 2) (he : |x - n| = 1 / 2 → n % 2 = 0) : roundEven x = n := by
  obtain ⟨h1, h2⟩ := roundEven_spec hx
  generalize roundEven x = r at *
  rcases lt_trichotomy r n with hl | hl | hl
  · have hl' : (r : Rat) + 1 ≤ n := by exact_mod_cast hl
    rw [abs_le] at h h1
    have e1 : x - r = 1 / 2 := by linarith
    have e2 : x - n = -(1 / 2) := by linarith
    rw [e1] at h2
    rw [e2] at he
    have a := h2 (by norm_num)
    have b := he (by norm_num)
    have : (n : Rat) = r + 1 := by linarith
    have : n = r + 1 := by exact_mod_cast this
    omega
  · exact hl
  · have hl' : (n : Rat) + 1 ≤ r := by exact_mod_cast hl
    rw [abs_le] at h h1
    have e1 : x - r = -(1 / 2) := by linarith
    have e2 : x - n = 1 / 2 := by linarith
    rw [e1] at h2
    rw [e2] at he
    have a := h2 (by norm_num)
    have b := he (by norm_num)
    have : (r : Rat) = n + 1 := by linarith
    have : r = n + 1 := by exact_mod_cast this
    omega

theorem roundEven_symm {M : Nat} {x : Rat} (hx : 0 ≤ x) (h : x ≤ 2 * M) : roundEven (2 * M - x) = 2 * M - roundEven x := by
  obtain ⟨h1, h2⟩ := roundEven_spec hx
  have hle : roundEven x ≤ 2 * M := roundEven_le hx (by exact_mod_cast h)
  generalize roundEven x = r at *
  have e : 2 * (M : Rat) - x - ((2 * M - r : Nat) : Rat) = -(x - r) := by
    rw [Nat.cast_sub hle]
    push_cast
    ring
  refine roundEven_unique (by linarith) (by rw [e, abs_neg]; exact h1) ?_
  rw [e, abs_neg]
  intro he
  have := h2 he
  omega

theorem roundEven_nat (n : Nat) : roundEven (n : Rat) = n := by
  refine roundEven_unique (Nat.cast_nonneg n) ?_ ?_
  · rw [sub_self, abs_zero]; norm_num
  · rw [sub_self, abs_zero]; intro h; norm_num at h

/-- The numbers between two powers of two. -/
theorem sig_binade {P : Nat} (hP : 1 ≤ P) {k : Int} {x : Rat} (h1 : (2 : Rat) ^ k ≤ x) (h2 : x ≤ (2 : Rat) ^ (k + 1)) :
    sig 2 P x = roundEven (x / (2 : Rat) ^ (k - (P - 1))) * (2 : Rat) ^ (k - (P - 1)) := by
  have hk : (0 : Rat) < (2 : Rat) ^ k := zpow_pos (by norm_num) _
  have hx : 0 < x := lt_of_lt_of_le hk h1
  rcases lt_or_eq_of_le h2 with h3 | h3
  · have hi : ilog 2 |x| = k := by
      obtain ⟨a, c⟩ := ilog_spec (b := 2) (by omega) (abs_pos.2 hx.ne')
      rw [abs_of_pos hx] at a c ⊢
      push_cast at a c
      have b1 := (zpow_lt_zpow_iff_right₀ (by norm_num : (1 : Rat) < 2)).1 (lt_of_le_of_lt h1 c)
      have b2 := (zpow_lt_zpow_iff_right₀ (by norm_num : (1 : Rat) < 2)).1 (lt_of_le_of_lt a h3)
      omega
    rw [sig, if_neg hx.ne', if_neg (by linarith), mant, unit, hi, abs_of_pos hx]
    push_cast
    rfl
  · have hs : Short 2 P x := ⟨1, k + 1, by rw [abs_one]; exact one_lt_pow₀ (by norm_num) (by omega), by rw [h3]; norm_num⟩
    have e : x / (2 : Rat) ^ (k - ((P : Int) - 1)) = ((2 ^ P : Nat) : Rat) := by
      rw [h3, ← zpow_sub₀ (by norm_num)]
      push_cast
      rw [← zpow_natCast]
      congr 1
      omega
    rw [sig_short (by omega) hP hs, e, roundEven_nat, ← e, div_mul_cancel₀ _ (zpow_pos (by norm_num) _).ne']

/-- Rounding is symmetric around `M` units. -/
theorem sig_symm {P : Nat} (hP : 1 ≤ P) {k : Int} {M : Nat} {x : Rat} (h1 : (2 : Rat) ^ k ≤ x) (h2 : x ≤ (2 : Rat) ^ (k + 1))
    (h3 : (2 : Rat) ^ k ≤ 2 * (M * (2 : Rat) ^ (k - (P - 1))) - x) (h4 : 2 * (M * (2 : Rat) ^ (k - (P - 1))) - x ≤ (2 : Rat) ^ (k + 1)) :
    sig 2 P (2 * (M * (2 : Rat) ^ (k - (P - 1))) - x) = 2 * (M * (2 : Rat) ^ (k - (P - 1))) - sig 2 P x := by
  rw [sig_binade hP h1 h2, sig_binade hP h3 h4]
  have hk : (0 : Rat) < (2 : Rat) ^ k := zpow_pos (by norm_num) _
  have hu : (0 : Rat) < (2 : Rat) ^ (k - ((P : Int) - 1)) := zpow_pos (by norm_num) _
  generalize (2 : Rat) ^ (k - ((P : Int) - 1)) = u at *
  have e : (2 * (M * u) - x) / u = 2 * M - x / u := by field_simp
  have hx : 0 ≤ x / u := div_nonneg (by linarith) hu.le
  have hM : x / u ≤ 2 * M := by
    rw [div_le_iff₀ hu]
    linarith
  rw [e, roundEven_symm hx hM, Nat.cast_sub (roundEven_le hx (by exact_mod_cast hM))]
  push_cast
  ring

/-! ## Decimal numbers of 8 digits in single precision -/

/-- A number rounded to 53 and then to 24 binary digits. -/
def fd (x : Rat) : Rat := sig 2 24 (sig 2 53 x)

theorem fd_mono {x y : Rat} (h : x ≤ y) : fd x ≤ fd y := sig_mono (by omega) (by omega) (sig_mono (by omega) (by omega) h)

theorem fd_neg (x : Rat) : fd (-x) = -fd x := by rw [fd, fd, sig_neg, sig_neg]

theorem short_more {b P Q : Nat} (hb : 1 ≤ b) (h : P ≤ Q) {x : Rat} (hx : Short b P x) : Short b Q x := by
  obtain ⟨m, e, h1, h2⟩ := hx
  refine ⟨m, e, lt_of_lt_of_le h1 ?_, h2⟩
  exact pow_le_pow_right₀ (by exact_mod_cast hb) h

theorem fd_short {x : Rat} (h : Short 2 24 x) : fd x = x := by
  rw [fd, sig_short (by omega) (by omega) (short_more (by omega) (by omega) h), sig_short (by omega) (by omega) h]

/-- Around a number of 24 digits that is not a power of two. -/
theorem fd_symm {N : Nat} {e : Int} (h1 : 2 ^ 23 < N) (h2 : N < 2 ^ 24) {x : Rat} (hx : |x - N * (2 : Rat) ^ e| < (2 : Rat) ^ e) :
    fd (2 * (N * (2 : Rat) ^ e) - x) = 2 * (N * (2 : Rat) ^ e) - fd x := by
  have hu : (0 : Rat) < (2 : Rat) ^ e := zpow_pos (by norm_num) _
  obtain ⟨a, b⟩ := abs_lt.1 hx
  have e23 : (2 : Rat) ^ (e + 23) = 2 ^ 23 * (2 : Rat) ^ e := by
    rw [zpow_add₀ (by norm_num)]; norm_num; ring
  have e24 : (2 : Rat) ^ (e + 23 + 1) = 2 ^ 24 * (2 : Rat) ^ e := by
    rw [zpow_add₀ (by norm_num), zpow_add₀ (by norm_num)]; norm_num; ring
  have n1 : ((2 : Rat) ^ 23 + 1) * (2 : Rat) ^ e ≤ N * (2 : Rat) ^ e := by
    refine mul_le_mul_of_nonneg_right ?_ hu.le
    exact_mod_cast h1
  have n2 : ((N : Rat) + 1) * (2 : Rat) ^ e ≤ 2 ^ 24 * (2 : Rat) ^ e := by
    refine mul_le_mul_of_nonneg_right ?_ hu.le
    exact_mod_cast h2
  have x1 : (2 : Rat) ^ (e + 23) ≤ x := by rw [e23]; linarith
  have x2 : x ≤ (2 : Rat) ^ (e + 23 + 1) := by rw [e24]; linarith
  have y1 : (2 : Rat) ^ (e + 23) ≤ 2 * (N * (2 : Rat) ^ e) - x := by rw [e23]; linarith
  have y2 : 2 * (N * (2 : Rat) ^ e) - x ≤ (2 : Rat) ^ (e + 23 + 1) := by rw [e24]; linarith
  have eM : (N : Rat) * (2 : Rat) ^ e = ((N * 2 ^ 29 : Nat) : Rat) * (2 : Rat) ^ (e + 23 - (((53 : Nat) : Int) - 1)) := by
    rw [show e + 23 - (((53 : Nat) : Int) - 1) = e + -29 by omega, zpow_add₀ (by norm_num)]
    push_cast
    norm_num
    ring
  have eN : (2 : Rat) ^ e = (2 : Rat) ^ (e + 23 - (((24 : Nat) : Int) - 1)) := by
    congr 1
    omega
  have hm : ∀ y : Rat, (2 : Rat) ^ (e + 23) ≤ y → y ≤ (2 : Rat) ^ (e + 23 + 1) →
      (2 : Rat) ^ (e + 23) ≤ sig 2 53 y ∧ sig 2 53 y ≤ (2 : Rat) ^ (e + 23 + 1) := by
    intro y p q
    have hs : ∀ k : Int, Short 2 53 ((2 : Rat) ^ k) := fun k => ⟨1, k, by norm_num, by norm_num⟩
    have p' := sig_mono (b := 2) (P := 53) (by omega) (by omega) p
    have q' := sig_mono (b := 2) (P := 53) (by omega) (by omega) q
    rw [sig_short (by omega) (by omega) (hs _)] at p' q'
    exact ⟨p', q'⟩
  obtain ⟨z1, z2⟩ := hm x x1 x2
  obtain ⟨w1, w2⟩ := hm _ y1 y2
  have s1 : sig 2 53 (2 * (N * (2 : Rat) ^ e) - x) = 2 * (N * (2 : Rat) ^ e) - sig 2 53 x := by
    rw [eM] at y1 y2 ⊢
    exact sig_symm (by omega) x1 x2 y1 y2
  rw [s1] at w1 w2
  rw [fd, fd, s1]
  have key : (N : Rat) * (2 : Rat) ^ e = (N : Rat) * (2 : Rat) ^ (e + 23 - (((24 : Nat) : Int) - 1)) := by rw [← eN]
  rw [key] at w1 w2 ⊢
  exact sig_symm (by omega) z1 z2 w1 w2

/-- The powers of two. -/
theorem fd_pow : ∀ n : Nat, n < 180 → fd (sig 10 8 ((2 : Rat) ^ ((n : Int) - 93))) = (2 : Rat) ^ ((n : Int) - 93) := by decide +kernel

theorem fd_again_pos {s : Rat} (hs : Short 10 8 s) (h1 : (10 : Rat) ^ (-28 : Int) ≤ fd s) (h2 : fd s ≤ (10 : Rat) ^ (26 : Int)) :
    fd (sig 10 8 (fd s)) = fd s := by
  have hv : 0 < fd s := lt_of_lt_of_le (zpow_pos (by norm_num) _) h1
  have hsh : Short 2 24 (fd s) := (sig_nearest (by omega) (by omega) _).1
  have hd := (sig_nearest (b := 10) (P := 8) (by omega) (by omega) (fd s)).2 s hs
  have hfix := fd_short hsh
  have hform := sig_short (b := 2) (P := 24) (by omega) (by omega) hsh
  obtain ⟨m1, m2⟩ := mant_bounds (b := 2) (P := 24) (by omega) (by omega) hv.ne'
  rw [sig, if_neg hv.ne', if_neg (by linarith)] at hform
  generalize mant 2 24 (fd s) = N at *
  generalize unit 2 24 (fd s) = e at *
  push_cast at hform
  have pow2 : ∀ k : Int, (2 : Rat) ^ k = fd s → fd (sig 10 8 (fd s)) = fd s := by
    intro k hk
    rw [← hk] at h1 h2 ⊢
    have a1 : -94 < k := by
      refine (zpow_lt_zpow_iff_right₀ (by norm_num : (1 : Rat) < 2)).1 (lt_of_lt_of_le ?_ h1)
      norm_num
    have a2 : k < 87 := by
      refine (zpow_lt_zpow_iff_right₀ (by norm_num : (1 : Rat) < 2)).1 (lt_of_le_of_lt h2 ?_)
      norm_num
    have := fd_pow (k + 93).toNat (by omega)
    rw [show (((k + 93).toNat : Nat) : Int) - 93 = k by omega] at this
    exact this
  by_cases e1 : N = 2 ^ 23
  · refine pow2 (e + 23) ?_
    rw [← hform, e1, zpow_add₀ (by norm_num)]
    push_cast
    norm_num
    ring
  · by_cases e2 : N = 2 ^ 24
    · refine pow2 (e + 24) ?_
      rw [← hform, e2, zpow_add₀ (by norm_num)]
      push_cast
      norm_num
      ring
    · have N1 : 2 ^ 23 < N := by omega
      have N2 : N < 2 ^ 24 := by omega
      have hu : (0 : Rat) < (2 : Rat) ^ e := zpow_pos (by norm_num) _
      have up : Short 2 24 (fd s + (2 : Rat) ^ e) := by
        by_cases h : N + 1 = 2 ^ 24
        · refine ⟨1, e + 24, by norm_num, ?_⟩
          have : (N : Rat) = 2 ^ 24 - 1 := by
            have : ((N + 1 : Nat) : Rat) = ((2 ^ 24 : Nat) : Rat) := by rw [h]
            push_cast at this
            linarith
          rw [← hform, this, zpow_add₀ (by norm_num)]
          norm_num
          ring
        · refine ⟨(N : Int) + 1, e, ?_, by rw [← hform]; push_cast; ring⟩
          rw [abs_of_nonneg (by omega)]
          exact_mod_cast (by omega : N + 1 < 2 ^ 24)
      have down : Short 2 24 (fd s - (2 : Rat) ^ e) := by
        refine ⟨(N : Int) - 1, e, ?_, by rw [← hform]; push_cast; ring⟩
        rw [abs_of_nonneg (by omega)]
        have : (N : Int) < ((2 ^ 24 : Nat) : Int) := by exact_mod_cast N2
        push_cast at this ⊢
        linarith
      have s1 : s < fd s + (2 : Rat) ^ e := by
        by_contra hc
        have := fd_mono (not_lt.1 hc)
        rw [fd_short up] at this
        linarith
      have s2 : fd s - (2 : Rat) ^ e < s := by
        by_contra hc
        have := fd_mono (not_lt.1 hc)
        rw [fd_short down] at this
        linarith
      generalize hw : sig 10 8 (fd s) = d at *
      have between : ∀ x : Rat, (s ≤ x ∧ x ≤ fd s) ∨ (fd s ≤ x ∧ x ≤ s) → fd x = fd s := by
        rintro x (⟨p, q⟩ | ⟨p, q⟩)
        · have p' := fd_mono p
          have q' := fd_mono q
          rw [hfix] at q'
          exact le_antisymm q' p'
        · have p' := fd_mono p
          have q' := fd_mono q
          rw [hfix] at p'
          exact le_antisymm q' p'
      rcases le_total s (fd s) with c1 | c1
      · rw [abs_of_nonneg (by linarith : 0 ≤ fd s - s)] at hd
        obtain ⟨d1, d2⟩ := abs_le.1 hd
        rcases le_total d (fd s) with c2 | c2
        · exact between d (.inl ⟨by linarith, c2⟩)
        · have k1 := between (2 * fd s - d) (.inl ⟨by linarith, by linarith⟩)
          have k2 := fd_symm N1 N2 (x := 2 * fd s - d) (e := e) (by rw [hform, abs_lt]; constructor <;> linarith)
          rw [hform, k1] at k2
          rw [show 2 * fd s - (2 * fd s - d) = d by ring] at k2
          linarith
      · rw [abs_of_nonpos (by linarith : fd s - s ≤ 0)] at hd
        obtain ⟨d1, d2⟩ := abs_le.1 hd
        rcases le_total d (fd s) with c2 | c2
        · have k1 := between (2 * fd s - d) (.inr ⟨by linarith, by linarith⟩)
          have k2 := fd_symm N1 N2 (x := 2 * fd s - d) (e := e) (by rw [hform, abs_lt]; constructor <;> linarith)
          rw [hform, k1] at k2
          rw [show 2 * fd s - (2 * fd s - d) = d by ring] at k2
          linarith
        · exact between d (.inr ⟨c2, by linarith⟩)

/-- A number of 24 binary digits that comes from one of 8 decimal digits comes back from its first 8 decimal digits. -/
theorem fd_again {s : Rat} (hs : Short 10 8 s) (h1 : (10 : Rat) ^ (-28 : Int) ≤ |fd s|) (h2 : |fd s| ≤ (10 : Rat) ^ (26 : Int)) :
    fd (sig 10 8 (fd s)) = fd s := by
  rcases le_total 0 (fd s) with h | h
  · rw [abs_of_nonneg h] at h1 h2
    exact fd_again_pos hs h1 h2
  · rw [abs_of_nonpos h, ← fd_neg] at h1 h2
    have := fd_again_pos (short_neg hs) h1 h2
    rw [fd_neg, sig_neg, fd_neg] at this
    linarith

end Printf
end Iode
