import Verif.Model.Period

/-! Decimal digits: printing and reading. -/
namespace Iode

theorem digitChar_toNat {n : Nat} (h : n < 10) : (digitChar n).toNat = 48 + n := by
  have : n = 0 ∨ n = 1 ∨ n = 2 ∨ n = 3 ∨ n = 4 ∨ n = 5 ∨ n = 6 ∨ n = 7 ∨ n = 8 ∨ n = 9 := by omega
  rcases this with h | h | h | h | h | h | h | h | h | h <;> subst h <;> rfl

theorem isDigitC_digitChar {n : Nat} (h : n < 10) : isDigitC (digitChar n) = true := by
  unfold isDigitC
  rw [digitChar_toNat h]
  simp only [Bool.and_eq_true, decide_eq_true_eq]
  omega

theorem digitOf_digitChar {n : Nat} (h : n < 10) : digitOf (digitChar n) = n := by
  unfold digitOf
  rw [digitChar_toNat h]
  omega

theorem digitsVal_cons (acc : Nat) (c : Char) (cs : List Char) :
    digitsVal acc (c :: cs) = digitsVal (10 * acc + digitOf c) cs := by
  simp [digitsVal]

theorem digitsVal_nil (acc : Nat) : digitsVal acc [] = acc := by
  simp [digitsVal]

theorem digitsVal_append (acc : Nat) (l : List Char) (c : Char) :
    digitsVal acc (l ++ [c]) = 10 * digitsVal acc l + digitOf c := by
  simp [digitsVal]

theorem digitsVal_natToChars (n : Nat) : digitsVal 0 (natToChars n) = n := by
  induction n using Nat.strongRecOn with
  | ind n ih =>
    unfold natToChars
    split
    · rename_i h
      rw [digitsVal_cons, digitsVal_nil, digitOf_digitChar h]; omega
    · rename_i h
      rw [digitsVal_append, ih (n / 10) (by omega), digitOf_digitChar (by omega)]
      omega

theorem natToChars_isDigit (n : Nat) : ∀ c ∈ natToChars n, isDigitC c = true := by
  induction n using Nat.strongRecOn with
  | ind n ih =>
    unfold natToChars
    split
    · rename_i h
      intro c hc
      simp only [List.mem_singleton] at hc
      subst hc
      exact isDigitC_digitChar h
    · rename_i h
      intro c hc
      simp only [List.mem_append, List.mem_singleton] at hc
      rcases hc with hc | hc
      · exact ih (n / 10) (by omega) c hc
      · subst hc
        exact isDigitC_digitChar (by omega)

theorem natToChars_ne_nil (n : Nat) : natToChars n ≠ [] := by
  unfold natToChars
  split <;> simp

theorem isDigitC_not_space {c : Char} (h : isDigitC c = true) : isSpaceC c = false := by
  unfold isDigitC at h
  unfold isSpaceC
  simp only [Bool.and_eq_true, decide_eq_true_eq] at h
  simp only [Bool.or_eq_false_iff, decide_eq_false_iff_not, Bool.and_eq_false_iff]
  omega

theorem takeWhile_isDigit {l : List Char} (h : ∀ c ∈ l, isDigitC c = true) : l.takeWhile isDigitC = l := by
  induction l with
  | nil => rfl
  | cons c cs ih =>
    rw [List.takeWhile_cons, h c (by simp), if_pos rfl, ih (fun d hd => h d (by simp [hd]))]

theorem stoiDigits_natToChars (n : Nat) : stoiDigits (natToChars n) = .ok n := by
  unfold stoiDigits
  rw [takeWhile_isDigit (natToChars_isDigit n)]
  have : (natToChars n).isEmpty = false := by
    cases h : natToChars n with
    | nil => exact absurd h (natToChars_ne_nil n)
    | cons _ _ => rfl
  simp only [this, digitsVal_natToChars]
  simp

theorem stoi_of_digits {l : List Char} (hd : ∀ c ∈ l, isDigitC c = true) :
    stoi l = (stoiDigits l >>= fun v => if v > 2147483647 then .err else .ok (v : Int)) := by
  cases l with
  | nil => rfl
  | cons c cs =>
    have hc := hd c (by simp)
    have hsp : (c :: cs).dropWhile isSpaceC = c :: cs := by
      rw [List.dropWhile_cons, isDigitC_not_space hc]; simp
    unfold stoi
    rw [hsp]
    split
    · rename_i heq; cases heq; exact absurd hc (by decide)
    · rename_i heq; cases heq; exact absurd hc (by decide)
    · rfl

theorem stoi_natToChars {n : Nat} (h : n ≤ 2147483647) : stoi (natToChars n) = .ok (n : Int) := by
  rw [stoi_of_digits (natToChars_isDigit n), stoiDigits_natToChars, Res.bind_ok, if_neg (by omega)]

theorem natToChars_length_four {n : Nat} (h1 : 1000 ≤ n) (h2 : n ≤ 9999) : (natToChars n).length = 4 := by
  unfold natToChars
  rw [if_neg (by omega)]
  unfold natToChars
  rw [if_neg (by omega)]
  unfold natToChars
  rw [if_neg (by omega)]
  unfold natToChars
  rw [if_pos (by omega)]
  rfl

theorem toNat_ofNat_small {n : Nat} (h : n < 0xd800) : (Char.ofNat n).toNat = n := by
  have hv : n.isValidChar := Or.inl h
  have e : Char.ofNat n = Char.ofNatAux n hv := by
    unfold Char.ofNat
    exact dif_pos hv
  rw [e]
  show (UInt32.ofNatLT n _).toNat = n
  exact UInt32.toNat_ofNatLT

/-- `toupper` is idempotent. -/
theorem toUpperC_idem (c : Char) : toUpperC (toUpperC c) = toUpperC c := by
  unfold toUpperC
  split
  · rename_i h
    rw [if_neg]
    rw [toNat_ofNat_small (by omega)]; omega
  · rfl

end Iode
