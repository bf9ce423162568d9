import Verif.Lemmas.Text
import Verif.Lemmas.Period

/-!
# C02  Text of a period

The claim "every accepted text denotes an existing period" is false of the code: the parser accepts step 0 and
negative steps. The negation is proved, with the strongest true part next to it.
-/
namespace Iode

/-- The six periodicity letters as the parser stores them. -/
def IsPeriodicity (c : Char) : Prop := c ∈ ['Y', 'S', 'Q', 'M', 'W', 'D']

theorem IsPeriodicity.upper {c : Char} (h : IsPeriodicity c) : toUpperC c = c := by
  unfold IsPeriodicity at h
  simp only [List.mem_cons, List.not_mem_nil, or_false] at h
  rcases h with h | h | h | h | h | h <;> subst h <;> rfl

theorem nbPeriodsPerYear_upper_iff (c : Char) :
    (∃ nb, nbPeriodsPerYear (toUpperC c) = .ok nb) → IsPeriodicity (toUpperC (toUpperC c)) := by
  rintro ⟨nb, h⟩
  unfold nbPeriodsPerYear at h
  split at h
  · cases h
  · unfold mapPeriodicities at h
    unfold IsPeriodicity
    split at h <;> simp_all

/-- Printing an existing period with a year of four digits and reading the text gives the period back. -/
theorem C02_print_parse (p : Period) (hwf : p.WF) (hper : IsPeriodicity p.periodicity)
    (hy1 : 1000 ≤ p.year) (hy2 : p.year ≤ 9999) : Period.parse p.toChars = .ok p := by
  obtain ⟨y, st, c⟩ := p
  simp only at hy1 hy2
  obtain ⟨nb, hnb, hs1, hs2⟩ := hwf
  simp only at hnb hs1 hs2 hper
  have hnbc := nbPeriodsPerYear_cases hnb
  obtain ⟨yn, rfl⟩ : ∃ n : Nat, y = n := ⟨y.toNat, by omega⟩
  obtain ⟨sn, rfl⟩ : ∃ n : Nat, st = n := ⟨st.toNat, by omega⟩
  have hc0 : c.toNat ≠ 0 := by
    unfold IsPeriodicity at hper
    simp only [List.mem_cons, List.not_mem_nil, or_false] at hper
    rcases hper with h | h | h | h | h | h <;> subst h <;> decide
  have hstr : Period.toChars ⟨yn, sn, c⟩ = natToChars yn ++ c :: natToChars sn := by
    unfold Period.toChars intToChars
    simp only
    rw [if_neg (by omega), if_neg (by omega), if_neg (by omega)]
    simp
  have hlen := natToChars_length_four (n := yn) (by omega) (by omega)
  have hval := digitsVal_natToChars yn
  have hdig := natToChars_isDigit yn
  have hstoi := stoi_natToChars (n := yn) (by omega)
  rw [hstr]
  match hl : natToChars yn, hlen with
  | [a, b, d, e], _ =>
    rw [hl] at hdig hstoi
    have e0 : isDigitC a = true := hdig a (by simp)
    have e1 : isDigitC b = true := hdig b (by simp)
    have e2 : isDigitC d = true := hdig d (by simp)
    have e3 : isDigitC e = true := hdig e (by simp)
    unfold Period.parse
    simp only [List.cons_append, List.nil_append, List.isEmpty_cons, Bool.false_eq_true, ↓reduceIte,
      Period.charAt, List.getD_cons_zero, List.getD_cons_succ, e0, e1, e2, e3, Bool.and_self,
      Bool.not_true, List.take_succ_cons, List.take_zero,
      hper.upper, hnb, Res.bind_ok, hstoi]
    have hps : Period.parseStep (a :: b :: d :: e :: c :: natToChars sn) = .ok (sn : Int) := by
      unfold Period.parseStep
      rw [if_neg (by simp only [List.length_cons]; omega)]
      simp only [List.drop_succ_cons, List.drop_zero]
      exact stoi_natToChars (by omega)
    rw [hps]
    simp only [Res.bind_ok]
    rw [if_neg (by omega), if_neg (by omega), if_neg (by omega)]

/-- Partial: what every accepted text satisfies. Missing for the full claim: `1 ≤ step`
    (see `C02_bad_step_counterexample`). -/
theorem C02_parse_accepts_partial (s : List Char) (p : Period) (h : Period.parse s = .ok p) :
    IsPeriodicity p.periodicity ∧ 200 ≤ p.year ∧ p.year ≤ 9999 ∧
      ∃ nb, nbPeriodsPerYear p.periodicity = .ok nb ∧ p.step ≤ nb := by
  unfold Period.parse at h
  split at h
  · cases h
  · split at h
    · cases h
    · rename_i hne hdig
      simp only [Bool.not_eq_true', Bool.and_eq_false_iff, not_or, Bool.not_eq_false] at hdig
      obtain ⟨⟨⟨d0, d1⟩, d2⟩, d3⟩ := hdig
      -- the string has at least four characters, all digits
      have hlen : 4 ≤ s.length := by
        apply Decidable.byContradiction; intro hc
        have : Period.charAt s 3 = Char.ofNat 0 := by
          unfold Period.charAt
          rw [List.getD_eq_getElem?_getD, List.getElem?_eq_none (by omega)]; rfl
        rw [this] at d3
        exact absurd d3 (by decide)
      match s, hlen, h with
      | a :: b :: c :: d :: r, _, h =>
        simp only [Period.charAt, List.getD_cons_zero, List.getD_cons_succ] at d0 d1 d2 d3 h
        cases hnb : nbPeriodsPerYear (toUpperC (r.getD 0 (Char.ofNat 0))) with
        | err => rw [hnb] at h; simp at h
        | ub => rw [hnb] at h; simp at h
        | ok nb =>
          rw [hnb] at h
          simp only [Res.bind_ok, List.take_succ_cons, List.take_zero] at h
          have hall : ∀ x ∈ [a, b, c, d], isDigitC x = true := by
            intro x hx
            simp only [List.mem_cons, List.not_mem_nil, or_false] at hx
            rcases hx with rfl | rfl | rfl | rfl <;> assumption
          have hv : stoi [a, b, c, d] = .ok (digitsVal 0 [a, b, c, d] : Int) ∧ digitsVal 0 [a, b, c, d] ≤ 9999 := by
            have bnd : ∀ x, isDigitC x = true → digitOf x ≤ 9 := by
              intro x hx
              unfold isDigitC at hx
              simp only [Bool.and_eq_true, decide_eq_true_eq] at hx
              unfold digitOf
              omega
            have b0 := bnd a d0
            have b1 := bnd b d1
            have b2 := bnd c d2
            have b3 := bnd d d3
            have hle : digitsVal 0 [a, b, c, d] ≤ 9999 := by
              simp only [digitsVal_cons, digitsVal_nil]; omega
            refine ⟨?_, hle⟩
            rw [stoi_of_digits hall]
            unfold stoiDigits
            rw [takeWhile_isDigit hall]
            simp only [List.isEmpty_cons, Bool.false_eq_true, ↓reduceIte, Res.bind_ok]
            rw [if_neg (by omega)]
          rw [hv.1] at h
          simp only [Res.bind_ok] at h
          cases hst : Period.parseStep (a :: b :: c :: d :: r) with
          | err => rw [hst] at h; simp at h
          | ub => rw [hst] at h; simp at h
          | ok st =>
            rw [hst] at h
            simp only [Res.bind_ok] at h
            split at h
            · cases h
            · rename_i hle
              cases h
              simp only
              refine ⟨?_, ?_, ?_, nb, hnb, by omega⟩
              · have := nbPeriodsPerYear_upper_iff (r.getD 0 (Char.ofNat 0)) ⟨nb, hnb⟩
                rwa [toUpperC_idem] at this
              · have := hv.2
                split
                · omega
                · split <;> omega
              · have := hv.2
                split
                · omega
                · split <;> omega

/-- The unrestricted claim is false: `"2000Y0"` and `"2000Q-3"` are accepted although no such period exists,
    and the first of them prints as the empty text. -/
theorem C02_bad_step_counterexample :
    (∃ p, Period.parse "2000Y0".toList = .ok p ∧ ¬ p.WF ∧ p.toChars = []) ∧
    (∃ p, Period.parse "2000Q-3".toList = .ok p ∧ ¬ p.WF) := by
  refine ⟨⟨⟨2000, 0, 'Y'⟩, by decide, ?_, by decide⟩, ⟨⟨2000, -3, 'Q'⟩, by decide, ?_⟩⟩
  · rintro ⟨nb, -, h, -⟩; exact absurd h (by decide)
  · rintro ⟨nb, -, h, -⟩; exact absurd h (by decide)

/-- An accepted text with a step of at least 1 and a year from 1000 on reads the same after being normalised
    by printing: parsing is stable. -/
theorem C02_parse_stable (s : List Char) (p : Period) (h : Period.parse s = .ok p) (hs : 1 ≤ p.step)
    (hy : 1000 ≤ p.year) : Period.parse p.toChars = .ok p := by
  obtain ⟨hp, hy1, hy2, nb, hnb, hle⟩ := C02_parse_accepts_partial s p h
  exact C02_print_parse p ⟨nb, hnb, hs, hle⟩ hp hy hy2

/-! Concrete cases. -/
example : Period.parse "1999m12".toList = .ok ⟨1999, 12, 'M'⟩ := by decide
example : Period.parse "2000".toList = .err := by decide
example : (Period.mk 2024 7 'M').toChars = "2024M7".toList := by
  simp [Period.toChars, intToChars, natToChars, digitChar]

end Iode
