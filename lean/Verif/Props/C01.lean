import Verif.Lemmas.Period
import Verif.Lemmas.Text

/-!
# C01  Shifting a period and measuring distances are inverse operations

Specification: a period exists when its letter is a known periodicity and its step lies between 1 and the
number of periods per year (`Period.WF`). Nothing else of the model's internals is used in the statements
besides the two API calls `shift` and `difference`.
-/
namespace Iode

/-- A shift of an existing period by any number of periods succeeds, gives an existing period of the same
    periodicity, and lies exactly `n` periods further. -/
theorem C01_shift_distance (p : Period) (h : p.WF) (n : Int) :
    ∃ q, p.shift n = .ok q ∧ q.WF ∧ q.periodicity = p.periodicity ∧
      q.difference p = .ok n ∧ p.difference q = .ok (-n) := by
  obtain ⟨nb, hnb, h1, h2⟩ := h
  obtain ⟨q, hq, hper, hq1, hq2, hpos⟩ := Period.shift_spec hnb h1 h2 n
  refine ⟨q, hq, ⟨nb, by rw [hper]; exact hnb, hq1, hq2⟩, hper, ?_, ?_⟩
  · rw [Period.difference_spec (by rw [hper]; exact hnb) hper]
    simp only [Res.ok.injEq]; omega
  · rw [Period.difference_spec hnb hper.symm]
    simp only [Res.ok.injEq]; omega

/-- Shifts add up, in any mixture of signs. -/
theorem C01_shift_add (p : Period) (h : p.WF) (a b : Int) :
    (p.shift a >>= fun q => q.shift b) = p.shift (a + b) := by
  obtain ⟨nb, hnb, h1, h2⟩ := h
  obtain ⟨q, hq, hper, hq1, hq2, hpos⟩ := Period.shift_spec hnb h1 h2 a
  obtain ⟨r, hr, hrper, hr1, hr2, hrpos⟩ :=
    Period.shift_spec (p := q) (by rw [hper]; exact hnb) hq1 hq2 b
  obtain ⟨s, hs, hsper, hs1, hs2, hspos⟩ := Period.shift_spec hnb h1 h2 (a + b)
  rw [hq, Res.bind_ok, hr, hs]
  congr 1
  exact Period.ext_of_pos (nbPeriodsPerYear_pos hnb) hr1 hr2 hs1 hs2 (by rw [hrper, hper, hsper]) (by omega)

/-- Shifting by the distance to `q` reaches `q`. -/
theorem C01_shift_by_difference (p q : Period) (hp : p.WF) (hq : q.WF) (hper : q.periodicity = p.periodicity) :
    ∃ n, q.difference p = .ok n ∧ p.shift n = .ok q := by
  obtain ⟨nb, hnb, h1, h2⟩ := hp
  obtain ⟨nb', hnb', h1', h2'⟩ := hq
  rw [hper, hnb] at hnb'
  cases hnb'
  refine ⟨_, Period.difference_spec (by rw [hper]; exact hnb) hper, ?_⟩
  obtain ⟨r, hr, hrper, hr1, hr2, hrpos⟩ :=
    Period.shift_spec hnb h1 h2 (nb * q.year + q.step - (nb * p.year + p.step))
  rw [hr]
  congr 1
  exact Period.ext_of_pos (nbPeriodsPerYear_pos hnb) hr1 hr2 h1' h2' (by rw [hrper, hper]) (by omega)

/-- Distances compose: they are additive along any three periods of the same periodicity. -/
theorem C01_difference_chain (p q r : Period) (hp : p.WF)
    (hpq : p.periodicity = q.periodicity) (hqr : q.periodicity = r.periodicity) :
    ∃ a b, p.difference q = .ok a ∧ q.difference r = .ok b ∧ p.difference r = .ok (a + b) := by
  obtain ⟨nb, hnb, -, -⟩ := hp
  refine ⟨_, _, Period.difference_spec hnb hpq, Period.difference_spec (by rw [← hpq]; exact hnb) hqr, ?_⟩
  rw [Period.difference_spec hnb (hpq.trans hqr)]
  simp only [Res.ok.injEq]; omega

/-- Periods of different periodicity have no distance: an error is reported. -/
theorem C01_difference_mixed (p q : Period) (h : p.periodicity ≠ q.periodicity) :
    p.difference q = .err := by
  simp [Period.difference, h]

/-- The calendar: number of periods in a year for each letter, in either case. -/
def calendar : List (Char × Char × Int) :=
  [('Y', 'y', 1), ('S', 's', 2), ('Q', 'q', 4), ('M', 'm', 12), ('W', 'w', 52), ('D', 'd', 365)]

theorem nbPeriods_calendar : ∀ e ∈ calendar, nbPeriodsPerYear e.1 = .ok e.2.2 ∧ nbPeriodsPerYear e.2.1 = .ok e.2.2 := by
  decide

/-- The constructor gives the period asked for exactly when the letter is in the calendar and the step exists in a year;
    otherwise it reports an error. -/
theorem C01_make (y : Int) (c : Char) (s : Int) :
    (∀ p, Period.make y c s = .ok p ↔ (p = ⟨y, s, c⟩ ∧ ∃ e ∈ calendar, (c = e.1 ∨ c = e.2.1) ∧ 1 ≤ s ∧ s ≤ e.2.2)) ∧
    ((∃ p, Period.make y c s = .ok p) ∨ Period.make y c s = .err) := by
  have hknown : ∀ nb, nbPeriodsPerYear c = .ok nb → ∃ e ∈ calendar, (c = e.1 ∨ c = e.2.1) ∧ e.2.2 = nb := by
    intro nb h
    unfold nbPeriodsPerYear at h
    split at h
    · cases h
    · have hu : ∀ u : Char, 65 ≤ u.toNat → u.toNat ≤ 90 → toUpperC c = u →
          c = u ∨ c = Char.ofNat (u.toNat + 32) := by
        intro u h1 h2 hc
        unfold toUpperC at hc
        split at hc
        · right
          rename_i hr
          have h3 : (Char.ofNat (c.toNat - 32)).toNat = c.toNat - 32 := by
            exact toNat_ofNat_small (by omega)
          have h4 : c.toNat = u.toNat + 32 := by rw [← hc, h3]; omega
          rw [← h4, Char.ofNat_toNat]
        · exact .inl hc
      unfold mapPeriodicities at h
      split at h
      · rename_i hc; exact ⟨('Y', 'y', 1), by decide, hu _ (by decide) (by decide) hc, by simpa using h⟩
      · rename_i hc; exact ⟨('S', 's', 2), by decide, hu _ (by decide) (by decide) hc, by simpa using h⟩
      · rename_i hc; exact ⟨('Q', 'q', 4), by decide, hu _ (by decide) (by decide) hc, by simpa using h⟩
      · rename_i hc; exact ⟨('M', 'm', 12), by decide, hu _ (by decide) (by decide) hc, by simpa using h⟩
      · rename_i hc; exact ⟨('W', 'w', 52), by decide, hu _ (by decide) (by decide) hc, by simpa using h⟩
      · rename_i hc; exact ⟨('D', 'd', 365), by decide, hu _ (by decide) (by decide) hc, by simpa using h⟩
      · simp at h
  have hnub : nbPeriodsPerYear c ≠ .ub := by
    unfold nbPeriodsPerYear
    split
    · simp
    · cases mapPeriodicities (toUpperC c) <;> simp
  cases hn : nbPeriodsPerYear c with
  | ub => exact absurd hn hnub
  | err =>
    have hm : Period.make y c s = .err := by simp only [Period.make, hn, Res.bind_err]
    rw [hm]
    refine ⟨fun p => ⟨(fun h => by cases h), ?_⟩, .inr rfl⟩
    rintro ⟨_, e, he, hc, _, _⟩
    have := nbPeriods_calendar e he
    rcases hc with rfl | rfl
    · rw [hn] at this; cases this.1
    · rw [hn] at this; cases this.2
  | ok nb =>
    obtain ⟨e, he, hc, henb⟩ := hknown nb hn
    have hm : Period.make y c s = if s < 1 ∨ s > nb then .err else .ok ⟨y, s, c⟩ := by
      simp only [Period.make, hn, Res.bind_ok]
    rw [hm]
    split
    · rename_i hs
      refine ⟨fun p => ⟨(fun h => by cases h), ?_⟩, .inr rfl⟩
      rintro ⟨_, e', he', hc', h1, h2⟩
      have h3 : e'.2.2 = nb := by
        have := nbPeriods_calendar e' he'
        rcases hc' with rfl | rfl
        · rw [hn] at this; simpa using this.1.symm
        · rw [hn] at this; simpa using this.2.symm
      omega
    · rename_i hs
      refine ⟨fun p => ⟨fun h => ⟨by simpa using h.symm, e, he, hc, by omega, by omega⟩, ?_⟩, .inl ⟨_, rfl⟩⟩
      rintro ⟨rfl, _⟩
      rfl

/-- A constructed period is an existing one. -/
theorem C01_make_wf (y : Int) (c : Char) (s : Int) (p : Period) (h : Period.make y c s = .ok p) : p.WF := by
  obtain ⟨rfl, e, he, hc, h1, h2⟩ := ((C01_make y c s).1 p).1 h
  have := nbPeriods_calendar e he
  rcases hc with rfl | rfl
  · exact ⟨_, this.1, h1, h2⟩
  · exact ⟨_, this.2, h1, h2⟩

example : Period.make 2020 'q' 4 = .ok ⟨2020, 4, 'q'⟩ ∧ Period.make 2020 'Q' 5 = .err ∧ Period.make 2020 'X' 1 = .err := by
  decide

/-! Concrete cases meeting the hypotheses. -/
example : (Period.mk 2020 3 'Q').WF := ⟨4, by decide, by decide, by decide⟩
example : (Period.mk 2020 3 'Q').shift (-11) = .ok ⟨2017, 4, 'Q'⟩ := by decide
example : (Period.mk 2020 3 'Q').shift 6 = .ok ⟨2022, 1, 'Q'⟩ := by decide
example : ((Period.mk 2020 12 'M').shift 1 >>= fun q => q.shift (-13)) = .ok ⟨2019, 12, 'M'⟩ := by decide

end Iode
