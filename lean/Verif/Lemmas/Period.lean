import Verif.Model.Period

namespace Iode

/-- Spec notion: the calendar periods that exist. -/
def Period.WF (p : Period) : Prop :=
  ∃ nb, nbPeriodsPerYear p.periodicity = .ok nb ∧ 1 ≤ p.step ∧ p.step ≤ nb

theorem nbPeriodsPerYear_cases {c : Char} {nb : Int} (h : nbPeriodsPerYear c = .ok nb) :
    nb = 1 ∨ nb = 2 ∨ nb = 4 ∨ nb = 12 ∨ nb = 52 ∨ nb = 365 := by
  unfold nbPeriodsPerYear at h
  split at h
  · cases h
  · unfold mapPeriodicities at h
    split at h <;> simp_all

theorem nbPeriodsPerYear_pos {c : Char} {nb : Int} (h : nbPeriodsPerYear c = .ok nb) : 0 < nb := by
  have := nbPeriodsPerYear_cases h
  omega

/-- Forward or backward, a shift of a well-formed period is the unique well-formed period at distance `n`. -/
theorem Period.shift_spec {p : Period} {nb : Int} (hnb : nbPeriodsPerYear p.periodicity = .ok nb)
    (h1 : 1 ≤ p.step) (h2 : p.step ≤ nb) (n : Int) :
    ∃ q, p.shift n = .ok q ∧ q.periodicity = p.periodicity ∧ 1 ≤ q.step ∧ q.step ≤ nb ∧
      nb * q.year + q.step = nb * p.year + p.step + n := by
  have hpos := nbPeriodsPerYear_pos hnb
  unfold Period.shift
  rw [hnb]
  simp only [Res.bind_ok]
  by_cases hn : n ≥ 0
  · rw [if_pos hn]
    refine ⟨_, rfl, rfl, ?_⟩
    simp only
    have hs : 0 ≤ p.step + n - 1 := by omega
    rw [Int.tdiv_eq_ediv_of_nonneg hs, Int.tmod_eq_emod_of_nonneg hs]
    have hm0 := Int.emod_nonneg (p.step + n - 1) (by omega : nb ≠ 0)
    have hm1 := Int.emod_lt_of_pos (p.step + n - 1) hpos
    have hd := Int.mul_ediv_add_emod (p.step + n - 1) nb
    refine ⟨by omega, by omega, ?_⟩
    rw [Int.mul_add]
    omega
  · rw [if_neg hn]
    by_cases hs : p.step + n ≤ 0
    · rw [if_pos hs]
      refine ⟨_, rfl, rfl, ?_⟩
      simp only
      have hs' : 0 ≤ -(p.step + n) := by omega
      rw [Int.tdiv_eq_ediv_of_nonneg hs']
      have hm0 := Int.emod_nonneg (-(p.step + n)) (by omega : nb ≠ 0)
      have hm1 := Int.emod_lt_of_pos (-(p.step + n)) hpos
      have hd := Int.mul_ediv_add_emod (-(p.step + n)) nb
      have e1 : (1 + -(p.step + n) / nb) * nb = nb + nb * (-(p.step + n) / nb) := by
        rw [Int.add_mul, Int.one_mul, Int.mul_comm (-(p.step + n) / nb)]
      refine ⟨by omega, by omega, ?_⟩
      rw [Int.mul_sub, Int.mul_add, Int.mul_one]
      omega
    · rw [if_neg hs]
      exact ⟨_, rfl, rfl, by simp only; omega, by simp only; omega, by simp only; omega⟩

/-- Positions determine well-formed periods. -/
theorem Period.pos_inj {nb y1 s1 y2 s2 : Int} (hpos : 0 < nb) (h1 : 1 ≤ s1) (h2 : s1 ≤ nb)
    (h3 : 1 ≤ s2) (h4 : s2 ≤ nb) (h : nb * y1 + s1 = nb * y2 + s2) : y1 = y2 ∧ s1 = s2 := by
  have hy : y1 = y2 := by
    have hd : nb * (y1 - y2) = s2 - s1 := by rw [Int.mul_sub]; omega
    have hlt : -nb < nb * (y1 - y2) ∧ nb * (y1 - y2) < nb := by omega
    rcases Int.lt_trichotomy (y1 - y2) 0 with hh | hh | hh
    · have : nb * (y1 - y2) ≤ nb * (-1) := Int.mul_le_mul_of_nonneg_left (by omega) (by omega)
      omega
    · omega
    · have : nb * 1 ≤ nb * (y1 - y2) := Int.mul_le_mul_of_nonneg_left (by omega) (by omega)
      omega
  subst hy
  exact ⟨rfl, by omega⟩

theorem Period.ext_of_pos {p q : Period} {nb : Int} (hpos : 0 < nb) (hp1 : 1 ≤ p.step) (hp2 : p.step ≤ nb)
    (hq1 : 1 ≤ q.step) (hq2 : q.step ≤ nb) (hper : p.periodicity = q.periodicity)
    (h : nb * p.year + p.step = nb * q.year + q.step) : p = q := by
  have := Period.pos_inj hpos hp1 hp2 hq1 hq2 h
  cases p; cases q
  simp_all

theorem Period.difference_spec {p q : Period} {nb : Int} (hnb : nbPeriodsPerYear p.periodicity = .ok nb)
    (hper : p.periodicity = q.periodicity) :
    p.difference q = .ok (nb * p.year + p.step - (nb * q.year + q.step)) := by
  unfold Period.difference
  rw [if_neg (by simpa using hper), hnb]
  simp only [Res.bind_ok, Res.ok.injEq, Int.mul_sub]
  omega

end Iode
