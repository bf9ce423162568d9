import Verif.Model.Sample
import Verif.Lemmas.Period

/-!
# C03  A sample enumerates its periods without gaps

Specification. `q` lies in the range from `s` to `e` when it exists, has the same periodicity, and is neither
before `s` nor after `e` (`InRange`); the order is that of calendar positions `nb * year + step`.
-/
namespace Iode

/-- `q` is a period between `s` and `e` (inclusive). -/
def InRange (s e q : Period) : Prop :=
  q.WF ∧ q.periodicity = s.periodicity ∧
    ∃ nb, nbPeriodsPerYear s.periodicity = .ok nb ∧
      nb * s.year + s.step ≤ nb * q.year + q.step ∧ nb * q.year + q.step ≤ nb * e.year + e.step

/-- Hypotheses shared by the theorems: two existing periods of one periodicity, `e` lies `n` periods after `s`. -/
structure SpanOf (s e : Period) (n : Nat) : Prop where
  wfs : s.WF
  wfe : e.WF
  same : e.periodicity = s.periodicity
  dist : e.difference s = .ok (n : Int)

theorem toShort_of_le {i : Int} (h0 : 0 ≤ i) (h : i ≤ 32767) : toShort i = i := by
  unfold toShort
  rw [Int.bmod_eq_of_le] <;> omega

theorem Sample.listLoop_spec {s : Period} {nb : Int} (hnb : nbPeriodsPerYear s.periodicity = .ok nb)
    (h1 : 1 ≤ s.step) (h2 : s.step ≤ nb) :
    ∀ (k : Nat) (t : Int), ∃ l, Sample.listLoop s t k = .ok l ∧ l.length = k ∧
      ∀ i, i < k → ∃ q, l[i]? = some q ∧ s.shift (t + i) = .ok q
  | 0, t => ⟨[], rfl, rfl, fun i hi => absurd hi (Nat.not_lt_zero i)⟩
  | k + 1, t => by
      obtain ⟨q, hq, -⟩ := Period.shift_spec hnb h1 h2 t
      obtain ⟨l, hl, hlen, hget⟩ := Sample.listLoop_spec hnb h1 h2 k (t + 1)
      refine ⟨q :: l, by simp [Sample.listLoop, hq, hl], by simp [hlen], ?_⟩
      intro i hi
      cases i with
      | zero => exact ⟨q, by simp, by simpa using hq⟩
      | succ j =>
          obtain ⟨r, hr, hs⟩ := hget j (by omega)
          refine ⟨r, by simpa using hr, ?_⟩
          rw [← hs]; congr 1; push_cast; omega

/-- A sample of at most 32767 periods is created, counts its periods correctly, lists exactly
    `s, s+1, ..., e`, in this order. -/
theorem C03_sample_enumerates (s e : Period) (n : Nat) (h : SpanOf s e n) (hn : n + 1 ≤ 32767) :
    ∃ smp l, Sample.ofPeriods s e = .ok smp ∧ smp.start = s ∧ smp.stop = e ∧ smp.nb = n + 1 ∧
      smp.listPeriods = .ok l ∧ l.length = n + 1 ∧
      (∀ i, i < n + 1 → ∃ q, l[i]? = some q ∧ s.shift i = .ok q ∧ smp.position q = .ok (i : Int)) ∧
      l[0]? = some s ∧ l[n]? = some e ∧ l.Nodup := by
  obtain ⟨hs, he, hper, hd⟩ := h
  have hs' := hs
  obtain ⟨nb, hnb, h1, h2⟩ := hs'
  obtain ⟨l, hl, hlen, hget⟩ := Sample.listLoop_spec hnb h1 h2 (n + 1) 0
  have hshort : toShort ((n : Int) + 1) = n + 1 := toShort_of_le (by omega) (by omega)
  have hpos : ∀ i q, s.shift (i : Nat) = .ok q → q.difference s = .ok (i : Int) := by
    intro i q hq
    obtain ⟨q', hq', hper', hq1, hq2, hqp⟩ := Period.shift_spec hnb h1 h2 (i : Int)
    rw [hq] at hq'; cases hq'
    rw [Period.difference_spec (by rw [hper']; exact hnb) hper']
    simp only [Res.ok.injEq]; omega
  have hget' : ∀ i, i < n + 1 → ∃ q, l[i]? = some q ∧ s.shift i = .ok q := by
    intro i hi
    obtain ⟨q, hq, hsq⟩ := hget i hi
    exact ⟨q, hq, by simpa using hsq⟩
  have h0 : s.shift ((0 : Nat) : Int) = .ok s := by
    obtain ⟨q, hq, hper', hq1, hq2, hqp⟩ := Period.shift_spec hnb h1 h2 ((0 : Nat) : Int)
    rw [hq]
    exact congrArg Res.ok
      (Period.ext_of_pos (nbPeriodsPerYear_pos hnb) hq1 hq2 h1 h2 hper' (by omega))
  have hne : s.shift ((n : Nat) : Int) = .ok e := by
    obtain ⟨nb', hnb', e1, e2⟩ := he
    rw [hper, hnb] at hnb'; cases hnb'
    obtain ⟨q, hq, hper', hq1, hq2, hqp⟩ := Period.shift_spec hnb h1 h2 ((n : Nat) : Int)
    rw [Period.difference_spec (by rw [hper]; exact hnb) hper] at hd
    simp only [Res.ok.injEq] at hd
    rw [hq]
    exact congrArg Res.ok
      (Period.ext_of_pos (nbPeriodsPerYear_pos hnb) hq1 hq2 e1 e2 (hper'.trans hper.symm) (by omega))
  refine ⟨⟨s, e, n + 1⟩, l, ?_, rfl, rfl, rfl, ?_, by omega, ?_, ?_, ?_, ?_⟩
  · unfold Sample.ofPeriods
    rw [hd, Res.bind_ok, if_neg (by omega), hshort]
  · unfold Sample.listPeriods
    rw [if_neg (by simp only; omega)]
    have : ((n : Int) + 1).toNat = n + 1 := by omega
    simp only [this, hl]
  · intro i hi
    obtain ⟨q, hq, hsq⟩ := hget' i hi
    refine ⟨q, hq, hsq, ?_⟩
    unfold Sample.position
    simp only
    rw [hpos i q hsq, Res.bind_ok, if_neg (by omega)]
  · obtain ⟨q, hq, hsq⟩ := hget' 0 (by omega)
    rw [h0] at hsq; cases hsq; exact hq
  · obtain ⟨q, hq, hsq⟩ := hget' n (by omega)
    rw [hne] at hsq; cases hsq; exact hq
  · unfold List.Nodup
    rw [List.pairwise_iff_getElem]
    intro i j hi hj hij heq
    obtain ⟨q, hq, hsq⟩ := hget' i (by omega)
    obtain ⟨r, hr, hsr⟩ := hget' j (by omega)
    rw [List.getElem?_eq_getElem hi] at hq
    rw [List.getElem?_eq_getElem hj] at hr
    cases hq; cases hr
    rw [← heq] at hsr
    have a := hpos i _ hsq
    have b := hpos j _ hsr
    rw [a] at b; simp only [Res.ok.injEq] at b
    omega

/-- A period has a position in the sample exactly when it lies between its bounds, and the position is its
    distance to the first period. -/
theorem C03_position_iff (s e : Period) (n : Nat) (h : SpanOf s e n) (hn : n + 1 ≤ 32767) (q : Period)
    (hq : q.WF) (smp : Sample) (hsmp : Sample.ofPeriods s e = .ok smp) (t : Int) :
    smp.position q = .ok t ↔ InRange s e q ∧ q.difference s = .ok t := by
  obtain ⟨hs, he, hper, hd⟩ := h
  obtain ⟨nb, hnb, h1, h2⟩ := hs
  have hshort : toShort ((n : Int) + 1) = n + 1 := toShort_of_le (by omega) (by omega)
  unfold Sample.ofPeriods at hsmp
  rw [hd, Res.bind_ok, if_neg (by omega), hshort] at hsmp
  cases hsmp
  rw [Period.difference_spec (by rw [hper]; exact hnb) hper] at hd
  simp only [Res.ok.injEq] at hd
  unfold Sample.position InRange
  by_cases hp : q.periodicity = s.periodicity
  · rw [Period.difference_spec (by rw [hp]; exact hnb) hp]
    simp only [Res.bind_ok]
    constructor
    · intro hh
      split at hh
      · cases hh
      · rename_i hc
        cases hh
        exact ⟨⟨hq, hp, nb, hnb, by omega, by omega⟩, rfl⟩
    · rintro ⟨⟨-, -, nb', hnb', ha, hb⟩, ht⟩
      rw [hnb] at hnb'; cases hnb'
      cases ht
      rw [if_neg (by omega)]
  · have : q.difference s = .err := by simp [Period.difference, hp]
    rw [this]
    simp

/-- The full claim is false: the count is a 16-bit number. A daily sample over 101 years gets a negative
    count, none of its own periods has a position and it cannot be listed. -/
theorem C03_overflow_counterexample :
    ∃ s e smp, s.WF ∧ e.WF ∧ s.periodicity = e.periodicity ∧ Sample.ofPeriods s e = .ok smp ∧
      e.difference s = .ok 36864 ∧ smp.nb = -28671 ∧ smp.position s = .err ∧ smp.listPeriods = .err := by
  refine ⟨⟨1900, 1, 'D'⟩, ⟨2000, 365, 'D'⟩, ⟨⟨1900, 1, 'D'⟩, ⟨2000, 365, 'D'⟩, -28671⟩, ?_⟩
  refine ⟨⟨365, by decide, by decide, by decide⟩, ⟨365, by decide, by decide, by decide⟩, rfl,
    by decide, by decide, by decide, by decide, by decide⟩

/-- The count is right exactly for samples of at most 32767 periods (for spans below 65536 periods). -/
theorem C03_count_correct_iff (s e : Period) (n : Nat) (h : SpanOf s e n) (hn : n + 1 < 65536)
    (smp : Sample) (hsmp : Sample.ofPeriods s e = .ok smp) : smp.nb = n + 1 ↔ n + 1 ≤ 32767 := by
  obtain ⟨hs, he, hper, hd⟩ := h
  unfold Sample.ofPeriods at hsmp
  rw [hd, Res.bind_ok, if_neg (by omega)] at hsmp
  cases hsmp
  simp only [toShort, Int.bmod_def]
  have : ((n : Int) + 1) % (65536 : Nat) = n + 1 := by
    apply Int.emod_eq_of_lt <;> omega
  rw [this]
  split <;> omega

/-! Concrete cases meeting the hypotheses. -/
example : SpanOf ⟨2000, 3, 'Q'⟩ ⟨2002, 1, 'Q'⟩ 6 :=
  ⟨⟨4, by decide, by decide, by decide⟩, ⟨4, by decide, by decide, by decide⟩, rfl, by decide⟩
example : (Sample.ofPeriods ⟨2000, 3, 'Q'⟩ ⟨2000, 4, 'Q'⟩ >>= Sample.listPeriods)
    = .ok [⟨2000, 3, 'Q'⟩, ⟨2000, 4, 'Q'⟩] := by decide

end Iode
