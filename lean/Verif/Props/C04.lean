import Verif.Props.C03

/-!
# C04  Sample intersection is set intersection

Specification: `Contains smp q` says that `q` lies between the bounds of the sample (as in C03, without the
16-bit counter). A sample is proper when it was built from two existing periods of one periodicity.
-/
namespace Iode

/-- A sample as the constructor builds it. -/
structure Sample.Proper (a : Sample) : Prop where
  wfs : a.start.WF
  wfe : a.stop.WF
  same : a.stop.periodicity = a.start.periodicity
  built : Sample.ofPeriods a.start a.stop = .ok a

/-- `q` is one of the periods of `a`. -/
def Sample.Contains (a : Sample) (q : Period) : Prop := InRange a.start a.stop q

/-- Two samples of the same periodicity: the intersection is computed and contains exactly the common periods
    when there is one, and an error is reported exactly when there is none. -/
theorem C04_intersection (a b : Sample) (ha : a.Proper) (hb : b.Proper)
    (hper : a.start.periodicity = b.start.periodicity) :
    (∀ c, a.intersection b = .ok c →
      c.Proper ∧ ∀ q, c.Contains q ↔ (a.Contains q ∧ b.Contains q)) ∧
    (a.intersection b = .err ↔ ¬ ∃ q, a.Contains q ∧ b.Contains q) ∧
    a.intersection b ≠ .ub := by
  obtain ⟨a1, a2, an⟩ := a
  obtain ⟨b1, b2, bn⟩ := b
  obtain ⟨wa1, wa2, sa, hba⟩ := ha
  obtain ⟨wb1, wb2, sb, hbb⟩ := hb
  simp only at wa1 wa2 sa wb1 wb2 sb hper hba hbb
  obtain ⟨nb, hnb, a11, a12⟩ := wa1
  have hnb2 : nbPeriodsPerYear b1.periodicity = .ok nb := by rw [← hper]; exact hnb
  have hnb3 : nbPeriodsPerYear a2.periodicity = .ok nb := by rw [sa]; exact hnb
  have hnb4 : nbPeriodsPerYear b2.periodicity = .ok nb := by rw [sb]; exact hnb2
  -- any two bounds: sample_from_periods
  have hof : ∀ s e : Period, s.WF → e.WF → s.periodicity = a1.periodicity → e.periodicity = a1.periodicity →
      Sample.ofPeriods s e =
        if nb * e.year + e.step - (nb * s.year + s.step) < 0 then .err
        else .ok ⟨s, e, toShort (nb * e.year + e.step - (nb * s.year + s.step) + 1)⟩ := by
    intro s e hs he hps hpe
    unfold Sample.ofPeriods
    rw [Period.difference_spec (by rw [hpe]; exact hnb) (hpe.trans hps.symm)]
    rfl
  have hin : ∀ s e : Period, s.periodicity = a1.periodicity → ∀ q, InRange s e q ↔
      (q.WF ∧ q.periodicity = a1.periodicity ∧
        nb * s.year + s.step ≤ nb * q.year + q.step ∧ nb * q.year + q.step ≤ nb * e.year + e.step) := by
    intro s e hs q
    unfold InRange
    rw [hs]
    constructor
    · rintro ⟨h1, h2, nb', h3, h4, h5⟩
      rw [hnb] at h3; cases h3
      exact ⟨h1, h2, h4, h5⟩
    · rintro ⟨h1, h2, h4, h5⟩
      exact ⟨h1, h2, nb, hnb, h4, h5⟩
  -- the bounds chosen by the code
  obtain ⟨rs, hrs, wrs, prs, hrs1, hrs2⟩ : ∃ rs, (if nb * a1.year + a1.step - (nb * b1.year + b1.step) < 0 then b1 else a1) = rs ∧
      rs.WF ∧ rs.periodicity = a1.periodicity ∧
      (∀ x, nb * rs.year + rs.step ≤ x ↔ (nb * a1.year + a1.step ≤ x ∧ nb * b1.year + b1.step ≤ x)) ∧ True := by
    split
    · exact ⟨b1, rfl, wb1, hper.symm, fun x => by omega, trivial⟩
    · exact ⟨a1, rfl, ⟨nb, hnb, a11, a12⟩, rfl, fun x => by omega, trivial⟩
  obtain ⟨re, hre, wre, pre, hre1⟩ : ∃ re, (if nb * a2.year + a2.step - (nb * b2.year + b2.step) > 0 then b2 else a2) = re ∧
      re.WF ∧ re.periodicity = a1.periodicity ∧
      (∀ x, x ≤ nb * re.year + re.step ↔ (x ≤ nb * a2.year + a2.step ∧ x ≤ nb * b2.year + b2.step)) := by
    split
    · exact ⟨b2, rfl, wb2, by rw [sb, hper], fun x => by omega⟩
    · exact ⟨a2, rfl, wa2, sa, fun x => by omega⟩
  have hint : Sample.intersection ⟨a1, a2, an⟩ ⟨b1, b2, bn⟩ = Sample.ofPeriods rs re := by
    unfold Sample.intersection
    simp only
    rw [if_neg (by simpa using hper), Period.difference_spec hnb hper, Res.bind_ok,
      Period.difference_spec hnb3 (by rw [sa, sb, hper]), Res.bind_ok]
    rw [hrs, hre]
  have hcontains : ∀ q, ((Sample.Contains ⟨a1, a2, an⟩ q ∧ Sample.Contains ⟨b1, b2, bn⟩ q) ↔ InRange rs re q) := by
    intro q
    unfold Sample.Contains
    simp only
    rw [hin a1 a2 rfl, hin b1 b2 hper.symm, hin rs re prs]
    constructor
    · rintro ⟨⟨h1, h2, h3, h4⟩, ⟨-, -, h5, h6⟩⟩
      exact ⟨h1, h2, (hrs1 _).2 ⟨h3, h5⟩, (hre1 _).2 ⟨h4, h6⟩⟩
    · rintro ⟨h1, h2, h3, h4⟩
      have := (hrs1 _).1 h3
      have := (hre1 _).1 h4
      exact ⟨⟨h1, h2, by omega, by omega⟩, ⟨h1, h2, by omega, by omega⟩⟩
  rw [hint, hof rs re wrs wre prs pre]
  refine ⟨?_, ?_, ?_⟩
  · intro c hc
    split at hc
    · cases hc
    · rename_i hpos
      cases hc
      refine ⟨⟨wrs, wre, pre.trans prs.symm, ?_⟩, fun q => (hcontains q).symm⟩
      rw [hof rs re wrs wre prs pre, if_neg hpos]
  · split
    · rename_i hneg
      refine ⟨fun _ => ?_, fun _ => rfl⟩
      rintro ⟨q, hq⟩
      have := (hin rs re prs q).1 ((hcontains q).1 hq)
      omega
    · rename_i hpos
      constructor
      · intro h; cases h
      · intro h
        exact absurd ⟨rs, (hcontains rs).2 ((hin rs re prs rs).2 ⟨wrs, prs, by omega, by omega⟩)⟩ h
  · split <;> simp

/-- Samples of different periodicity have no intersection: an error is reported. -/
theorem C04_intersection_mixed (a b : Sample) (h : a.start.periodicity ≠ b.start.periodicity) :
    a.intersection b = .err := by
  simp [Sample.intersection, h]

/-! Concrete cases. -/
example : Sample.Proper ⟨⟨2000, 1, 'Y'⟩, ⟨2010, 1, 'Y'⟩, 11⟩ :=
  ⟨⟨1, by decide, by decide, by decide⟩, ⟨1, by decide, by decide, by decide⟩, rfl, by decide⟩
example : Sample.intersection ⟨⟨2000, 1, 'Y'⟩, ⟨2010, 1, 'Y'⟩, 11⟩ ⟨⟨2005, 1, 'Y'⟩, ⟨2015, 1, 'Y'⟩, 11⟩
    = .ok ⟨⟨2005, 1, 'Y'⟩, ⟨2010, 1, 'Y'⟩, 6⟩ := by decide
example : Sample.intersection ⟨⟨2000, 1, 'Y'⟩, ⟨2001, 1, 'Y'⟩, 2⟩ ⟨⟨2005, 1, 'Y'⟩, ⟨2015, 1, 'Y'⟩, 11⟩
    = .err := by decide

end Iode
