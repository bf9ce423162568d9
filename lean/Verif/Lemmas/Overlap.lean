import Verif.Model.Vars
import Verif.Props.C04

/-!
# Overlap of two samples, copy loops
-/
namespace Iode

/-- A sample of two existing periods with at most 32767 periods (the counter is a `short`). -/
def Sample.Fair (s : Sample) : Prop := ∃ n : Nat, SpanOf s.start s.stop n ∧ n + 1 ≤ 32767 ∧ s.nb = n + 1

theorem Sample.Fair.nb_pos {s : Sample} (h : s.Fair) : 0 < s.nb := by
  obtain ⟨n, -, -, h⟩ := h; omega

theorem Sample.Fair.built {s : Sample} (h : s.Fair) : Sample.ofPeriods s.start s.stop = .ok s := by
  obtain ⟨n, ⟨-, -, -, hd⟩, hn, hs⟩ := h
  unfold Sample.ofPeriods
  rw [hd, Res.bind_ok, if_neg (by omega), toShort_of_le (by omega) (by omega), ← hs]

theorem Sample.Fair.proper {s : Sample} (h : s.Fair) : s.Proper := by
  have hb := h.built
  obtain ⟨n, ⟨h1, h2, h3, -⟩, -, -⟩ := h
  exact ⟨h1, h2, h3, hb⟩

/-- Calendar number of a period. -/
def Period.ord (nb : Int) (p : Period) : Int := nb * p.year + p.step

theorem Sample.Fair.span {s : Sample} (h : s.Fair) {nb : Int} (hnb : nbPeriodsPerYear s.start.periodicity = .ok nb) :
    s.nb = s.stop.ord nb - s.start.ord nb + 1 := by
  obtain ⟨n, ⟨h1, h2, h3, h4⟩, hn, hs⟩ := h
  rw [Period.difference_spec (by rw [h3]; exact hnb) h3] at h4
  simp only [Res.ok.injEq] at h4
  unfold Period.ord; omega

theorem Sample.position_eq {s : Sample} {q : Period} {nb : Int} (hnb : nbPeriodsPerYear s.start.periodicity = .ok nb)
    (hper : q.periodicity = s.start.periodicity) :
    s.position q = if q.ord nb - s.start.ord nb < 0 ∨ q.ord nb - s.start.ord nb ≥ s.nb then .err
      else .ok (q.ord nb - s.start.ord nb) := by
  unfold Sample.position
  rw [Period.difference_spec (by rw [hper]; exact hnb) hper]
  rfl

theorem Sample.position_mixed {s : Sample} {q : Period} (h : q.periodicity ≠ s.start.periodicity) :
    s.position q = .err := by
  unfold Sample.position Period.difference
  rw [if_pos h]; rfl

namespace VWorld

theorem overlap_mixed {a b : Sample} (h : a.start.periodicity ≠ b.start.periodicity) : overlap a b = .err := by
  unfold overlap; rw [C04_intersection_mixed a b h]

/-- The bounds of the copy, in calendar numbers. -/
theorem overlap_eq {a b : Sample} (ha : a.Fair) (hb : b.Fair) (hper : a.start.periodicity = b.start.periodicity)
    {nb : Int} (hnb : nbPeriodsPerYear a.start.periodicity = .ok nb) :
    overlap a b =
      (if min (a.stop.ord nb) (b.stop.ord nb) < max (a.start.ord nb) (b.start.ord nb) then .err
       else .ok (max (a.start.ord nb) (b.start.ord nb) - a.start.ord nb,
                 max (a.start.ord nb) (b.start.ord nb) - b.start.ord nb,
                 min (a.stop.ord nb) (b.stop.ord nb) - max (a.start.ord nb) (b.start.ord nb) + 1)) := by
  have sa := ha.span hnb
  have sb := hb.span (by rw [← hper]; exact hnb)
  obtain ⟨na, ⟨wa1, wa2, pa, -⟩, hna, hsa⟩ := ha
  obtain ⟨nb', ⟨wb1, wb2, pb, -⟩, hnb', hsb⟩ := hb
  have hint : a.intersection b = Sample.ofPeriods (if a.start.ord nb - b.start.ord nb < 0 then b.start else a.start)
      (if a.stop.ord nb - b.stop.ord nb > 0 then b.stop else a.stop) := by
    unfold Sample.intersection
    rw [if_neg (by simpa using hper), Period.difference_spec hnb hper, Res.bind_ok,
      Period.difference_spec (by rw [pa]; exact hnb) (by rw [pa, pb, hper]), Res.bind_ok]
    rfl
  obtain ⟨rs, hrs, prs, ors⟩ : ∃ rs, (if a.start.ord nb - b.start.ord nb < 0 then b.start else a.start) = rs ∧
      rs.periodicity = a.start.periodicity ∧ rs.ord nb = max (a.start.ord nb) (b.start.ord nb) := by
    split
    · exact ⟨_, rfl, hper.symm, by omega⟩
    · exact ⟨_, rfl, rfl, by omega⟩
  obtain ⟨re, hre, pre, ore⟩ : ∃ re, (if a.stop.ord nb - b.stop.ord nb > 0 then b.stop else a.stop) = re ∧
      re.periodicity = a.start.periodicity ∧ re.ord nb = min (a.stop.ord nb) (b.stop.ord nb) := by
    split
    · exact ⟨_, rfl, pb.trans hper.symm, by omega⟩
    · exact ⟨_, rfl, pa, by omega⟩
  have hof : a.intersection b = if re.ord nb - rs.ord nb < 0 then .err else .ok ⟨rs, re, toShort (re.ord nb - rs.ord nb + 1)⟩ := by
    rw [hint, hrs, hre]
    unfold Sample.ofPeriods
    rw [Period.difference_spec (by rw [pre]; exact hnb) (pre.trans prs.symm)]
    rfl
  unfold overlap
  rw [hof]
  by_cases hneg : re.ord nb - rs.ord nb < 0
  · rw [if_pos hneg, if_pos (by omega)]
  · rw [if_neg hneg, if_neg (by omega)]
    have hsh : toShort (re.ord nb - rs.ord nb + 1) = re.ord nb - rs.ord nb + 1 := toShort_of_le (by omega) (by omega)
    simp only [hsh]
    rw [if_pos (by omega), Period.difference_spec (by rw [prs]; exact hnb) prs,
      Period.difference_spec (by rw [prs]; exact hnb) (prs.trans hper)]
    show Res.ok (rs.ord nb - a.start.ord nb, rs.ord nb - b.start.ord nb, _) = _
    rw [ors, ore]

theorem overlap_ok {a b : Sample} (ha : a.Fair) (hb : b.Fair) {d1 d2 n : Int} (h : overlap a b = .ok (d1, d2, n)) :
    0 ≤ d1 ∧ 0 ≤ d2 ∧ 0 < n ∧ d1 + n ≤ a.nb ∧ d2 + n ≤ b.nb ∧
    (∀ (q : Period) (t : Int), b.position q = .ok t → d2 ≤ t → t < d2 + n → a.position q = .ok (t - d2 + d1)) ∧
    (∀ (q : Period) (t : Int), b.position q = .ok t → ¬ (d2 ≤ t ∧ t < d2 + n) → a.position q = .err) ∧
    (∀ (q : Period) (t : Int), a.position q = .ok t → d1 ≤ t → t < d1 + n → b.position q = .ok (t - d1 + d2)) ∧
    (∀ (q : Period) (t : Int), a.position q = .ok t → ¬ (d1 ≤ t ∧ t < d1 + n) → b.position q = .err) := by
  by_cases hper : a.start.periodicity = b.start.periodicity
  · obtain ⟨nb, hnb, -, -⟩ := ha.proper.wfs
    have hnb2 : nbPeriodsPerYear b.start.periodicity = .ok nb := by rw [← hper]; exact hnb
    rw [overlap_eq ha hb hper hnb] at h
    have sa := ha.span hnb
    have sb := hb.span hnb2
    split at h
    · cases h
    · rename_i hc
      simp only [Res.ok.injEq, Prod.mk.injEq] at h
      obtain ⟨h1, h2, h3⟩ := h
      refine ⟨by omega, by omega, by omega, by omega, by omega, ?_, ?_, ?_, ?_⟩
      all_goals
        intro q t hq
        by_cases hp : q.periodicity = a.start.periodicity
        · have e1 := Sample.position_eq hnb hp
          have e2 := Sample.position_eq hnb2 (hp.trans hper)
          first | rw [e1] at hq | rw [e2] at hq
          first | rw [e1] | rw [e2]
          split at hq
          · cases hq
          · simp only [Res.ok.injEq] at hq
            intros
            first
              | (rw [if_neg (by omega)]; congr 1; omega)
              | (rw [if_pos (by omega)])
        · first
            | (rw [Sample.position_mixed (by rw [← hper]; exact hp)] at hq; cases hq)
            | (rw [Sample.position_mixed hp] at hq; cases hq)
  · rw [overlap_mixed hper] at h; cases h

theorem overlap_no_ub {a b : Sample} (ha : a.Fair) (hb : b.Fair) : overlap a b ≠ .ub := by
  by_cases hper : a.start.periodicity = b.start.periodicity
  · obtain ⟨nb, hnb, -, -⟩ := ha.proper.wfs
    rw [overlap_eq ha hb hper hnb]; split <;> simp
  · rw [overlap_mixed hper]; simp

/-- The overlap fails exactly when the samples have no common period. -/
theorem overlap_err_iff {a b : Sample} (ha : a.Fair) (hb : b.Fair) :
    overlap a b = .err ↔ ¬ ∃ q, a.Contains q ∧ b.Contains q := by
  by_cases hper : a.start.periodicity = b.start.periodicity
  · have h := (C04_intersection a b ha.proper hb.proper hper).2.1
    rw [← h]
    constructor
    · intro h1
      cases h2 : a.intersection b with
      | err => rfl
      | ub => exact absurd h2 (C04_intersection a b ha.proper hb.proper hper).2.2
      | ok c =>
        obtain ⟨nb, hnb, -, -⟩ := ha.proper.wfs
        exfalso
        unfold overlap at h1
        rw [h2] at h1
        obtain ⟨hc, hcq⟩ := (C04_intersection a b ha.proper hb.proper hper).1 c h2
        simp only at h1
        split at h1
        · have hs : c.start.WF := hc.wfs
          have : c.start.periodicity = a.start.periodicity := by
            have hcc : c.Contains c.start := by
              refine ⟨hc.wfs, rfl, ?_⟩
              obtain ⟨m, hm, -, -⟩ := hs
              refine ⟨m, hm, Int.le_refl _, ?_⟩
              have hb' := hc.built
              unfold Sample.ofPeriods at hb'
              rw [Period.difference_spec (by rw [hc.same]; exact hm) hc.same, Res.bind_ok] at hb'
              split at hb'
              · cases hb'
              · omega
            exact ((hcq c.start).1 hcc).1.2.1
          rw [Period.difference_spec (by rw [this]; exact hnb) this,
            Period.difference_spec (by rw [this]; exact hnb) (this.trans hper)] at h1
          cases h1
        · cases h1
    · intro h1; unfold overlap; rw [h1]
  · rw [overlap_mixed hper]
    refine ⟨fun _ => ?_, fun _ => rfl⟩
    rintro ⟨q, h1, h2⟩
    exact hper (h1.2.1.symm.trans h2.2.1)

/-! ## Copy loops -/

variable {α : Type}

theorem copyLoop_spec (src : List α) : ∀ (n : Nat) (dst : List α) (d s : Nat),
    s + n ≤ src.length → d + n ≤ dst.length →
    ∃ r, copyLoop dst src d s n = .ok r ∧ r.length = dst.length ∧
      ∀ t, r[t]? = if d ≤ t ∧ t < d + n then src[s + (t - d)]? else dst[t]? := by
  intro n
  induction n with
  | zero =>
    intro dst d s _ _
    refine ⟨dst, rfl, rfl, fun t => ?_⟩
    rw [if_neg (by omega)]
  | succ n ih =>
    intro dst d s h1 h2
    have hs : s < src.length := by omega
    have hd : d < dst.length := by omega
    obtain ⟨r, hr, hl, hv⟩ := ih (dst.set d src[s]) (d + 1) (s + 1) (by omega) (by simp; omega)
    refine ⟨r, ?_, by simpa using hl, fun t => ?_⟩
    · unfold copyLoop
      rw [List.getElem?_eq_getElem hs]
      simp only [hd, if_true]
      exact hr
    · rw [hv t]
      by_cases h3 : d + 1 ≤ t ∧ t < d + 1 + n
      · rw [if_pos h3, if_pos (by omega)]
        congr 1; omega
      · rw [if_neg h3, List.getElem?_set]
        by_cases h4 : d = t
        · subst h4
          rw [if_pos rfl, if_pos hd, if_pos (by omega), Nat.sub_self, Nat.add_zero, List.getElem?_eq_getElem hs]
        · rw [if_neg h4, if_neg (by omega)]

end VWorld
end Iode
