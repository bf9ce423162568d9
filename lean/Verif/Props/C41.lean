import Verif.Lemmas.ConvertLow
import Verif.Props.C40
import Mathlib.Tactic.FieldSimp

/-!
# C41: spreading a series over sub-periods and aggregating it back

A year is divided in `fn` periods in the file and in `wn` periods in the workspace, `wn = fn * r`.
-/
namespace Iode.Convert

open Iode.Lec Iode.Idt

variable {F : Type}

/-! ## Calendar -/

/-- All sub-periods of the years of `f`. -/
def highSample (f : Sample) (wn : Int) (c : Char) : Sample :=
  ⟨⟨f.start.year, 1, c⟩, ⟨f.stop.year, wn, c⟩, wn * (f.stop.year - f.start.year + 1)⟩

theorem years_le {f : Sample} (hf : f.Fair) {fn : Int} (hfn : nbPeriodsPerYear f.start.periodicity = .ok fn) (h1 : f.start.step = 1) :
    0 ≤ f.stop.year - f.start.year ∧ f.nb ≤ fn * (f.stop.year - f.start.year + 1) ∧
      (f.stop.step = fn → f.nb = fn * (f.stop.year - f.start.year + 1)) := by
  have hs := hf.span hfn
  have hpos := nbPeriodsPerYear_pos hfn
  have hnb := hf.nb_pos
  obtain ⟨n, ⟨_, ⟨n2, b1, b2, b3⟩, hper, _⟩, _⟩ := hf
  rw [hper, hfn] at b1; cases b1
  unfold Period.ord at hs
  rw [h1] at hs
  have e : fn * (f.stop.year - f.start.year + 1) = fn * f.stop.year - fn * f.start.year + fn := by
    rw [Int.mul_add, Int.mul_sub]; omega
  refine ⟨?_, by omega, fun h => by omega⟩
  rcases Int.lt_or_le (f.stop.year - f.start.year) 0 with hn | hn
  · have : fn * (f.stop.year - f.start.year) ≤ fn * -1 := Int.mul_le_mul_of_nonneg_left (by omega) (by omega)
    rw [Int.mul_sub] at this
    omega
  · exact hn

theorem ofYears {y y' n : Int} {c : Char} (hn : nbPeriodsPerYear c = .ok n) (hy : 0 ≤ y' - y) (hb : n * (y' - y + 1) ≤ 32767) :
    Sample.ofPeriods ⟨y, 1, c⟩ ⟨y', n, c⟩ = .ok ⟨⟨y, 1, c⟩, ⟨y', n, c⟩, n * (y' - y + 1)⟩ ∧
      Sample.Fair ⟨⟨y, 1, c⟩, ⟨y', n, c⟩, n * (y' - y + 1)⟩ := by
  have hpos := nbPeriodsPerYear_pos hn
  have e : n * (y' - y + 1) = n * y' - n * y + n := by rw [Int.mul_add, Int.mul_sub]; omega
  have h0 : 0 ≤ n * (y' - y) := Int.mul_nonneg (by omega) hy
  rw [Int.mul_sub] at h0
  have hd : Period.difference ⟨y', n, c⟩ ⟨y, 1, c⟩ = .ok (n * y' + n - (n * y + 1)) :=
    Period.difference_spec (p := ⟨y', n, c⟩) (q := ⟨y, 1, c⟩) hn rfl
  constructor
  · unfold Sample.ofPeriods
    rw [hd, Res.bind_ok, if_neg (by omega), toShort_of_le (by omega) (by omega)]
    refine congrArg Res.ok ?_
    rw [show n * y' + n - (n * y + 1) + 1 = n * (y' - y + 1) by omega]
  · refine ⟨(n * y' + n - (n * y + 1)).toNat, ⟨⟨n, hn, by show (1 : Int) ≤ 1; omega, by show (1 : Int) ≤ n; omega⟩,
      ⟨n, hn, by show (1 : Int) ≤ n; omega, by show n ≤ n; omega⟩, rfl, ?_⟩, by omega, ?_⟩
    · rw [hd, Int.toNat_of_nonneg (by omega)]
    · show n * (y' - y + 1) = _
      omega

theorem shift_zero {y n : Int} {c : Char} (hn : nbPeriodsPerYear c = .ok n) : Period.shift ⟨y, 1, c⟩ 0 = .ok ⟨y, 1, c⟩ := by
  have hpos := nbPeriodsPerYear_pos hn
  obtain ⟨p, e1, e2, e3, e4, e5⟩ := Period.shift_spec (p := ⟨y, 1, c⟩) hn (by simp) (by simp; omega) 0
  simp only at e2 e5
  obtain ⟨a, b⟩ := Period.pos_inj (y1 := p.year) (s1 := p.step) (y2 := y) (s2 := 1) hpos e3 e4 (by omega) (by omega) (by omega)
  rw [e1]
  cases p
  simp only at a b e2
  subst a b e2
  rfl

theorem ltohSmpl_spec {f ws : Sample} (hf : f.Fair) {fn wn r : Int} (hfn : nbPeriodsPerYear f.start.periodicity = .ok fn)
    (hwn : nbPeriodsPerYear ws.start.periodicity = .ok wn) (hr : wn = fn * r) (h1 : 1 < r) (hst : f.start.step = 1)
    (hb : wn * (f.stop.year - f.start.year + 1) ≤ 32767) :
    ltohSmpl f ws = .ok (highSample f wn ws.start.periodicity, r) ∧ (highSample f wn ws.start.periodicity).Fair := by
  have hpos := nbPeriodsPerYear_pos hfn
  have hy := (years_le hf hfn hst).1
  have hlt : fn * 1 < fn * r := Int.mul_lt_mul_of_pos_left h1 hpos
  have hdiv : wn.tdiv fn = r := Int.tdiv_eq_of_eq_mul_right (by omega) hr
  obtain ⟨g1, g2⟩ := ofYears hwn hy hb
  refine ⟨?_, g2⟩
  unfold ltohSmpl
  rw [hfn, Res.bindOk, hwn, Res.bindOk, if_neg (by omega), if_neg (by omega), hst, show (1 : Int) - 1 = 0 from rfl, Int.zero_tdiv,
    shift_zero hwn, Res.bindOk, g1, Res.bindOk, hdiv]
  rfl

/-- Converting back from these sub-periods covers the years of `f`. -/
theorem htolSmpl_back {f vs : Sample} {c : Char} (hf : f.Fair) {fn wn r : Int} (hfn : nbPeriodsPerYear f.start.periodicity = .ok fn)
    (hwn : nbPeriodsPerYear c = .ok wn) (hvs : vs.start.periodicity = f.start.periodicity) (hr : wn = fn * r) (h1 : 1 < r)
    (hst : f.start.step = 1) (hb : wn * (f.stop.year - f.start.year + 1) ≤ 32767) :
    htolSmpl (highSample f wn c) vs = .ok (highSample f fn f.start.periodicity, 0, r) ∧
      (highSample f fn f.start.periodicity).Fair := by
  have hpos := nbPeriodsPerYear_pos hfn
  have hy := (years_le hf hfn hst).1
  have hlt : fn * 1 < fn * r := Int.mul_lt_mul_of_pos_left h1 hpos
  have hdiv : wn.tdiv fn = r := Int.tdiv_eq_of_eq_mul_right (by omega) hr
  have hle : fn * (f.stop.year - f.start.year + 1) ≤ wn * (f.stop.year - f.start.year + 1) :=
    Int.mul_le_mul_of_nonneg_right (by omega) (by omega)
  have h12 : fn ≠ 12 := by
    intro h
    have hw := nbPeriodsPerYear_cases hwn
    rw [h] at hr hlt
    omega
  obtain ⟨g1, g2⟩ := ofYears hfn hy (Int.le_trans hle hb)
  refine ⟨?_, g2⟩
  unfold htolSmpl highSample
  simp only [hvs]
  rw [hwn, Res.bindOk, hfn, Res.bindOk, if_neg (by omega), if_neg (by omega), show (1 : Int) - 1 = 0 from rfl, Int.zero_tdiv,
    shift_zero hfn, Res.bindOk]
  simp only [Int.sub_self, Int.zero_mul, Int.zero_add, hdiv]
  rw [if_neg (by omega), g1, Res.bindOk]

theorem start_ord {f : Sample} {fn wn r : Int} (c : Char) (hr : wn = fn * r) (hst : f.start.step = 1) :
    r * (f.start.ord fn - 1) = (highSample f wn c).start.ord wn - 1 := by
  unfold Period.ord highSample
  simp only
  rw [hst, hr, show fn * f.start.year + 1 - 1 = fn * f.start.year by omega, ← Int.mul_assoc, Int.mul_comm r fn]
  omega

/-- Position of the sub-periods of the periods of `f`. -/
theorem sub_ord {f : Sample} {fn wn r : Int} (c : Char) (hr : wn = fn * r) (hst : f.start.step = 1) (q : Period) (j : Int) :
    (sub r c q j).ord wn = (highSample f wn c).start.ord wn + (q.ord fn - f.start.ord fn) * r + j := by
  have h := start_ord (f := f) c hr hst
  have h2 : (sub r c q j).ord wn = r * (q.ord fn - 1) + 1 + j := by
    unfold sub Period.ord
    simp only
    rw [hr, show fn * q.year + q.step - 1 = fn * q.year + (q.step - 1) by omega, Int.mul_add, ← Int.mul_assoc, Int.mul_comm r fn,
      Int.mul_comm r (q.step - 1)]
    omega
  rw [h2, Int.sub_mul, Int.mul_comm (q.ord fn), Int.mul_comm (f.start.ord fn)]
  rw [Int.mul_sub] at h
  rw [Int.mul_sub]
  omega

theorem block_uniq {r i j I J : Int} (hr : 0 < r) (j0 : 0 ≤ j) (j1 : j < r) (J0 : 0 ≤ J) (J1 : J < r) (h : i * r + j = I * r + J) :
    i = I ∧ j = J := by
  have h1 : (i * r + j) / r = i := by
    rw [Int.add_comm, Int.add_mul_ediv_right _ _ (by omega), Int.ediv_eq_zero_of_lt j0 j1, Int.zero_add]
  have h2 : (I * r + J) / r = I := by
    rw [Int.add_comm, Int.add_mul_ediv_right _ _ (by omega), Int.ediv_eq_zero_of_lt J0 J1, Int.zero_add]
  have : i = I := by rw [← h1, h, h2]
  subst this
  exact ⟨rfl, by omega⟩

/-! ## Spreading -/

/-- Every sub-period gets its share of the value of the period it is part of. -/
theorem C41_spread_partial (A : Arith F) (k : Kind) {f ws : Sample} (hf : f.Fair) {fn wn r : Int}
    (hfn : nbPeriodsPerYear f.start.periodicity = .ok fn)
    (hwn : nbPeriodsPerYear ws.start.periodicity = .ok wn) (hr : wn = fn * r) (h1 : 1 < r) (hst : f.start.step = 1)
    (hb : wn * (f.stop.year - f.start.year + 1) ≤ 32767) {x : List F} (hx : x.length = f.nb.toNat) :
    ∃ t y, ltohSmpl f ws = .ok (t, r) ∧ t.Fair ∧ ltohStep A k r.toNat t.nb.toNat x = .ok y ∧ y.length = t.nb.toNat ∧
      (∀ q j, q.periodicity = f.start.periodicity → 0 ≤ j → j < r → (∃ i, f.position q = .ok i) →
        ∃ u, t.position (sub r ws.start.periodicity q j) = .ok u) ∧
      ∀ p u, t.position p = .ok u → ∃ v, y[u.toNat]? = some v ∧ Spreads A k r f x p v := by
  obtain ⟨g1, g2⟩ := ltohSmpl_spec hf hfn hwn hr h1 hst hb
  have hwt : nbPeriodsPerYear (highSample f wn ws.start.periodicity).start.periodicity = .ok wn := hwn
  have hle := (years_le hf hfn hst).2.1
  have hfnb := hf.nb_pos
  have htnb := g2.nb_pos
  have htn : (highSample f wn ws.start.periodicity).nb = fn * (f.stop.year - f.start.year + 1) * r := by
    show wn * _ = _
    rw [hr, Int.mul_assoc, Int.mul_comm r, ← Int.mul_assoc]
  have hler : f.nb * r ≤ (highSample f wn ws.start.periodicity).nb := by
    rw [htn]
    exact Int.mul_le_mul_of_nonneg_right hle (by omega)
  have hcast : ((x.length * r.toNat : Nat) : Int) = f.nb * r := by
    rw [Int.natCast_mul, hx, Int.toNat_of_nonneg (by omega), Int.toNat_of_nonneg (by omega)]
  obtain ⟨y, y1, y2, y3⟩ := ltohStep_spec A k (s := r.toNat) (tn := (highSample f wn ws.start.periodicity).nb.toNat) (x := x)
    (by omega)
  have hrn : ((r.toNat : Nat) : Int) = r := Int.toNat_of_nonneg (by omega)
  refine ⟨_, y, g1, g2, y1, y2, ?_, ?_⟩
  · rintro q j hq j0 j1 ⟨i, hi⟩
    obtain ⟨_, hi, i0, i1⟩ := (position_ord hfn).1 hi
    have hm : (i + 1) * r ≤ f.nb * r := Int.mul_le_mul_of_nonneg_right (by omega) (by omega)
    rw [Int.add_mul, Int.one_mul] at hm
    have h0 : 0 ≤ i * r := Int.mul_nonneg i0 (by omega)
    have ho := sub_ord (f := f) ws.start.periodicity hr hst q j
    rw [show q.ord fn - f.start.ord fn = i by omega, Int.add_assoc] at ho
    exact ⟨_, (position_ord hwt).2 ⟨rfl, ho, by omega, by omega⟩⟩
  · intro p u hp
    obtain ⟨hpp, hu, u0, u1⟩ := (position_ord hwt).1 hp
    -- the block and the rank of `p`
    obtain ⟨I, J, hJ0, hJ1, hI0, hIJ⟩ : ∃ I J, 0 ≤ J ∧ J < r ∧ 0 ≤ I ∧ u = I * r + J := by
      refine ⟨u / r, u % r, Int.emod_nonneg _ (by omega), Int.emod_lt_of_pos _ (by omega), Int.ediv_nonneg u0 (by omega), ?_⟩
      have := Int.emod_add_mul_ediv u r
      rw [Int.mul_comm] at this
      omega
    have huniq : ∀ i j, 0 ≤ j → j < r → i * r + j = u → i = I ∧ j = J := by
      intro i j j0 j1 he
      exact block_uniq (by omega) j0 j1 hJ0 hJ1 (by rw [he, hIJ])
    have hcu : ((I.toNat * r.toNat : Nat) : Int) = I * r := by
      rw [Int.natCast_mul, hrn, Int.toNat_of_nonneg hI0]
    have hI' : I.toNat * r.toNat + J.toNat = u.toNat := by omega
    have hy := y3 I.toNat J.toNat (by omega) (by omega)
    rw [hI'] at hy
    refine ⟨_, hy, ?_, ?_⟩
    · intro q j i hq j0 j1 hs hi
      obtain ⟨_, hi, i0, i1⟩ := (position_ord hfn).1 hi
      have ho := sub_ord (f := f) ws.start.periodicity hr hst q j
      rw [show q.ord fn - f.start.ord fn = i by omega, show sub r ws.start.periodicity q j = p from by rw [hs, hpp]; rfl] at ho
      obtain ⟨rfl, rfl⟩ := huniq i j j0 j1 (by omega)
      have hlt : i.toNat < x.length := by omega
      refine ⟨x[i.toNat], List.getElem?_eq_getElem hlt, ?_⟩
      rw [List.getElem?_eq_getElem hlt, hrn]
    · intro hno
      cases hx' : x[I.toNat]? with
      | none => rfl
      | some v =>
        have hlt : I.toNat < x.length := by
          rcases Nat.lt_or_ge I.toNat x.length with h | h
          · exact h
          · rw [List.getElem?_eq_none h] at hx'; cases hx'
        refine absurd ⟨⟨p.year, (p.step - 1) / r + 1, f.start.periodicity⟩, (p.step - 1) % r, I, rfl, Int.emod_nonneg _ (by omega),
          Int.emod_lt_of_pos _ (by omega), ?_, ?_⟩ hno
        · have := Int.emod_add_mul_ediv (p.step - 1) r
          rw [Int.mul_comm] at this
          unfold sub
          cases p
          simp only at this ⊢
          congr 1
          rw [show ∀ a : Int, a + 1 - 1 = a from fun a => by omega]
          omega
        · refine (position_ord hfn).2 ⟨rfl, ?_, hI0, by omega⟩
          have ho := sub_ord (f := f) ws.start.periodicity hr hst ⟨p.year, (p.step - 1) / r + 1, f.start.periodicity⟩ ((p.step - 1) % r)
          have hs : sub r ws.start.periodicity ⟨p.year, (p.step - 1) / r + 1, f.start.periodicity⟩ ((p.step - 1) % r) = p := by
            have := Int.emod_add_mul_ediv (p.step - 1) r
            rw [Int.mul_comm] at this
            have hpp' : p.periodicity = ws.start.periodicity := hpp
            unfold sub
            cases p
            simp only at this hpp' ⊢
            rw [hpp']
            congr 1
            rw [show ∀ a : Int, a + 1 - 1 = a from fun a => by omega]
            omega
          rw [hs] at ho
          have := (huniq ((⟨p.year, (p.step - 1) / r + 1, f.start.periodicity⟩ : Period).ord fn - f.start.ord fn) ((p.step - 1) % r)
            (Int.emod_nonneg _ (by omega)) (Int.emod_lt_of_pos (p.step - 1) (by omega)) (by omega)).1
          omega

/-! ## The round trip -/

/-- Both conversions succeed; the value of each period is the aggregate of equal shares of its value. -/
theorem C41_back_partial (A : Arith F) (hna : A.isNum A.na = false) (k : Kind) (m : Method) {f ws vs : Sample} (hf : f.Fair) {fn wn r : Int}
    (hfn : nbPeriodsPerYear f.start.periodicity = .ok fn) (hvs : vs.start.periodicity = f.start.periodicity)
    (hwn : nbPeriodsPerYear ws.start.periodicity = .ok wn) (hr : wn = fn * r) (h1 : 1 < r) (hst : f.start.step = 1)
    (hb : wn * (f.stop.year - f.start.year + 1) ≤ 32767) {x : List F} (hx : x.length = f.nb.toNat) :
    ∃ t y t2 out, ltohSmpl f ws = .ok (t, r) ∧ ltohStep A k r.toNat t.nb.toNat x = .ok y ∧
      htolSmpl t vs = .ok (t2, 0, r) ∧ htolVar A m r.toNat 0 t.nb.toNat t2.nb.toNat y = .ok out ∧
      t2.Fair ∧ t2.start = f.start ∧ t2.stop = ⟨f.stop.year, fn, f.start.periodicity⟩ ∧ f.nb ≤ t2.nb ∧ (f.stop.step = fn → t2 = f) ∧
      out.length = t2.nb.toNat ∧ ∀ i, i < out.length → out[i]? = some (match x[i]? with
        | some v => aggregate A m (List.replicate r.toNat (share A k r v))
        | none => A.na) := by
  obtain ⟨g1, g2⟩ := ltohSmpl_spec hf hfn hwn hr h1 hst hb
  obtain ⟨k1, k2⟩ := htolSmpl_back (c := ws.start.periodicity) hf hfn hwn hvs hr h1 hst hb
  have hle := years_le hf hfn hst
  have hfnb := hf.nb_pos
  have htnb := g2.nb_pos
  have h2nb := k2.nb_pos
  have htn : (highSample f wn ws.start.periodicity).nb = (highSample f fn f.start.periodicity).nb * r := by
    show wn * _ = fn * _ * r
    rw [hr, Int.mul_assoc, Int.mul_comm r, ← Int.mul_assoc]
  have hle2 : f.nb ≤ (highSample f fn f.start.periodicity).nb := hle.2.1
  have hler : f.nb * r ≤ (highSample f wn ws.start.periodicity).nb := by
    rw [htn]
    exact Int.mul_le_mul_of_nonneg_right hle2 (by omega)
  have hrn : ((r.toNat : Nat) : Int) = r := Int.toNat_of_nonneg (by omega)
  have hcast : ((x.length * r.toNat : Nat) : Int) = f.nb * r := by
    rw [Int.natCast_mul, hx, hrn, Int.toNat_of_nonneg (by omega)]
  have hnat : (highSample f wn ws.start.periodicity).nb.toNat = (highSample f fn f.start.periodicity).nb.toNat * r.toNat := by
    have : (((highSample f fn f.start.periodicity).nb.toNat * r.toNat : Nat) : Int) = (highSample f fn f.start.periodicity).nb * r := by
      rw [Int.natCast_mul, hrn, Int.toNat_of_nonneg (by omega)]
    omega
  obtain ⟨y, y1, y2, y3⟩ := ltohStep_spec A k (s := r.toNat) (tn := (highSample f wn ws.start.periodicity).nb.toNat) (x := x) (by omega)
  obtain ⟨out, o1, o2, o3⟩ := htolVar_spec A m (shift := r.toNat) (skip := 0) (nb := (highSample f wn ws.start.periodicity).nb.toNat)
    (tn := (highSample f fn f.start.periodicity).nb.toNat) (x := y) (by omega) (by omega) y2 (fun b hb => by
      rw [hnat, Nat.zero_add] at hb
      exact Nat.le_of_mul_le_mul_right hb (by omega))
  have hstart : (highSample f fn f.start.periodicity).start = f.start := by
    show (⟨f.start.year, 1, f.start.periodicity⟩ : Period) = f.start
    rw [← hst]
  refine ⟨_, y, _, out, g1, y1, k1, o1, k2, hstart, rfl, hle2, fun hs => ?_, o2, fun i hi => ?_⟩
  · have h3 := hle.2.2 hs
    obtain ⟨n, ⟨_, _, hper, _⟩, _⟩ := hf
    have e2 : (⟨f.stop.year, f.stop.step, f.start.periodicity⟩ : Period) = f.stop := by rw [← hper]
    show (⟨⟨f.start.year, 1, f.start.periodicity⟩, ⟨f.stop.year, fn, f.start.periodicity⟩, fn * _⟩ : Sample) = f
    rw [← h3, ← hs, ← hst, e2]
  · rw [o2] at hi
    have hblk : (i + 1) * r.toNat ≤ (highSample f wn ws.start.periodicity).nb.toNat := by
      rw [hnat]
      exact Nat.mul_le_mul_right _ hi
    have hblk' := hblk
    rw [Nat.add_mul, Nat.one_mul] at hblk'
    rw [o3 i hi, if_pos (by omega), Nat.zero_add]
    have hrep : (y.drop (i * r.toNat)).take r.toNat = List.replicate r.toNat (match x[i]? with | some v => share A k r v | none => A.na) := by
      apply List.ext_getElem?
      intro j
      rw [List.getElem?_replicate]
      by_cases hj : j < r.toNat
      · rw [if_pos hj, List.getElem?_take_of_lt hj, List.getElem?_drop, y3 i j hj (by omega), hrn]
        cases x[i]? <;> rfl
      · rw [if_neg hj, List.getElem?_eq_none]
        rw [List.length_take]
        omega
    rw [hrep]
    cases x[i]? with
    | some v => rfl
    | none =>
      refine congrArg some ?_
      obtain ⟨n, hn⟩ : ∃ n, r.toNat = n + 1 := ⟨r.toNat - 1, by omega⟩
      rw [hn]
      have hl : (List.replicate (n + 1) A.na).all A.isNum = false := by simp [List.replicate_succ, hna]
      cases m with
      | last =>
        show (List.replicate (n + 1) A.na).getLastD A.na = A.na
        rw [List.getLastD_eq_getLast?, List.getLast?_replicate]
        rfl
      | sum => simp only [aggregate, hl, Bool.false_eq_true, if_false]
      | mean => simp only [aggregate, hl, Bool.false_eq_true, if_false, hna]

theorem last_replicate (A : Arith F) (v : F) {n : Nat} (h : 0 < n) : aggregate A .last (List.replicate n v) = v := by
  show (List.replicate n v).getLastD A.na = v
  rw [List.getLastD_eq_getLast?, List.getLast?_replicate, if_neg (by omega)]
  rfl

/-- A stock spread by steps and aggregated by its last sub-period is restored, whatever the arithmetic. -/
theorem C41_stock_last_partial (A : Arith F) (hna : A.isNum A.na = false) {f ws vs : Sample} (hf : f.Fair) {fn wn r : Int}
    (hfn : nbPeriodsPerYear f.start.periodicity = .ok fn) (hvs : vs.start.periodicity = f.start.periodicity)
    (hwn : nbPeriodsPerYear ws.start.periodicity = .ok wn) (hr : wn = fn * r) (h1 : 1 < r) (hst : f.start.step = 1)
    (hend : f.stop.step = fn) (hb : wn * (f.stop.year - f.start.year + 1) ≤ 32767) {x : List F} (hx : x.length = f.nb.toNat)
    (hnum : ∀ v ∈ x, A.isNum v = true ∨ v = A.na) :
    ∃ t y, ltohSmpl f ws = .ok (t, r) ∧ ltohStep A .stock r.toNat t.nb.toNat x = .ok y ∧
      htolSmpl t vs = .ok (f, 0, r) ∧ htolVar A .last r.toNat 0 t.nb.toNat f.nb.toNat y = .ok x := by
  obtain ⟨t, y, t2, out, a1, a2, a3, a4, _, _, _, _, e, l, h⟩ :=
    C41_back_partial A hna .stock .last hf hfn hvs hwn hr h1 hst hb hx
  have e := e hend
  subst e
  refine ⟨t, y, a1, a2, a3, ?_⟩
  rw [a4]
  refine congrArg Res.ok (List.ext_getElem? fun i => ?_)
  by_cases hi : i < out.length
  · rw [h i hi]
    have hix : i < x.length := by omega
    rw [List.getElem?_eq_getElem hix]
    simp only
    rw [last_replicate A _ (by omega)]
    unfold share
    rcases hnum x[i] (List.getElem_mem hix) with h | h
    · simp [h]
    · rw [h, hna]; rfl
  · rw [List.getElem?_eq_none (by omega), List.getElem?_eq_none (by omega)]

section Exact
variable {K : Type} [Field K] [LinearOrder K] [IsStrictOrderedRing K] [FloorRing K]

/-- The methods that are inverse to spreading by steps. -/
inductive Undoes : Kind → Method → Prop where
  | flow_sum : Undoes .flow .sum
  | stock_last : Undoes .stock .last
  | stock_mean : Undoes .stock .mean

theorem undo_value {A : Arith (Option K)} (hA : Exact A) {k : Kind} {m : Method} (hu : Undoes k m) {r : Int} (h1 : 1 < r) (v : Option K) :
    aggregate A m (List.replicate r.toNat (share A k r v)) = v := by
  have hrn : ((r.toNat : Nat) : Int) = r := Int.toNat_of_nonneg (by omega)
  have hrk : ((r.toNat : Nat) : K) = (r : K) := by
    rw [← Int.cast_natCast, hrn]
  have hr0 : (r : K) ≠ 0 := by
    rw [Int.cast_ne_zero]; omega
  have hne : ∀ w : K, List.replicate r.toNat w ≠ [] := by
    intro w h
    have := congrArg List.length h
    rw [List.length_replicate, List.length_nil] at this
    omega
  cases v with
  | none =>
    have hs : share A k r none = none := by
      unfold share
      rw [hA.isNum, hA.na]; rfl
    rw [hs]
    obtain ⟨n, hn⟩ : ∃ n, r.toNat = n + 1 := ⟨r.toNat - 1, by omega⟩
    have hmem : (none : Option K) ∈ List.replicate r.toNat none := by rw [hn]; simp
    have hm := C40_missing A (by rw [hA.na, hA.isNum]; rfl) hmem (by rw [hA.isNum]; rfl)
    cases hu with
    | flow_sum => rw [hm.1, hA.na]
    | stock_mean => rw [hm.2, hA.na]
    | stock_last => exact last_replicate A _ (by omega)
  | some v =>
    cases hu with
    | flow_sum =>
      have hs : share A .flow r (some v) = some (v / r) := by
        unfold share
        rw [hA.isNum, hA.ofInt, hA.div _ _ hr0]; rfl
      rw [hs, ← List.map_replicate, (C40_exact hA _ (hne _)).1, List.sum_replicate, nsmul_eq_mul, hrk, mul_div_cancel₀ _ hr0]
    | stock_mean =>
      have hs : share A .stock r (some v) = some v := by
        unfold share
        rw [hA.isNum]; rfl
      rw [hs, ← List.map_replicate, (C40_exact hA _ (hne _)).2.1, List.sum_replicate, nsmul_eq_mul, List.length_replicate, hrk,
        mul_div_cancel_left₀ _ hr0]
    | stock_last =>
      have hs : share A .stock r (some v) = some v := by
        unfold share
        rw [hA.isNum]; rfl
      rw [hs]
      exact last_replicate A _ (by omega)

/-- With exact arithmetic, spreading by steps and aggregating gives back the value of every period of the series, and missing values
in the rest of its last year; if the series ends with a year it is restored as it was. -/
theorem C41_round_trip_partial {A : Arith (Option K)} (hA : Exact A) {k : Kind} {m : Method} (hu : Undoes k m) {f ws vs : Sample}
    (hf : f.Fair) {fn wn r : Int} (hfn : nbPeriodsPerYear f.start.periodicity = .ok fn)
    (hvs : vs.start.periodicity = f.start.periodicity) (hwn : nbPeriodsPerYear ws.start.periodicity = .ok wn) (hr : wn = fn * r)
    (h1 : 1 < r) (hst : f.start.step = 1) (hb : wn * (f.stop.year - f.start.year + 1) ≤ 32767) {x : List (Option K)}
    (hx : x.length = f.nb.toNat) :
    ∃ t y t2 out, ltohSmpl f ws = .ok (t, r) ∧ ltohStep A k r.toNat t.nb.toNat x = .ok y ∧
      htolSmpl t vs = .ok (t2, 0, r) ∧ htolVar A m r.toNat 0 t.nb.toNat t2.nb.toNat y = .ok out ∧
      (∀ q i, f.position q = .ok i → t2.position q = .ok i ∧ out[i.toNat]? = x[i.toNat]?) ∧
      (∀ q i, t2.position q = .ok i → f.position q = .err → out[i.toNat]? = some none) ∧
      (f.stop.step = fn → t2 = f ∧ out = x) := by
  obtain ⟨t, y, t2, out, a1, a2, a3, a4, a5, a6, a7, a8, a9, a10, h⟩ :=
    C41_back_partial A (by rw [hA.na, hA.isNum]; rfl) k m hf hfn hvs hwn hr h1 hst hb hx
  have hfn2 : nbPeriodsPerYear t2.start.periodicity = .ok fn := by rw [a6]; exact hfn
  have hfnb := hf.nb_pos
  refine ⟨t, y, t2, out, a1, a2, a3, a4, fun q i hq => ?_, fun q i hq hn => ?_, fun hs => ?_⟩
  · obtain ⟨c1, c2, c3, c4⟩ := (position_ord hfn).1 hq
    refine ⟨(position_ord hfn2).2 ⟨by rw [a6]; exact c1, by rw [a6]; exact c2, c3, by omega⟩, ?_⟩
    have hix : i.toNat < x.length := by omega
    rw [h _ (by omega), List.getElem?_eq_getElem hix]
    simp only
    rw [undo_value hA hu h1]
  · obtain ⟨c1, c2, c3, c4⟩ := (position_ord hfn2).1 hq
    rw [h _ (by omega), List.getElem?_eq_none]
    · simp only; rw [hA.na]
    · rw [hx]
      rcases Int.lt_or_le i f.nb with hlt | hge
      · rw [a6] at c1 c2
        rw [(position_ord hfn).2 ⟨c1, c2, c3, hlt⟩] at hn
        cases hn
      · omega
  · have e := a9 hs
    subst e
    refine ⟨rfl, List.ext_getElem? fun i => ?_⟩
    by_cases hi : i < out.length
    · have hix : i < x.length := by omega
      rw [h i hi, List.getElem?_eq_getElem hix]
      simp only
      rw [undo_value hA hu h1]
    · rw [List.getElem?_eq_none (by omega), List.getElem?_eq_none (by omega)]

end Exact

/-! ## The workspace -/

theorem ltohAll_spec {conv : List F → Res (List F)} : ∀ {file r : SMap (List F)}, ltohAll conv file = .ok r →
    r.keys = file.keys ∧ ∀ k y, r.find k = some y → ∃ x, file.find k = some x ∧ conv x = .ok y
  | [], r, h => by cases h; exact ⟨rfl, by intro k y hk; cases hk⟩
  | (k, x) :: es, r, h => by
    unfold ltohAll at h
    obtain ⟨y, h1, h⟩ := Res.bind_eq_ok' h
    obtain ⟨r', h2, h⟩ := Res.bind_eq_ok' h
    cases h
    obtain ⟨g1, g2⟩ := ltohAll_spec h2
    refine ⟨by simp only [SMap.keys, List.map_cons] at *; rw [g1], fun k' y' hk => ?_⟩
    simp only [SMap.find] at hk ⊢
    split at hk
    · next h => cases hk; rw [if_pos h]; exact ⟨x, rfl, h1⟩
    · next h => rw [if_neg h]; exact g2 k' y' hk

/-- The command by steps on the workspace: the variables of the file get their shares at the sub-periods of the years of the file and
keep their former values at other periods; other variables do not change. -/
theorem C41_workspace_partial (A : Arith F) (kd : Kind) {ws ws' : VarDb F} {vs f : Sample} (hv : vs.Fair) (hf : f.Fair)
    (hws : ws.smpl = some vs) (hreg : Regular ws) {file : SMap (List F)} (hs : SMap.Sorted file)
    (hlen : ∀ k x, file.find k = some x → x.length = f.nb.toNat) {fn wn r : Int}
    (hfn : nbPeriodsPerYear f.start.periodicity = .ok fn)
    (hwn : nbPeriodsPerYear vs.start.periodicity = .ok wn) (hr : wn = fn * r) (h1 : 1 < r) (hst : f.start.step = 1)
    (hb : wn * (f.stop.year - f.start.year + 1) ≤ 32767)
    (h : ltoh A kd ws vs f file = .ok ws') :
    ws'.smpl = some vs ∧ (∀ k, file.has k = false → ws'.vars.find k = ws.vars.find k) ∧
      ∀ k x, file.find k = some x → ∃ z, ws'.vars.find k = some z ∧ z.length = vs.nb.toNat ∧
        ∀ p i, vs.position p = .ok i →
          ((∃ u, (highSample f wn vs.start.periodicity).position p = .ok u) → ∃ v, z[i.toNat]? = some v ∧ Spreads A kd r f x p v) ∧
          ((¬ ∃ u, (highSample f wn vs.start.periodicity).position p = .ok u) →
            z[i.toNat]? = some (((ws.vars.find k).bind (·[i.toNat]?)).getD A.na)) := by
  obtain ⟨s1, s2⟩ := ltohSmpl_spec hf hfn hwn hr h1 hst hb
  unfold ltoh at h
  rw [s1] at h
  simp only at h
  obtain ⟨dst, hd, h⟩ := Res.bind_eq_ok' h
  obtain ⟨g1, g2⟩ := ltohAll_spec hd
  have hser : ∀ k x y, file.find k = some x →
      ltohStep A kd r.toNat (highSample f wn vs.start.periodicity).nb.toNat x = .ok y → y.length = (highSample f wn vs.start.periodicity).nb.toNat ∧
      ∀ p u, (highSample f wn vs.start.periodicity).position p = .ok u → ∃ v, y[u.toNat]? = some v ∧ Spreads A kd r f x p v := by
    intro k x y hx hy
    obtain ⟨t, y', t1, t2, t3, t4, _, t5⟩ := C41_spread_partial A kd hf hfn hwn hr h1 hst hb (hlen k x hx)
    rw [s1] at t1
    cases t1
    rw [hy] at t3
    cases t3
    exact ⟨t4, t5⟩
  have hdl : ∀ k y, dst.find k = some y → y.length = (highSample f wn vs.start.periodicity).nb.toNat := by
    intro k y hy
    obtain ⟨x, hx, he⟩ := g2 k y hy
    exact (hser k x y hx he).1
  rcases merge_spec (na := A.na) hv s2 (hreg vs hws).2 (sorted_keys g1.symm hs) hdl with ⟨he, _⟩ | ⟨w, he, e1, e2, e3⟩
  · rw [he] at h; cases h
  · rw [he] at h
    cases h
    refine ⟨e1.trans hws, fun k hk => e2 k ?_, fun k x hx => ?_⟩
    · cases hh : dst.has k with
      | false => rfl
      | true =>
        have := (SMap.has_iff_mem _ _).1 hh
        rw [g1] at this
        rw [(SMap.has_iff_mem _ _).2 this] at hk
        cases hk
    · have hk : k ∈ dst.keys := by rw [g1]; exact (SMap.mem_keys_iff _ _).2 ⟨x, hx⟩
      obtain ⟨y, hy⟩ := (SMap.mem_keys_iff _ _).1 hk
      obtain ⟨x', hx', hxy⟩ := g2 k y hy
      rw [hx] at hx'
      cases hx'
      obtain ⟨z, z1, z2, z3⟩ := e3 k y hy
      refine ⟨z, z1, z2, fun p i hp => ⟨?_, ?_⟩⟩
      · rintro ⟨u, hu⟩
        obtain ⟨v, v1, v2⟩ := (hser k x y hx hxy).2 p u hu
        refine ⟨v, ?_, v2⟩
        rw [z3 p i hp, hu]
        exact v1
      · intro hn
        rw [z3 p i hp]
        cases ht : (highSample f wn vs.start.periodicity).position p with
        | ok u => exact absurd ⟨u, ht⟩ hn
        | err => rfl
        | ub => rfl

/-! ## Linear interpolation of stocks -/

theorem get_cases (x : List F) (i : Nat) : get x i = .ub ∨ ∃ v, get x i = .ok v := by
  unfold get
  cases x[i]? with
  | none => exact .inl rfl
  | some v => exact .inr ⟨v, rfl⟩

theorem put_cases (x : List F) (i : Nat) (v : F) : put x i v = .ub ∨ ∃ y, put x i v = .ok y := by
  unfold put
  split
  · exact .inr ⟨_, rfl⟩
  · exact .inl rfl

theorem ylin_cases (A : Arith F) (s : Nat) (x : List F) (f j : Nat) : ylin A s x f j = .ub ∨ ∃ v, ylin A s x f j = .ok v := by
  unfold ylin
  simp only
  rcases get_cases x (f + (j + 1) / s) with h | ⟨v, h⟩
  · rw [h]; exact .inl rfl
  · rw [h, Res.bindOk]
    split
    · exact .inr ⟨_, rfl⟩
    · rcases get_cases x (f + (j + 1) / s + 1) with h | ⟨v, h⟩
      · rw [h]; exact .inl rfl
      · rw [h]; exact .inr ⟨_, rfl⟩

theorem linStockFill_cases (A : Arith F) (s : Nat) (x : List F) (f t : Nat) : ∀ (n j : Nat) (dst : List F),
    linStockFill A s x f t n j dst = .ub ∨ ∃ y, linStockFill A s x f t n j dst = .ok y
  | 0, _, dst => .inr ⟨dst, rfl⟩
  | n + 1, j, dst => by
    unfold linStockFill
    rcases ylin_cases A s x f j with h | ⟨v, h⟩
    · rw [h]; exact .inl rfl
    · rw [h, Res.bindOk]
      rcases put_cases dst (t + j) v with h | ⟨y, h⟩
      · rw [h]; exact .inl rfl
      · rw [h, Res.bindOk]
        exact linStockFill_cases A s x f t n (j + 1) y

theorem linStockFill_ub (A : Arith F) {s : Nat} {x : List F} {f t : Nat} {b : F} (hx : x[f + 1]? = some b) (hb : A.isNum b = true)
    (hend : x.length = f + 2) : ∀ (n j : Nat) (dst : List F), j + n = s → 0 < n → linStockFill A s x f t n j dst = .ub
  | 0, _, _, _, h => absurd h (by omega)
  | n + 1, j, dst, h, _ => by
    unfold linStockFill
    cases n with
    | zero =>
      have hj : j + 1 = s := by omega
      have : ylin A s x f j = .ub := by
        unfold ylin
        simp only
        rw [hj, Nat.div_self (by omega)]
        have h1 : get x (f + 1) = .ok b := by unfold get; rw [hx]
        have h2 : get x (f + 1 + 1) = .ub := by unfold get; rw [List.getElem?_eq_none (by omega)]
        rw [h1, Res.bindOk, hb, if_neg (by simp), h2]
        rfl
      rw [this]
      rfl
    | succ n =>
      rcases ylin_cases A s x f j with h' | ⟨v, h'⟩
      · rw [h']; rfl
      · rw [h', Res.bindOk]
        rcases put_cases dst (t + j) v with h' | ⟨y, h'⟩
        · rw [h']; rfl
        · rw [h', Res.bindOk]
          exact linStockFill_ub A hx hb hend (n + 1) (j + 1) y (by omega) (by omega)

theorem linRun_ub (A : Arith F) {s : Nat} (hs : 0 < s) {x : List F} {b : F} (hx : x[x.length - 1]? = some b) (hb : A.isNum b = true) :
    ∀ (n f : Nat) (dst : List F), f + n + 1 = x.length → 0 < n → linRun A .stock s x n f dst = .ub
  | 0, _, _, _, h => absurd h (by omega)
  | n + 1, f, dst, h, _ => by
    unfold linRun
    simp only
    cases n with
    | zero =>
      rw [linStockFill_ub A (b := b) (by rw [show f + 1 = x.length - 1 by omega]; exact hx) hb (by omega) s 0 dst (by omega) hs]
      rfl
    | succ n =>
      rcases linStockFill_cases A s x f ((f + 1) * s) s 0 dst with h' | ⟨y, h'⟩
      · rw [h']; rfl
      · rw [h', Res.bindOk]
        exact linRun_ub A hs hx hb (n + 1) (f + 1) y (by omega) (by omega)

theorem linRun_cases (A : Arith F) (s : Nat) (x : List F) : ∀ (n f : Nat) (dst : List F),
    linRun A .stock s x n f dst = .ub ∨ ∃ y, linRun A .stock s x n f dst = .ok y
  | 0, _, dst => .inr ⟨dst, rfl⟩
  | n + 1, f, dst => by
    unfold linRun
    simp only
    rcases linStockFill_cases A s x f ((f + 1) * s) s 0 dst with h' | ⟨y, h'⟩
    · rw [h']; exact .inl rfl
    · rw [h', Res.bindOk]
      exact linRun_cases A s x n (f + 1) y

theorem runLength_le (A : Arith F) : ∀ vs : List F, runLength A vs ≤ vs.length ∧ ∀ v, vs[runLength A vs]? = some v → A.isNum v = false
  | [] => ⟨Nat.le_refl _, by intro v h; cases h⟩
  | v :: vs => by
    unfold runLength
    obtain ⟨h1, h2⟩ := runLength_le A vs
    cases hv : A.isNum v with
    | true =>
      simp only [if_true, List.length_cons]
      exact ⟨by omega, fun w hw => h2 w (by rwa [List.getElem?_cons_succ] at hw)⟩
    | false =>
      simp only [Bool.false_eq_true, if_false]
      exact ⟨Nat.zero_le _, fun w hw => by
        rw [List.getElem?_cons_zero] at hw
        cases hw
        exact hv⟩

theorem linLoop_ub (A : Arith F) {s : Nat} (hs : 0 < s) {x : List F} {a b : F} (h2 : 2 ≤ x.length) (ha : x[x.length - 2]? = some a)
    (hna : A.isNum a = true) (hb : x[x.length - 1]? = some b) (hnb : A.isNum b = true) :
    ∀ (n beg : Nat) (dst : List F), beg + 2 ≤ x.length → x.length < beg + n → linLoop A .stock s x n beg dst = .ub
  | 0, _, _, h, h' => by omega
  | n + 1, beg, dst, h, h' => by
    unfold linLoop
    rw [if_neg (by omega)]
    simp only
    obtain ⟨r1, r2⟩ := runLength_le A (x.drop beg)
    rw [List.length_drop] at r1
    have hstop : beg + runLength A (x.drop beg) = x.length ∨ beg + runLength A (x.drop beg) + 2 < x.length := by
      have hne : ∀ i v, x[i]? = some v → A.isNum v = true → beg + runLength A (x.drop beg) ≠ i := by
        intro i v hi hv he
        have := r2 v (by rw [List.getElem?_drop, he]; exact hi)
        rw [hv] at this
        cases this
      have := hne _ a ha hna
      have := hne _ b hb hnb
      omega
    split
    · next h0 =>
      rw [h0] at hstop
      exact linLoop_ub A hs h2 ha hna hb hnb n (beg + 1) dst (by omega) (by omega)
    · next h0 =>
      rcases hstop with he | he
      · rw [linRun_ub A hs hb hnb _ beg dst (by omega) (by omega)]
        rfl
      · rcases linRun_cases A s x (runLength A (x.drop beg) - 1) beg dst with h1 | ⟨y, h1⟩
        · rw [h1]; rfl
        · rw [h1, Res.bindOk]
          exact linLoop_ub A hs h2 ha hna hb hnb n _ y (by omega) (by omega)

/-- Linear interpolation of a stock reads the source behind its end whenever the last two values of the series are numbers. -/
theorem C41_linear_stock_counterexample (A : Arith F) {s : Nat} (hs : 0 < s) (tn : Nat) (pre : List F) {a b : F}
    (ha : A.isNum a = true) (hb : A.isNum b = true) : ltohLin A .stock s tn (pre ++ [a, b]) = .ub := by
  have hl : (pre ++ [a, b]).length = pre.length + 2 := by simp
  unfold ltohLin
  refine linLoop_ub A hs (a := a) (b := b) (by omega) ?_ ha ?_ hb _ 0 _ (by omega) (by omega)
  · rw [hl, show pre.length + 2 - 2 = pre.length + 0 by omega, List.getElem?_append_right (by omega)]
    simp
  · rw [hl, show pre.length + 2 - 1 = pre.length + 1 by omega, List.getElem?_append_right (by omega)]
    simp

/-! ## Linear interpolation of a flow -/

/-- Position `i` holds a number. -/
def IsNumAt (A : Arith F) (x : List F) (i : Nat) : Prop := ∃ v, x[i]? = some v ∧ A.isNum v = true

theorem linRun_flow (A : Arith F) (s : Nat) (x : List F) : ∀ (n f : Nat) (dst : List F), f + n ≤ x.length →
    x.length * s ≤ dst.length → ∃ r, linRun A .flow s x n f dst = .ok r ∧ r.length = dst.length ∧
      (∀ i j v, j < s → f ≤ i → i < f + n → x[i]? = some v → r[i * s + j]? = some (A.div v (A.ofInt s))) ∧
      ∀ i j, j < s → (i < f ∨ f + n ≤ i) → r[i * s + j]? = dst[i * s + j]?
  | 0, f, dst, _, _ => ⟨dst, by unfold linRun; rfl, rfl, fun i j v _ h1 h2 => by omega, fun _ _ _ _ => rfl⟩
  | n + 1, f, dst, h, hd => by
    unfold linRun
    simp only
    obtain ⟨v, hv⟩ : ∃ v, x[f]? = some v := ⟨x[f]'(by omega), List.getElem?_eq_getElem (by omega)⟩
    have hg : get x f = .ok v := by unfold get; rw [hv]
    have hm : (f + 1) * s ≤ x.length * s := Nat.mul_le_mul_right s (by omega)
    rw [Nat.add_mul, Nat.one_mul] at hm
    obtain ⟨d, d1, d2, d3⟩ := fillLoop_spec (A.div v (A.ofInt s)) s (f * s) dst (by omega)
    rw [hg, Res.bindOk, d1, Res.bindOk]
    obtain ⟨r, r1, r2, r3, r4⟩ := linRun_flow A s x n (f + 1) d (by omega) (by omega)
    refine ⟨r, r1, r2.trans d2, fun i j w hj h1 h2 hw => ?_, fun i j hj hi => ?_⟩
    · by_cases he : i = f
      · subst he
        rw [hv] at hw
        cases hw
        rw [r4 i j hj (by omega), d3, if_pos (by omega)]
      · exact r3 i j w hj (by omega) (by omega) hw
    · rw [r4 i j hj (by omega), d3, if_neg]
      rcases hi with hi | hi
      · have := block_lt hj hi
        omega
      · have : (f + 1) * s ≤ i * s := Nat.mul_le_mul_right s (by omega)
        rw [Nat.add_mul, Nat.one_mul] at this
        omega

theorem runLength_num (A : Arith F) : ∀ (vs : List F) (i : Nat), i < runLength A vs → IsNumAt A vs i
  | [], _, h => by simp [runLength] at h
  | v :: vs, i, h => by
    unfold runLength at h
    cases hv : A.isNum v with
    | true =>
      rw [hv, if_pos rfl] at h
      cases i with
      | zero => exact ⟨v, rfl, hv⟩
      | succ i =>
        obtain ⟨w, h1, h2⟩ := runLength_num A vs i (by omega)
        exact ⟨w, by rw [List.getElem?_cons_succ]; exact h1, h2⟩
    | false => simp [hv] at h

theorem linLoop_flow (A : Arith F) (s : Nat) (x : List F) : ∀ (n beg : Nat) (dst : List F), x.length < beg + n →
    x.length * s ≤ dst.length → ∃ r, linLoop A .flow s x n beg dst = .ok r ∧ r.length = dst.length ∧
      (∀ i j v, j < s → beg ≤ i → x[i]? = some v → IsNumAt A x i → IsNumAt A x (i + 1) →
        r[i * s + j]? = some (A.div v (A.ofInt s))) ∧
      ∀ i j, j < s → (i < beg ∨ ¬ (IsNumAt A x i ∧ IsNumAt A x (i + 1))) → r[i * s + j]? = dst[i * s + j]?
  | 0, beg, dst, h, _ => ⟨dst, by unfold linLoop; rfl, rfl, fun i j v _ h1 hv => by
      have := (List.getElem?_eq_some_iff.1 hv).1
      omega, fun _ _ _ _ => rfl⟩
  | n + 1, beg, dst, h, hd => by
    unfold linLoop
    by_cases hb : x.length ≤ beg
    · rw [if_pos hb]
      exact ⟨dst, rfl, rfl, fun i j v _ h1 hv => by
        have := (List.getElem?_eq_some_iff.1 hv).1
        omega, fun _ _ _ _ => rfl⟩
    · rw [if_neg hb]
      simp only
      obtain ⟨r1, r2⟩ := runLength_le A (x.drop beg)
      have r3 := runLength_num A (x.drop beg)
      rw [List.length_drop] at r1
      generalize hlen : runLength A (x.drop beg) = len at *
      have hend : ¬ IsNumAt A x (beg + len) := by
        rintro ⟨v, hv, hn⟩
        have := r2 v (by rw [List.getElem?_drop]; exact hv)
        rw [hn] at this
        cases this
      have hin : ∀ i, beg ≤ i → i < beg + len → IsNumAt A x i := by
        intro i h1 h2
        obtain ⟨v, hv, hn⟩ := r3 (i - beg) (by omega)
        rw [List.getElem?_drop, show beg + (i - beg) = i by omega] at hv
        exact ⟨v, hv, hn⟩
      by_cases h0 : len = 0
      · rw [if_pos h0]
        obtain ⟨r, e1, e2, e3, e4⟩ := linLoop_flow A s x n (beg + 1) dst (by omega) hd
        rw [h0, Nat.add_zero] at hend
        refine ⟨r, e1, e2, fun i j v hj hi hv n1 n2 => ?_, fun i j hj hi => e4 i j hj (by
          rcases hi with hi | hi
          · exact .inl (by omega)
          · exact .inr hi)⟩
        by_cases he : i = beg
        · subst he
          exact absurd n1 hend
        · exact e3 i j v hj (by omega) hv n1 n2
      · rw [if_neg h0]
        obtain ⟨d, d1, d2, d3, d4⟩ := linRun_flow A s x (len - 1) beg dst (by omega) hd
        rw [d1, Res.bindOk]
        obtain ⟨r, e1, e2, e3, e4⟩ := linLoop_flow A s x n (beg + len) d (by omega) (by omega)
        refine ⟨r, e1, e2.trans d2, fun i j v hj hi hv n1 n2 => ?_, fun i j hj hi => ?_⟩
        · by_cases he : beg + len ≤ i
          · exact e3 i j v hj he hv n1 n2
          · rw [e4 i j hj (by omega)]
            by_cases he2 : i + 1 = beg + len
            · rw [he2] at n2
              exact absurd n2 hend
            · exact d3 i j v hj hi (by omega) hv
        · have hi' : i < beg + len ∨ ¬ (IsNumAt A x i ∧ IsNumAt A x (i + 1)) := by
            rcases hi with hi | hi
            · exact .inl (by omega)
            · exact .inr hi
          rw [e4 i j hj hi']
          refine d4 i j hj ?_
          rcases hi with hi | hi
          · exact .inl hi
          · by_cases h1 : i < beg
            · exact .inl h1
            · right
              refine Nat.le_of_not_lt fun h2 => hi ⟨hin i (by omega) (by omega), hin (i + 1) (by omega) (by omega)⟩

/-- "Linear interpolation" of a flow: a number followed by a number is spread in equal parts over its sub-periods; every other
period is missing in all its sub-periods (missing for the full claim: the last number before a gap or before the end). -/
theorem C41_linear_flow_partial (A : Arith F) (s : Nat) (x : List F) (tn : Nat) (htn : x.length * s ≤ tn) :
    ∃ y, ltohLin A .flow s tn x = .ok y ∧ y.length = tn ∧ ∀ i j, j < s → i < x.length →
      ((∀ v w, x[i]? = some v → x[i + 1]? = some w → A.isNum v = true → A.isNum w = true →
        y[i * s + j]? = some (A.div v (A.ofInt s))) ∧
      (¬ (IsNumAt A x i ∧ IsNumAt A x (i + 1)) → y[i * s + j]? = some A.na)) := by
  unfold ltohLin
  obtain ⟨r, e1, e2, e3, e4⟩ := linLoop_flow A s x (x.length + 1) 0 (List.replicate tn A.na) (by omega) (by simpa using htn)
  refine ⟨r, e1, by rw [e2, List.length_replicate], fun i j hj hi => ⟨fun v w hv hw nv nw => ?_, fun h => ?_⟩⟩
  · exact e3 i j v hj (Nat.zero_le _) hv ⟨v, hv, nv⟩ ⟨w, hw, nw⟩
  · rw [e4 i j hj (.inr h)]
    have : (i + 1) * s ≤ x.length * s := Nat.mul_le_mul_right s (by omega)
    rw [Nat.add_mul, Nat.one_mul] at this
    rw [List.getElem?_replicate, if_pos (by omega)]

example : ltohLin exArith .flow 2 10 [some 8, some 4, none, some 6, some 2] =
    .ok [some 4, some 4, none, none, none, none, some 3, some 3, none, none] := by decide +kernel

/-- The last number of a flow is lost by linear interpolation: the round trip does not restore it. -/
theorem C41_linear_flow_counterexample :
    ltohLin exArith .flow 4 8 [some 8, some 4] = .ok [some 2, some 2, some 2, some 2, none, none, none, none] ∧
    htolVar exArith .sum 4 0 8 2 [some 2, some 2, some 2, some 2, none, none, none, none] = .ok [some 8, none] := by
  constructor <;> decide +kernel

/-- A source that does not start with a year is misdated: 2000Q3 goes to 2000M1. -/
theorem C41_misdated_counterexample :
    ∃ t y, ltohSmpl ⟨⟨2000, 3, 'Q'⟩, ⟨2000, 4, 'Q'⟩, 2⟩ ⟨⟨2000, 1, 'M'⟩, ⟨2000, 12, 'M'⟩, 12⟩ = .ok (t, 3) ∧
      ltohStep exArith .stock 3 t.nb.toNat [some 7, some 8] = .ok y ∧ t.position ⟨2000, 1, 'M'⟩ = .ok 0 ∧ y[0]? = some (some 7) ∧
      t.position ⟨2000, 7, 'M'⟩ = .ok 6 ∧ y[6]? = some none :=
  ⟨⟨⟨2000, 1, 'M'⟩, ⟨2000, 12, 'M'⟩, 12⟩, [some 7, some 7, some 7, some 8, some 8, some 8, none, none, none, none, none, none],
    by decide +kernel, by decide +kernel, by decide, rfl, by decide, rfl⟩

/-! ## Examples -/

/-- 1999Y1 to 2002Y1 to quarters. -/
example : ltohSmpl exYears ⟨⟨1990, 1, 'Q'⟩, ⟨2010, 4, 'Q'⟩, 84⟩ = .ok (⟨⟨1999, 1, 'Q'⟩, ⟨2002, 4, 'Q'⟩, 16⟩, 4) ∧
    ltohStep exArith .flow 4 16 [some 4, none, some 8, some 40] = .ok [some 1, some 1, some 1, some 1, none, none, none, none,
      some 2, some 2, some 2, some 2, some 10, some 10, some 10, some 10] ∧
    exYears.Fair ∧ exYears.start.step = 1 ∧ exYears.stop.step = 1 ∧ (4 : Int) = 1 * 4 :=
  ⟨by decide +kernel, by decide +kernel, exYears_fair, rfl, rfl, rfl⟩

/-- 2000S1 to 2001S1 to quarters and back: the second half of 2001 is missing. -/
example : ltohSmpl ⟨⟨2000, 1, 'S'⟩, ⟨2001, 1, 'S'⟩, 3⟩ ⟨⟨1990, 1, 'Q'⟩, ⟨2010, 4, 'Q'⟩, 84⟩ =
      .ok (⟨⟨2000, 1, 'Q'⟩, ⟨2001, 4, 'Q'⟩, 8⟩, 2) ∧
    ltohStep exArith .stock 2 8 [some 1, some 2, some 3] = .ok [some 1, some 1, some 2, some 2, some 3, some 3, none, none] ∧
    htolVar exArith .last 2 0 8 4 [some 1, some 1, some 2, some 2, some 3, some 3, none, none] = .ok [some 1, some 2, some 3, none] := by
  refine ⟨by decide +kernel, by decide +kernel, by decide +kernel⟩

/-- The command on a workspace. -/
example : ltoh exArith .stock ⟨some ⟨⟨2000, 3, 'Q'⟩, ⟨2001, 2, 'Q'⟩, 4⟩, [(nm 'B', [none, some 1, some 2, some 3])]⟩
    ⟨⟨2000, 3, 'Q'⟩, ⟨2001, 2, 'Q'⟩, 4⟩ ⟨⟨2001, 1, 'Y'⟩, ⟨2002, 1, 'Y'⟩, 2⟩ [(nm 'A', [some 5, some 6]), (nm 'B', [some 7, some 8])] =
    .ok ⟨some ⟨⟨2000, 3, 'Q'⟩, ⟨2001, 2, 'Q'⟩, 4⟩, [(nm 'A', [none, none, some 5, some 5]), (nm 'B', [none, some 1, some 7, some 7])]⟩ := by
  decide +kernel

end Iode.Convert
