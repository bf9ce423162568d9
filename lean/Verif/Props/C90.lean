import Verif.Model.Graph
import Verif.Lemmas.Overlap
import Verif.Lemmas.SMap
import Verif.Props.C01
import Verif.Props.C59

/-!
# C90: the series of a computed table have the computed values at their periods
-/
namespace Iode.Graph

open Iode.GSample (Col)
open Iode.TblCalc (resize resize_get resize_length)

variable {F : Type}

/-! ## What is meant -/

/-- The columns show the same files with the same operation between them. -/
def Same (a b : Col) : Prop := a.opf = b.opf ∧ a.file = b.file

/-- The periods of the columns exist, have one periodicity and are less than 32767 periods apart. -/
structure Alike (cols : List Col) (nb : Int) (P : Char) : Prop where
  per : nbPeriodsPerYear P = .ok nb
  wf : ∀ c ∈ cols, c.per.periodicity = P ∧ 1 ≤ c.per.step ∧ c.per.step ≤ nb
  near : ∀ c ∈ cols, ∀ d ∈ cols, c.per.ord nb - d.per.ord nb < 32767

theorem bind_inv {α β : Type} {r : Res α} {f : α → Res β} {b : β} (h : r.bind f = .ok b) : ∃ a, r = .ok a ∧ f a = .ok b := by
  cases r with
  | ok a => exact ⟨a, rfl, h⟩
  | err => cases h
  | ub => cases h

theorem same_iff {a b : Col} : sameFiles a b = true ↔ Same a b := by
  unfold sameFiles Same
  simp

/-! ## Operations on files -/

theorem findFileOp_none : ∀ (ops : List Col) (c : Col), findFileOp ops c = none ↔ ∀ o ∈ ops, ¬ Same c o
  | [], c => by simp [findFileOp]
  | o :: ops, c => by
    unfold findFileOp
    by_cases h : sameFiles c o = true
    · simp [h, same_iff.mp h]
    · have h' : ¬ Same c o := fun hs => h (same_iff.mpr hs)
      simp [h, h', findFileOp_none ops c]

theorem findFileOp_some : ∀ {ops : List Col}, ops.Pairwise (fun a b => ¬ Same a b) → ∀ (c : Col) (f : Nat) (o : Col), ops[f]? = some o →
    (findFileOp ops c = some f ↔ Same c o)
  | [], _, c, f, o, h => by simp at h
  | o' :: ops, hp, c, f, o, h => by
    obtain ⟨h1, h2⟩ := List.pairwise_cons.mp hp
    unfold findFileOp
    cases f with
    | zero =>
      simp only [List.getElem?_cons_zero, Option.some.injEq] at h
      subst h
      by_cases hs : sameFiles c o' = true
      · simp [hs, same_iff.mp hs]
      · have h' : ¬ Same c o' := fun x => hs (same_iff.mpr x)
        simp [hs, h']
    | succ f =>
      simp only [List.getElem?_cons_succ] at h
      by_cases hs : sameFiles c o' = true
      · have hc := same_iff.mp hs
        rw [if_pos hs]
        constructor
        · intro e; cases e
        · intro e
          exact absurd ⟨hc.1.symm.trans e.1, hc.2.symm.trans e.2⟩ (h1 o (List.mem_of_getElem? h))
      · rw [if_neg hs]
        rw [← findFileOp_some h2 c f o h]
        cases findFileOp ops c <;> simp

theorem scan_ops : ∀ {cs : List Col} {s e : Period} {ops : List Col} {r : Period × Period × List Col}, scan cs s e ops = .ok r →
    ops.Pairwise (fun a b => ¬ Same a b) →
    r.2.2.Pairwise (fun a b => ¬ Same a b) ∧ (∀ o ∈ ops, o ∈ r.2.2) ∧ (∀ c ∈ cs, ∃ o ∈ r.2.2, Same c o) ∧ ∀ o ∈ r.2.2, o ∈ ops ∨ o ∈ cs
  | [], s, e, ops, r, h, hp => by
    cases h
    exact ⟨hp, fun o h => h, by simp, fun o h => .inl h⟩
  | c :: cs, s, e, ops, r, h, hp => by
    unfold scan at h
    obtain ⟨d, _, h⟩ := bind_inv h
    obtain ⟨d', _, h⟩ := bind_inv h
    by_cases hn : findFileOp ops c = none
    · have hd := (findFileOp_none ops c).mp hn
      rw [if_pos hn] at h
      obtain ⟨g1, g2, g3, g4⟩ := scan_ops h (List.pairwise_append.mpr ⟨hp, by simp, fun a ha b hb hs => by
        simp only [List.mem_singleton] at hb
        subst hb
        exact hd a ha ⟨hs.1.symm, hs.2.symm⟩⟩)
      refine ⟨g1, fun o ho => g2 o (by simp [ho]), fun x hx => ?_, fun o ho => ?_⟩
      · rcases List.mem_cons.mp hx with rfl | hx
        · exact ⟨x, g2 x (by simp), rfl, rfl⟩
        · exact g3 x hx
      · rcases g4 o ho with h | h
        · rcases List.mem_append.mp h with h | h
          · exact .inl h
          · simp only [List.mem_singleton] at h; subst h; exact .inr (by simp)
        · exact .inr (by simp [h])
    · rw [if_neg hn] at h
      obtain ⟨g1, g2, g3, g4⟩ := scan_ops h hp
      refine ⟨g1, g2, fun x hx => ?_, fun o ho => (g4 o ho).imp id (by intro h; simp [h])⟩
      rcases List.mem_cons.mp hx with rfl | hx
      · have : ∃ o ∈ ops, Same x o := by
          have := (not_congr (findFileOp_none ops x)).mp hn
          simpa using this
        obtain ⟨o, ho, hs⟩ := this
        exact ⟨o, g2 o ho, hs⟩
      · exact g3 x hx

/-! ## The sample -/

theorem same_period {p q : Period} (h : q.periodicity = p.periodicity) : { p with year := q.year, step := q.step } = q := by
  cases p; cases q; simp at h; simp [h]

theorem scan_spec {nb : Int} {P : Char} (hP : nbPeriodsPerYear P = .ok nb) : ∀ (cs : List Col) (s e : Period) (ops : List Col),
    (∀ c ∈ cs, c.per.periodicity = P) → s.periodicity = P → e.periodicity = P →
    ∃ s' e' ops', scan cs s e ops = .ok (s', e', ops') ∧ (s' = s ∨ ∃ c ∈ cs, s' = c.per) ∧ (e' = e ∨ ∃ c ∈ cs, e' = c.per) ∧
      s'.ord nb ≤ s.ord nb ∧ e.ord nb ≤ e'.ord nb ∧ ∀ c ∈ cs, s'.ord nb ≤ c.per.ord nb ∧ c.per.ord nb ≤ e'.ord nb
  | [], s, e, ops, _, _, _ => ⟨s, e, ops, rfl, .inl rfl, .inl rfl, by omega, by omega, by simp⟩
  | c :: cs, s, e, ops, hc, hs, he => by
    have hcp := hc c (by simp)
    have d1 := Period.difference_spec (p := c.per) (q := s) (by rw [hcp]; exact hP) (hcp.trans hs.symm)
    have d2 := Period.difference_spec (p := c.per) (q := e) (by rw [hcp]; exact hP) (hcp.trans he.symm)
    change _ = Res.ok (c.per.ord nb - s.ord nb) at d1
    change _ = Res.ok (c.per.ord nb - e.ord nb) at d2
    unfold scan
    rw [d1]
    simp only [Res.bind]
    rw [d2]
    simp only [Res.bind]
    rw [same_period (hcp.trans hs.symm), same_period (hcp.trans he.symm)]
    obtain ⟨s', e', ops', g1, g2, g3, g4, g5, g6⟩ := scan_spec hP cs (if c.per.ord nb - s.ord nb < 0 then c.per else s) (if c.per.ord nb - e.ord nb > 0 then c.per else e)
      (if findFileOp ops c = none then ops ++ [c] else ops) (fun x hx => hc x (by simp [hx])) (by split <;> assumption) (by split <;> assumption)
    refine ⟨s', e', ops', g1, ?_, ?_, ?_, ?_, fun x hx => ?_⟩
    · rcases g2 with h | ⟨x, hx, h⟩
      · split at h
        · exact .inr ⟨c, by simp, h⟩
        · exact .inl h
      · exact .inr ⟨x, by simp [hx], h⟩
    · rcases g3 with h | ⟨x, hx, h⟩
      · split at h
        · exact .inr ⟨c, by simp, h⟩
        · exact .inl h
      · exact .inr ⟨x, by simp [hx], h⟩
    · split at g4 <;> omega
    · split at g5 <;> omega
    · rcases List.mem_cons.mp hx with rfl | hx
      · split at g4 <;> split at g5 <;> omega
      · exact g6 x hx

/-- C90. The sample of a computed table goes from the first to the last period of its columns; the operations on files are those of the columns, each once. -/
theorem C90_sample {cols : List Col} {nb : Int} {P : Char} (h : Alike cols nb P) (h0 : cols ≠ []) :
    ∃ smp ops, prepare cols = .ok (smp, ops) ∧ smp.Fair ∧ (∃ c ∈ cols, smp.start = c.per) ∧ (∃ c ∈ cols, smp.stop = c.per) ∧
      (∀ c ∈ cols, ∃ i, smp.position c.per = .ok i) ∧ ops.Pairwise (fun a b => ¬ Same a b) ∧ (∀ c ∈ cols, ∃ o ∈ ops, Same c o) ∧ ∀ o ∈ ops, o ∈ cols := by
  cases cols with
  | nil => exact absurd rfl h0
  | cons c cs =>
    have hcp := (h.wf c (by simp)).1
    obtain ⟨s, e, ops, g1, g2, g3, g4, g5, g6⟩ := scan_spec h.per (c :: cs) c.per c.per [] (fun x hx => (h.wf x hx).1) hcp hcp
    have hs : ∃ x ∈ c :: cs, s = x.per := g2.elim (fun e => ⟨c, by simp, e⟩) id
    have he : ∃ x ∈ c :: cs, e = x.per := g3.elim (fun e => ⟨c, by simp, e⟩) id
    obtain ⟨k1, k2, k3, k4⟩ := scan_ops g1 List.Pairwise.nil
    obtain ⟨x, hx, rfl⟩ := hs
    obtain ⟨y, hy, rfl⟩ := he
    have wx := h.wf x hx
    have wy := h.wf y hy
    have hxy := (g6 c (by simp))
    have hnear := h.near y hy x hx
    have hd := Period.difference_spec (p := y.per) (q := x.per) (by rw [wy.1]; exact h.per) (wy.1.trans wx.1.symm)
    change _ = Res.ok (y.per.ord nb - x.per.ord nb) at hd
    have hf : Sample.Fair ⟨x.per, y.per, y.per.ord nb - x.per.ord nb + 1⟩ := by
      refine ⟨(y.per.ord nb - x.per.ord nb).toNat, ⟨⟨nb, by rw [wx.1]; exact h.per, wx.2.1, wx.2.2⟩, ⟨nb, by rw [wy.1]; exact h.per, wy.2.1, wy.2.2⟩, ?_, ?_⟩, ?_, ?_⟩
      · exact wy.1.trans wx.1.symm
      · simp only [hd]; congr 1; omega
      · omega
      · simp only []; omega
    refine ⟨⟨x.per, y.per, y.per.ord nb - x.per.ord nb + 1⟩, ops, ?_, hf, ⟨x, hx, rfl⟩, ⟨y, hy, rfl⟩, fun z hz => ?_, k1, k3, fun o ho => (k4 o ho).elim (by simp) id⟩
    · unfold prepare
      simp only []
      rw [g1]
      simp only [Res.bind]
      have := hf.built
      simp only at this
      rw [this]
    · have wz := h.wf z hz
      have := g6 z hz
      rw [Sample.position_eq (nb := nb) (by show nbPeriodsPerYear x.per.periodicity = _; rw [wx.1]; exact h.per) (wz.1.trans wx.1.symm)]
      simp only []
      rw [if_neg (by omega)]
      exact ⟨_, rfl⟩

/-- Columns with different periodicities are refused. -/
theorem C90_mixed_refused {c d : Col} {cs : List Col} (hd : d ∈ cs) (hw : ∀ x ∈ c :: cs, x.per.WF) (h : d.per.periodicity ≠ c.per.periodicity) : prepare (c :: cs) = .err := by
  have key : ∀ (l : List Col) (s e : Period) (ops : List Col), (∀ x ∈ l, x.per.WF) → s.periodicity = c.per.periodicity → e.periodicity = c.per.periodicity → d ∈ l →
      scan l s e ops = .err := by
    intro l
    induction l with
    | nil => intro s e ops _ _ _ h; simp at h
    | cons x l ih =>
      intro s e ops hw hs he hm
      unfold scan
      by_cases hx : x.per.periodicity = c.per.periodicity
      · obtain ⟨nb, hnb, _⟩ := hw x (by simp)
        rw [Period.difference_spec hnb (hx.trans hs.symm)]
        simp only [Res.bind]
        rw [Period.difference_spec hnb (hx.trans he.symm)]
        simp only [Res.bind]
        refine ih _ _ _ (fun y hy => hw y (by simp [hy])) (by split <;> simp [hs]) (by split <;> simp [he]) ?_
        rcases List.mem_cons.mp hm with rfl | hm
        · exact absurd hx h
        · exact hm
      · rw [C01_difference_mixed _ _ (by rw [hs]; exact hx)]
        rfl
  unfold prepare
  simp only []
  rw [key (c :: cs) c.per c.per [] hw rfl rfl (by simp [hd])]
  rfl

/-! ## The values -/

theorem positions_spec {step : Nat} (hs : 2 ≤ step) : ∀ (n k col nb : Nat), nb + 1 = col + n * step → n ≤ k → (positions nb step k col).length = n ∧
    ∀ j, j < n → (positions nb step k col)[j]? = some (col + j * step)
  | 0, k, col, nb, h, _ => by
    have : positions nb step k col = [] := by
      cases k with
      | zero => rfl
      | succ k => unfold positions; rw [if_neg (by omega)]
    simp [this]
  | n + 1, 0, col, nb, h, hk => by omega
  | n + 1, k + 1, col, nb, h, hk => by
    rw [Nat.add_mul] at h
    obtain ⟨g1, g2⟩ := positions_spec hs n k (col + step) nb (by omega) (by omega)
    unfold positions
    rw [if_pos (by omega)]
    refine ⟨by simp [g1], fun j hj => ?_⟩
    cases j with
    | zero => simp
    | succ j =>
      rw [List.getElem?_cons_succ, g2 j (by omega), Nat.add_mul]
      congr 1
      omega

theorem pick_spec (results : List F) : ∀ ps : List Nat, (∀ p ∈ ps, p < results.length) →
    ∃ vs, ps.foldr (fun p r => match results[p]? with | none => .ub | some v => r.bind fun vs => .ok (v :: vs)) (Res.ok []) = .ok vs ∧ vs.length = ps.length ∧
      ∀ (j p : Nat), ps[j]? = some p → vs[j]? = results[p]?
  | [], _ => ⟨[], rfl, rfl, by simp⟩
  | p :: ps, h => by
    obtain ⟨vs, h1, h2, h3⟩ := pick_spec results ps fun q hq => h q (by simp [hq])
    have hp := h p (by simp)
    refine ⟨results[p] :: vs, ?_, by simp [h2], fun j q hj => ?_⟩
    · rw [List.foldr_cons, h1, List.getElem?_eq_getElem hp]
      rfl
    · cases j with
      | zero => simp only [List.getElem?_cons_zero, Option.some.injEq] at hj; subst hj; simp [hp]
      | succ j => simp only [List.getElem?_cons_succ] at hj ⊢; exact h3 j q hj

/-- The values of a row are the results of the second cell. -/
theorem rowValues_spec {dim n : Nat} (hd : 2 ≤ dim) {results : List F} (hl : results.length = n * dim) :
    ∃ vals, rowValues true dim results = .ok vals ∧ vals.length = n ∧ ∀ j, j < n → vals[j]? = results[1 + j * dim]? := by
  have hn : n ≤ results.length := by rw [hl]; exact Nat.le_mul_of_pos_right n (by omega)
  obtain ⟨g1, g2⟩ := positions_spec hd n results.length 1 results.length (by omega) hn
  obtain ⟨vs, h1, h2, h3⟩ := pick_spec results (positions results.length dim results.length 1) (by
    intro p hp
    obtain ⟨j, hj⟩ := List.mem_iff_getElem?.mp hp
    have hjn : j < n := by
      rw [← g1]
      exact (List.getElem?_eq_some_iff.mp hj).1
    rw [g2 j hjn] at hj
    cases hj
    have : (j + 1) * dim ≤ n * dim := Nat.mul_le_mul_right _ (by omega)
    rw [Nat.add_mul] at this
    omega)
  refine ⟨vs, by unfold rowValues; rw [if_pos rfl]; exact h1, by rw [h2, g1], fun j hj => h3 j _ (g2 j hj)⟩

theorem loop_spec {start : Period} {ops : List Col} {f : Nat} {cols : List Col} {step : Nat} {vals : List F} : ∀ (cs : List Col) (n col k : Nat) (y : List F),
    cs.length ≤ n → (∀ i, cols[col + i * step]? = cs[i]?) → (∀ i, i < cs.length → ∃ v, vals[k + i]? = some v) →
    (∀ c ∈ cs, ∃ d : Nat, c.per.difference start = .ok (d : Int) ∧ d < y.length) →
    ∃ y', seriesLoop start ops f cols step vals n col k y = .ok y' ∧ y'.length = y.length ∧ ∀ t : Nat,
      (∀ i c, cs[i]? = some c → findFileOp ops c = some f → c.per.difference start = .ok (t : Int) →
        (∀ i' c', i < i' → cs[i']? = some c' → findFileOp ops c' = some f → c'.per.difference start ≠ .ok (t : Int)) → y'[t]? = vals[k + i]?) ∧
      ((∀ c ∈ cs, findFileOp ops c = some f → c.per.difference start ≠ .ok (t : Int)) → y'[t]? = y[t]?)
  | [], n, col, k, y, _, hc, _, _ => by
    refine ⟨y, ?_, rfl, by simp⟩
    cases n with
    | zero => rfl
    | succ n =>
      unfold seriesLoop
      have := hc 0
      simp only [Nat.zero_mul, Nat.add_zero, List.getElem?_nil] at this
      rw [this]
  | c :: cs, 0, _, _, _, h, _, _, _ => by simp at h
  | c :: cs, n + 1, col, k, y, hn, hc, hv, hd => by
    have h0 := hc 0
    simp only [Nat.zero_mul, Nat.add_zero, List.getElem?_cons_zero] at h0
    have hc' : ∀ i, cols[col + step + i * step]? = cs[i]? := by
      intro i
      have := hc (i + 1)
      rw [Nat.add_mul, List.getElem?_cons_succ] at this
      rw [← this]
      congr 1
      omega
    have hv' : ∀ i, i < cs.length → ∃ v, vals[k + 1 + i]? = some v := by
      intro i hi
      obtain ⟨v, h⟩ := hv (i + 1) (by simp; omega)
      exact ⟨v, by rw [← h]; congr 1; omega⟩
    obtain ⟨v, hv0⟩ := hv 0 (by simp)
    rw [Nat.add_zero] at hv0
    obtain ⟨d, hd0, hdl⟩ := hd c (by simp)
    have shift : ∀ i, k + 1 + i = k + (i + 1) := by intro i; omega
    by_cases hf : findFileOp ops c = some f
    · obtain ⟨y', g1, g2, g3⟩ := loop_spec (start := start) (ops := ops) (f := f) cs n (col + step) (k + 1) (y.set d v) (by simpa using hn) hc' hv'
        (fun x hx => by rw [List.length_set]; exact hd x (by simp [hx]))
      refine ⟨y', ?_, by rw [g2, List.length_set], fun t => ⟨fun i x hx ho ht hl => ?_, fun hno => ?_⟩⟩
      · unfold seriesLoop
        rw [h0]
        simp only [hf, if_true, hd0, Res.bind, hv0]
        unfold store
        rw [if_pos ⟨by omega, by omega⟩]
        simp only [Int.toNat_natCast]
        exact g1
      · cases i with
        | zero =>
          simp only [List.getElem?_cons_zero, Option.some.injEq] at hx
          subst hx
          rw [(g3 t).2 fun x hx ho' => by
            obtain ⟨i, hi⟩ := List.mem_iff_getElem?.mp hx
            exact hl (i + 1) x (by omega) (by simpa using hi) ho']
          rw [hd0] at ht
          simp only [Res.ok.injEq] at ht
          have : d = t := by omega
          subst this
          rw [List.getElem?_set_self hdl, Nat.add_zero, hv0]
        | succ i =>
          rw [List.getElem?_cons_succ] at hx
          rw [(g3 t).1 i x hx ho ht fun i' x' hi' hx' ho' => hl (i' + 1) x' (by omega) (by simpa using hx') ho', shift]
      · rw [(g3 t).2 fun x hx => hno x (by simp [hx])]
        have := hno c (by simp) hf
        rw [hd0] at this
        rw [List.getElem?_set_ne]
        rintro rfl
        exact this rfl
    · obtain ⟨y', g1, g2, g3⟩ := loop_spec (start := start) (ops := ops) (f := f) cs n (col + step) (k + 1) y (by simpa using hn) hc' hv'
        (fun x hx => hd x (by simp [hx]))
      refine ⟨y', ?_, g2, fun t => ⟨fun i x hx ho ht hl => ?_, fun hno => (g3 t).2 fun x hx => hno x (by simp [hx])⟩⟩
      · unfold seriesLoop
        rw [h0]
        simp only [if_neg hf]
        exact g1
      · cases i with
        | zero =>
          simp only [List.getElem?_cons_zero, Option.some.injEq] at hx
          subst hx
          exact absurd ho hf
        | succ i =>
          rw [List.getElem?_cons_succ] at hx
          rw [(g3 t).1 i x hx ho ht fun i' x' hi' hx' ho' => hl (i' + 1) x' (by omega) (by simpa using hx') ho', shift]

/-! ## The periods -/

theorem periodsLoop_spec {s : Period} (h : s.WF) : ∀ (n : Nat) (i : Int), ∃ ps, periodsLoop s n i = .ok ps ∧ ps.length = n ∧ ∀ (j : Nat) p, ps[j]? = some p → s.shift (i + j) = .ok p
  | 0, i => ⟨[], rfl, rfl, by simp⟩
  | n + 1, i => by
    obtain ⟨q, hq, _⟩ := C01_shift_distance s h i
    obtain ⟨ps, h1, h2, h3⟩ := periodsLoop_spec h n (i + 1)
    refine ⟨q :: ps, by unfold periodsLoop; rw [hq]; simp only [Res.bind, h1], by simp [h2], fun j p hj => ?_⟩
    cases j with
    | zero => simp only [List.getElem?_cons_zero, Option.some.injEq] at hj; subst hj; simpa using hq
    | succ j =>
      rw [List.getElem?_cons_succ] at hj
      rw [← h3 j p hj]
      congr 1
      omega

theorem seriesPeriods_spec {smp : Sample} (h : smp.Fair) : ∃ ps, seriesPeriods smp = .ok ps ∧ ps.length = smp.nb.toNat ∧
    ∀ (j : Nat) p, ps[j]? = some p ↔ smp.position p = .ok (j : Int) ∧ p.WF := by
  have hnb := h.nb_pos
  obtain ⟨n, ⟨⟨nb, w1, w2, w3⟩, w4, w5, w6⟩, _⟩ := h
  have hw : smp.start.WF := ⟨nb, w1, w2, w3⟩
  obtain ⟨ps, h1, h2, h3⟩ := periodsLoop_spec hw (smp.nb - 1).toNat 1
  have hl : (smp.start :: ps).length = smp.nb.toNat := by simp [h2]; omega
  have hs : ∀ (j : Nat) p, (smp.start :: ps)[j]? = some p → smp.start.shift j = .ok p := by
    intro j p hj
    cases j with
    | zero =>
      simp only [List.getElem?_cons_zero, Option.some.injEq] at hj
      subst hj
      obtain ⟨n, a1, a2⟩ := C01_shift_by_difference smp.start smp.start hw hw rfl
      rw [Period.difference_spec w1 rfl] at a1
      simp only [Int.sub_self, Res.ok.injEq] at a1
      subst a1
      exact a2
    | succ j =>
      rw [List.getElem?_cons_succ] at hj
      rw [← h3 j p hj]
      congr 1
      omega
  refine ⟨smp.start :: ps, by unfold seriesPeriods; rw [h1]; rfl, hl, fun j p => ⟨fun hj => ?_, fun ⟨hj, hp⟩ => ?_⟩⟩
  · obtain ⟨q, a1, a2, a3, a4, _⟩ := C01_shift_distance smp.start hw j
    rw [hs j p hj] at a1
    cases a1
    refine ⟨?_, a2⟩
    have := (List.getElem?_eq_some_iff.mp hj).1
    unfold Sample.position
    rw [a4, Res.bind_ok, if_neg (by omega)]
  · have hlt : j < smp.nb.toNat := by
      unfold Sample.position at hj
      obtain ⟨t, b1, b2⟩ := bind_inv hj
      split at b2
      · cases b2
      · cases b2; omega
    obtain ⟨q, hq⟩ : ∃ q, (smp.start :: ps)[j]? = some q := ⟨_, List.getElem?_eq_getElem (by omega)⟩
    rw [hq]
    obtain ⟨q', a1, a2, a3, a4, _⟩ := C01_shift_distance smp.start hw j
    rw [hs j q hq] at a1
    cases a1
    unfold Sample.position at hj
    obtain ⟨t, b1, b2⟩ := bind_inv hj
    have ht : t = j := by split at b2 <;> cases b2; rfl
    subst ht
    have hper : p.periodicity = smp.start.periodicity := by
      by_cases e : p.periodicity = smp.start.periodicity
      · exact e
      · rw [C01_difference_mixed _ _ e] at b1; cases b1
    obtain ⟨m, c1, c2⟩ := C01_shift_by_difference smp.start p hw hp hper
    rw [b1] at c1
    cases c1
    rw [hs j q hq] at c2
    cases c2
    rfl

/-- C90. The series of a row for an operation on files has a value for each period of the sample: that of the column with this period and operation, missing if there is none.  Missing:
columns with the same period and operation, of which the last one counts (`C90_same_period_counterexample`). -/
theorem C90_series_partial (na : F) {cols : List Col} {nb : Int} {P : Char} (h : Alike cols nb P) {smp : Sample} {ops : List Col} (hp : prepare cols = .ok (smp, ops))
    {dim : Nat} (hd : 2 ≤ dim) {results : List F} (hr : results.length = cols.length * dim) {f : Nat} {o : Col} (ho : ops[f]? = some o) :
    ∃ vals y ps, rowValues true dim results = .ok vals ∧ seriesValues na smp ops cols dim f vals = .ok y ∧ seriesPeriods smp = .ok ps ∧ y.length = ps.length ∧
      (∀ (j : Nat) c, cols[j]? = some c → Same c o → (∀ (j' : Nat) c', j < j' → cols[j']? = some c' → Same c' o → c'.per ≠ c.per) →
        ∃ i : Nat, ps[i]? = some c.per ∧ y[i]? = results[1 + j * dim]?) ∧
      (∀ (i : Nat) p, ps[i]? = some p → (∀ c ∈ cols, Same c o → c.per ≠ p) → y[i]? = some na) := by
  have h0 : cols ≠ [] := by rintro rfl; cases hp
  obtain ⟨smp', ops', e1, hf, _, _, e2, e3, e4, e5⟩ := C90_sample h h0
  rw [hp] at e1
  cases e1
  obtain ⟨vals, v1, v2, v3⟩ := rowValues_spec hd hr
  obtain ⟨ps, p1, p2, p3⟩ := seriesPeriods_spec hf
  have hpos : ∀ c ∈ cols, ∃ t : Nat, c.per.difference smp.start = .ok (t : Int) ∧ smp.position c.per = .ok (t : Int) ∧ t < smp.nb.toNat := by
    intro c hc
    obtain ⟨i, hi⟩ := e2 c hc
    have hi0 := hi
    unfold Sample.position at hi
    obtain ⟨t, b1, b2⟩ := bind_inv hi
    split at b2
    · cases b2
    · simp only [Res.ok.injEq] at b2
      refine ⟨t.toNat, ?_, ?_, by omega⟩
      · rw [b1]; congr 1; omega
      · rw [hi0]; congr 1; omega
  have hwf : ∀ c ∈ cols, c.per.WF := fun c hc => ⟨nb, by rw [(h.wf c hc).1]; exact h.per, (h.wf c hc).2.1, (h.wf c hc).2.2⟩
  obtain ⟨y, y1, y2, y3⟩ := loop_spec (start := smp.start) (ops := ops) (f := f) (cols := resize dim cols) (step := dim) (vals := vals) cols (resize dim cols).length 1 0
    (List.replicate smp.nb.toNat na) (by rw [resize_length]; exact Nat.le_mul_of_pos_right _ (by omega)) (fun i => resize_get dim cols 1 i (by omega))
    (fun i hi => ⟨vals[0 + i]'(by omega), List.getElem?_eq_getElem (by omega)⟩)
    (fun c hc => by obtain ⟨t, a, _, b⟩ := hpos c hc; exact ⟨t, a, by simpa using b⟩)
  have hop : ∀ c, findFileOp ops c = some f ↔ Same c o := fun c => findFileOp_some e3 c f o ho
  have hinj : ∀ c ∈ cols, ∀ t : Nat, c.per.difference smp.start = .ok (t : Int) → ps[t]? = some c.per := by
    intro c hc t ht
    obtain ⟨t', a1, a2, _⟩ := hpos c hc
    rw [ht] at a1
    cases a1
    exact (p3 t c.per).mpr ⟨a2, hwf c hc⟩
  refine ⟨vals, y, ps, v1, y1, p1, by rw [y2, p2, List.length_replicate], fun j c hj hs hl => ?_, fun i p hi hno => ?_⟩
  · have hc := List.mem_of_getElem? hj
    obtain ⟨t, a1, a2, a3⟩ := hpos c hc
    refine ⟨t, hinj c hc t a1, ?_⟩
    rw [(y3 t).1 j c hj ((hop c).mpr hs) a1 ?_, Nat.zero_add, v3 j (by
      have := (List.getElem?_eq_some_iff.mp hj).1; omega)]
    intro j' c' hj' hc' ho' he
    have h1 := hinj c' (List.mem_of_getElem? hc') t he
    rw [hinj c hc t a1] at h1
    exact hl j' c' hj' hc' ((hop c').mp ho') (Option.some.inj h1).symm
  · have hlt : i < smp.nb.toNat := by rw [← p2]; exact (List.getElem?_eq_some_iff.mp hi).1
    rw [(y3 i).2 fun c hc ho' he => ?_, List.getElem?_replicate, if_pos hlt]
    have h1 := hinj c hc i he
    rw [hi] at h1
    exact hno c hc ((hop c).mp ho') (Option.some.inj h1).symm

/-! ## The rows -/

theorem rowsLoop_spec (na : F) (smp : Sample) (ops cols : List Col) (dim f : Nat) (suffix : List Char) : ∀ (rows : List (List Char × List F)) (m : SMap (List F)),
    (rows.map Prod.fst).Nodup → (∀ r ∈ rows, ∃ y, seriesValues na smp ops cols dim f r.2 = .ok y) →
    ∃ m', rowsLoop na smp ops cols dim f suffix rows m = .ok m' ∧
      (∀ r ∈ rows, ∃ y, seriesValues na smp ops cols dim f r.2 = .ok y ∧ m'.find (r.1 ++ suffix) = some y) ∧
      ∀ k, (∀ r ∈ rows, k ≠ r.1 ++ suffix) → m'.find k = m.find k
  | [], m, _, _ => ⟨m, rfl, by simp, fun k _ => rfl⟩
  | (n, v) :: rows, m, hn, hy => by
    rw [List.map_cons] at hn
    obtain ⟨h1, h2⟩ := List.nodup_cons.mp hn
    obtain ⟨y, hy0⟩ := hy (n, v) (by simp)
    obtain ⟨m', g1, g2, g3⟩ := rowsLoop_spec na smp ops cols dim f suffix rows (m.insert (n ++ suffix) y) h2 fun r hr => hy r (by simp [hr])
    refine ⟨m', by unfold rowsLoop; rw [hy0]; exact g1, fun r hr => ?_, fun k hk => ?_⟩
    · rcases List.mem_cons.mp hr with rfl | hr
      · refine ⟨y, hy0, ?_⟩
        rw [g3 _ fun r hr he => ?_, SMap.find_insert_self]
        have := List.append_cancel_right he
        exact h1 (List.mem_map.mpr ⟨r, hr, this.symm⟩)
      · exact g2 r hr
    · rw [g3 k fun r hr => hk r (by simp [hr]), SMap.find_insert_ne _ _ (hk (n, v) (by simp))]

/-- C90. When the lines have different names there is one series for each of them, under its name with the operation on files, and no other one. -/
theorem C90_names (na : F) {smp : Sample} {ops cols : List Col} {dim : Nat} {f : Int} (h0 : 0 ≤ f) (h1 : f < ops.length) (suffix : List Char)
    {rows : List (List Char × List F)} (hn : (rows.map Prod.fst).Nodup) (hy : ∀ r ∈ rows, ∃ y, seriesValues na smp ops cols dim f.toNat r.2 = .ok y) :
    ∃ m, series na smp ops cols dim f suffix rows = .ok m ∧
      (∀ r ∈ rows, ∃ y, seriesValues na smp ops cols dim f.toNat r.2 = .ok y ∧ m.find (r.1 ++ suffix) = some y) ∧
      ∀ k, (∀ r ∈ rows, k ≠ r.1 ++ suffix) → m.find k = none := by
  obtain ⟨m, g1, g2, g3⟩ := rowsLoop_spec na smp ops cols dim f.toNat suffix rows [] hn hy
  refine ⟨m, ?_, g2, fun k hk => g3 k hk⟩
  unfold series
  rw [if_neg (by omega)]
  exact g1

/-- Operations on files that the table does not have are refused. -/
theorem C90_range_refused (na : F) (smp : Sample) (ops cols : List Col) (dim : Nat) {f : Int} (h : f < 0 ∨ (ops.length : Int) ≤ f) (suffix : List Char)
    (rows : List (List Char × List F)) : series na smp ops cols dim f suffix rows = .err := by
  unfold series
  rw [if_pos (by omega)]

/-! ## Examples, and what is not as one expects -/

/-- Years 2000, 2001 and 2003 of file 1, and 2001 of file 2. -/
def one (y : Int) : Col := ⟨⟨y, 1, 'Y'⟩, none, 1, none⟩
def two (y : Int) : Col := ⟨⟨y, 1, 'Y'⟩, none, 2, none⟩
def sheet : List Col := [one 2003, one 2000, two 2001, one 2001]

theorem sheet_alike : Alike sheet 1 'Y' := ⟨rfl, by decide, by decide⟩

theorem sheet_prepared : prepare sheet = .ok (⟨⟨2000, 1, 'Y'⟩, ⟨2003, 1, 'Y'⟩, 4⟩, [one 2003, two 2001]) := by decide +kernel

/-- The hypotheses of the theorems hold, and what they say there. -/
example : ∃ vals y ps, rowValues true 2 [0, 30, 0, 10, 0, 21, 0, 20] = .ok vals ∧ seriesValues (-1) ⟨⟨2000, 1, 'Y'⟩, ⟨2003, 1, 'Y'⟩, 4⟩ [one 2003, two 2001] sheet 2 0 vals = .ok y ∧
    seriesPeriods ⟨⟨2000, 1, 'Y'⟩, ⟨2003, 1, 'Y'⟩, 4⟩ = .ok ps ∧ ∃ i : Nat, ps[i]? = some ⟨2001, 1, 'Y'⟩ ∧ y[i]? = some (20 : Int) := by
  obtain ⟨vals, y, ps, h1, h2, h3, _, h5, _⟩ := C90_series_partial (-1 : Int) sheet_alike sheet_prepared (dim := 2) (by decide) (results := [0, 30, 0, 10, 0, 21, 0, 20]) rfl (f := 0) (o := one 2003) rfl
  refine ⟨vals, y, ps, h1, h2, h3, ?_⟩
  obtain ⟨i, i1, i2⟩ := h5 3 (one 2001) rfl ⟨rfl, rfl⟩ (fun j' c' hj hc => by
    have : sheet.length ≤ j' := hj
    rw [List.getElem?_eq_none this] at hc
    cases hc)
  exact ⟨i, i1, i2⟩

example : rowValues true 2 [0, 30, 0, 10, 0, 21, 0, 20] = .ok [30, 10, 21, 20] ∧
    seriesValues (-1) ⟨⟨2000, 1, 'Y'⟩, ⟨2003, 1, 'Y'⟩, 4⟩ [one 2003, two 2001] sheet 2 0 [30, 10, 21, 20] = .ok [10, 20, -1, (30 : Int)] ∧
    seriesValues (-1) ⟨⟨2000, 1, 'Y'⟩, ⟨2003, 1, 'Y'⟩, 4⟩ [one 2003, two 2001] sheet 2 1 [30, 10, 21, 20] = .ok [-1, 21, -1, (-1 : Int)] := by decide +kernel

/-- The generalized sample `2001;2001/2000`: both columns have the period 2001, and the value of 2001 is lost. -/
theorem C90_same_period_counterexample :
    prepare [one 2001, ⟨⟨2001, 1, 'Y'⟩, some (.grt, ⟨2000, 1, 'Y'⟩), 1, none⟩] = .ok (⟨⟨2001, 1, 'Y'⟩, ⟨2001, 1, 'Y'⟩, 1⟩, [one 2001]) ∧
    seriesValues (-1) ⟨⟨2001, 1, 'Y'⟩, ⟨2001, 1, 'Y'⟩, 1⟩ [one 2001] [one 2001, ⟨⟨2001, 1, 'Y'⟩, some (.grt, ⟨2000, 1, 'Y'⟩), 1, none⟩] 2 0 [120, 20] = .ok [(20 : Int)] := by
  decide +kernel

/-- Of two lines with the same name the second one counts. -/
theorem C90_same_name_counterexample : series (-1) ⟨⟨2001, 1, 'Y'⟩, ⟨2001, 1, 'Y'⟩, 1⟩ [one 2001] [one 2001] 2 0 [] [(['x'], [1]), (['x'], [2])] = .ok [(['x'], [(2 : Int)])] := by
  decide +kernel

/-- Without a line that has `#` in its second cell there are no columns, and no series can be got. -/
theorem C90_no_title_counterexample : rowValues false 2 [0, 1, 0, (2 : Int)] = .ok [] ∧
    series (-1) ⟨⟨2000, 1, 'Y'⟩, ⟨2001, 1, 'Y'⟩, 2⟩ [one 2000] [one 2000, one 2001] 2 0 [] [(['x'], ([] : List Int))] = .err := by decide +kernel

example : prepare [one 2000, ⟨⟨2000, 1, 'Q'⟩, none, 1, none⟩] = .err :=
  C90_mixed_refused (d := ⟨⟨2000, 1, 'Q'⟩, none, 1, none⟩) (by simp) (by
    intro x hx
    simp only [List.mem_cons, List.not_mem_nil, or_false] at hx
    rcases hx with rfl | rfl
    · exact ⟨1, rfl, by decide, by decide⟩
    · exact ⟨4, rfl, by decide, by decide⟩) (by decide)

example : ∃ m, series (-1) ⟨⟨2000, 1, 'Y'⟩, ⟨2003, 1, 'Y'⟩, 4⟩ [one 2003, two 2001] sheet 2 1 [' ', '[', '2', ']'] [(['x'], [30, 10, 21, 20]), (['y'], [3, 1, 22, 2])] = .ok m ∧
    m.find ['y', ' ', '[', '2', ']'] = some [-1, 22, -1, (-1 : Int)] := by
  refine ⟨[(['x', ' ', '[', '2', ']'], [-1, 21, -1, -1]), (['y', ' ', '[', '2', ']'], [-1, 22, -1, -1])], by decide +kernel, by decide +kernel⟩

end Iode.Graph
