import Verif.Lemmas.Season
import Verif.Spec.Season

/-!
# C81: seasonal adjustment
-/
set_option linter.unusedSectionVars false

namespace Iode.Season

variable {K : Type} [Field K] [LinearOrder K] [IsStrictOrderedRing K]

/-! ## Multiples -/

section
variable {k : K}

theorem times_cons (v : Option K) (l : List (Option K)) : times k (v :: l) = v.map (k * ·) :: times k l := rfl

theorem skip_times : ∀ x : List (Option K), skip (times k x) = skip x
  | [] => rfl
  | none :: l => congrArg (· + 1) (skip_times l)
  | some v :: l => rfl

theorem runLen_times : ∀ x : List (Option K), runLen (times k x) = runLen x
  | [] => rfl
  | none :: l => rfl
  | some v :: l => congrArg (· + 1) (runLen_times l)

theorem low_times (hk : 0 < k) : ∀ x : List (Option K), low (times k x) = k * low x
  | [] => (mul_zero k).symm
  | none :: l => (mul_zero k).symm
  | some v :: l => by
    show min (k * v) (low (times k l)) = k * min v (low l)
    rw [low_times hk l, mul_min_of_nonneg _ _ hk.le]

theorem raise_times (d : K) : ∀ x : List (Option K), raise (k * d) (times k x) = times k (raise d x)
  | [] => rfl
  | none :: l => rfl
  | some v :: l => by
    show some (k * v + k * d) :: raise (k * d) (times k l) = some (k * (v + d)) :: times k (raise d l)
    rw [raise_times d l, mul_add]

theorem times_append (a b : List (Option K)) : times k (a ++ b) = times k a ++ times k b := List.map_append
theorem times_drop (i : Nat) (x : List (Option K)) : times k (x.drop i) = (times k x).drop i := List.map_drop
theorem times_take (i : Nat) (x : List (Option K)) : times k (x.take i) = (times k x).take i := List.map_take
theorem times_none (i : Nat) : times k (List.replicate i (none : Option K)) = List.replicate i none := List.map_replicate

theorem val_times (x : List (Option K)) (i : Nat) : val (times k x) i = k * val x i := by
  unfold val times
  rw [List.getElem?_map]
  cases x[i]? with
  | none => exact (mul_zero k).symm
  | some o =>
    cases o with
    | none => exact (mul_zero k).symm
    | some v => rfl

theorem ti_times (hk : k ≠ 0) (n beg dim : Nat) (v : Nat → K) : ti n beg dim (fun i => k * v i) = ti n beg dim v := by
  funext f
  unfold ti
  refine tot_congr _ fun i _ => ?_
  rw [show 200 * (k * v (beg + 1 + i)) = k * (200 * v (beg + 1 + i)) by ring, ← mul_add, mul_div_mul_left _ _ hk]

theorem extr_times (n : Nat) (season : Nat → K) (d : K) : ∀ (x : List (Option K)) (i : Nat),
    extr n season (k * d) (times k x) i = times k (extr n season d x i)
  | [], _ => rfl
  | none :: l, _ => rfl
  | some v :: l, i => by
    show some (100 * (k * v) / season (i % n) - k * d) :: extr n season (k * d) (times k l) (i + 1) =
      some (k * (100 * v / season (i % n) - d)) :: times k (extr n season d l (i + 1))
    rw [extr_times n season d l]
    congr 2
    ring

theorem tab_times (v : Nat → K) (dim : Nat) : tab (fun f => k * v f) dim = times k (tab v dim) := by
  unfold tab times
  rw [List.map_map]
  rfl

theorem dsTest_times (hk : 0 < k) (n : Nat) (eps : K) (x : List (Option K)) :
    dsTest n eps (times k x) = ⟨times k (dsTest n eps x).vec, (dsTest n eps x).beg, (dsTest n eps x).dim, k * (dsTest n eps x).shift,
      (dsTest n eps x).seasonal⟩ := by
  unfold dsTest
  simp only [skip_times, ← times_drop, runLen_times, low_times hk]
  by_cases hl : low (x.drop (skip x)) < 0
  · have hl' : k * low (x.drop (skip x)) < 0 := mul_neg_of_pos_of_neg hk hl
    simp only [if_pos hl, if_pos hl']
    have hd : -(11 / 10 * (k * low (x.drop (skip x)))) = k * -(11 / 10 * low (x.drop (skip x))) := by ring
    rw [hd, raise_times, ← times_take, ← times_append, ← times_drop]
    conv_lhs => rw [← times_none (k := k), ← times_append]
    simp only [show ∀ y : List (Option K), val (times k y) = fun i => k * val y i from fun y => funext (val_times y), ti_times hk.ne']
  · have hl' : ¬ k * low (x.drop (skip x)) < 0 := by
      rw [not_lt] at hl ⊢
      exact mul_nonneg hk.le hl
    simp only [if_neg hl, if_neg hl', mul_zero]
    rw [← times_drop]
    conv_lhs => rw [← times_none (k := k), ← times_append]
    simp only [show ∀ y : List (Option K), val (times k y) = fun i => k * val y i from fun y => funext (val_times y), ti_times hk.ne']

/-- A series in other units is adjusted to the same series in those units; the irregular component stays. -/
theorem C81_units (root : K → K) (hk : 0 < k) (n : Nat) (eps : K) (x : List (Option K)) :
    adjust root n eps (times k x) =
      (adjust root n eps x).bind fun r => .ok ⟨times k r.vec, r.comps.map fun p => (times k p.1, p.2)⟩ := by
  unfold adjust
  simp only [dsTest_times hk]
  cases hs : (dsTest n eps x).seasonal with
  | false => rfl
  | true =>
    rw [if_neg (by simp), if_neg (by simp)]
    simp only [val_times]
    rw [dsVec_scale root hk.ne']
    cases dsVec root n ((dsTest n eps x).dim / n) (dsTest n eps x).shift (fun f => val (dsTest n eps x).vec ((dsTest n eps x).beg + f)) with
    | err => rfl
    | ub => rfl
    | ok a =>
      show Res.ok _ = Res.ok _
      congr 2
      · simp only [tab_times, times_append, times_take, ← times_drop, extr_times]
      · simp only [Option.map_some, tab_times, times_append, times_none]
        rw [show (times k x).length = x.length from List.length_map _]

end

/-! ## What the test leaves -/

theorem run_skip : ∀ {x : List (Option K)} {b e : Nat}, Run x b e → skip x = b
  | [], b, e, h => by
    obtain ⟨v, hv⟩ := h.inside b (by omega) h.lt
    simp at hv
  | none :: l, 0, e, h => by
    obtain ⟨v, hv⟩ := h.inside 0 (by omega) h.lt
    simp at hv
  | none :: l, b + 1, 0, h => by have := h.lt; omega
  | none :: l, b + 1, e + 1, h => by
    have : Run l b e := ⟨by have := h.lt; omega, fun i hi => by simpa using h.before (i + 1) (by omega),
      fun i h1 h2 => by simpa using h.inside (i + 1) (by omega) (by omega), fun v => by simpa using h.stop v⟩
    exact congrArg (· + 1) (run_skip this)
  | some v :: l, 0, e, h => rfl
  | some v :: l, b + 1, e, h => by
    have := h.before 0 (by omega)
    simp at this

theorem runLen_eq : ∀ {x : List (Option K)} {e : Nat}, (∀ i, i < e → ∃ v, x[i]? = some (some v)) → (∀ v, x[e]? ≠ some (some v)) →
    runLen x = e
  | [], 0, _, _ => rfl
  | [], e + 1, h, _ => by obtain ⟨v, hv⟩ := h 0 (by omega); simp at hv
  | none :: l, 0, _, _ => rfl
  | none :: l, e + 1, h, _ => by obtain ⟨v, hv⟩ := h 0 (by omega); simp at hv
  | some v :: l, 0, _, hs => by exact absurd rfl (hs v)
  | some v :: l, e + 1, h, hs => by
    have : runLen l = e := runLen_eq (fun i hi => by simpa using h (i + 1) (by omega)) (fun w => by simpa using hs w)
    exact congrArg (· + 1) this

theorem run_len {x : List (Option K)} {b e : Nat} (h : Run x b e) : runLen (x.drop b) = e - b := by
  refine runLen_eq (fun i hi => ?_) fun v => ?_
  · rw [List.getElem?_drop]
    exact h.inside (b + i) (by omega) (by omega)
  · rw [List.getElem?_drop, show b + (e - b) = e by have := h.lt; omega]
    exact h.stop v

theorem run_le {x : List (Option K)} {b e : Nat} (h : Run x b e) : e ≤ x.length := by
  have hlt := h.lt
  obtain ⟨v, hv⟩ := h.inside (e - 1) (by omega) (by omega)
  rcases Nat.lt_or_ge (e - 1) x.length with g | g
  · omega
  · rw [List.getElem?_eq_none g] at hv; cases hv

theorem raise_length (d : K) : ∀ x : List (Option K), (raise d x).length = x.length
  | [] => rfl
  | none :: l => rfl
  | some v :: l => congrArg (· + 1) (raise_length d l)

theorem raise_in (d : K) : ∀ (x : List (Option K)) (i : Nat), i < runLen x → (raise d x)[i]? = x[i]?.map (Option.map (· + d))
  | [], i, h => by simp [runLen] at h
  | none :: l, i, h => by simp [runLen] at h
  | some v :: l, 0, h => rfl
  | some v :: l, i + 1, h => by
    simp only [raise, List.getElem?_cons_succ]
    exact raise_in d l i (by simp only [runLen] at h; omega)

theorem raise_out (d : K) : ∀ (x : List (Option K)) (i : Nat), runLen x ≤ i → (raise d x)[i]? = x[i]?
  | [], i, h => rfl
  | none :: l, i, h => rfl
  | some v :: l, 0, h => by simp [runLen] at h
  | some v :: l, i + 1, h => by
    simp only [raise, List.getElem?_cons_succ]
    exact raise_out d l i (by simp only [runLen] at h; omega)

theorem low_nonneg : ∀ x : List (Option K), NonNeg x → low x = 0
  | [], _ => rfl
  | none :: l, _ => rfl
  | some v :: l, h => by
    show min v (low l) = 0
    rw [low_nonneg l fun i w hw => h (i + 1) w (by simpa using hw)]
    exact min_eq_right (h 0 v rfl)

theorem dsTest_facts {x : List (Option K)} {b e : Nat} (h : Run x b e) (n : Nat) (eps : K) :
    (dsTest n eps x).beg = years n b e ∧ (dsTest n eps x).beg + (dsTest n eps x).dim = e ∧ (dsTest n eps x).dim = (e - b) / n * n ∧
      (dsTest n eps x).vec.length = x.length ∧ (∀ i, i < years n b e → (dsTest n eps x).vec[i]? = some none) ∧
      (∀ i, e ≤ i → (dsTest n eps x).vec[i]? = x[i]?) ∧
      (NonNeg x → (dsTest n eps x).shift = 0 ∧ ∀ i, years n b e ≤ i → (dsTest n eps x).vec[i]? = x[i]?) := by
  have hlt := h.lt
  have hle := run_le h
  have hdm : (e - b) / n * n ≤ e - b := Nat.div_mul_le_self _ _
  have hbeg : b + (e - b) - (e - b) / n * n = years n b e := by unfold years; omega
  have hy : years n b e ≤ e := by unfold years; omega
  have hb : b ≤ years n b e := by unfold years; omega
  unfold dsTest
  simp only [run_skip h, run_len h]
  have key : ∀ (y : List (Option K)), y.length = x.length → (∀ i, e ≤ i → y[i]? = x[i]?) →
      (List.replicate (b + (e - b) - (e - b) / n * n) none ++ y.drop (b + (e - b) - (e - b) / n * n)).length = x.length ∧
      (∀ i, i < years n b e → (List.replicate (b + (e - b) - (e - b) / n * n) none ++ y.drop (b + (e - b) - (e - b) / n * n))[i]? =
        some none) ∧
      (∀ i, years n b e ≤ i → (List.replicate (b + (e - b) - (e - b) / n * n) none ++ y.drop (b + (e - b) - (e - b) / n * n))[i]? = y[i]?) := by
    intro y h1 h2
    rw [hbeg]
    refine ⟨?_, fun i hi => ?_, fun i hi => ?_⟩
    · rw [List.length_append, List.length_replicate, List.length_drop]; omega
    · rw [List.getElem?_append_left (by rw [List.length_replicate]; exact hi), List.getElem?_replicate, if_pos hi]
    · rw [List.getElem?_append_right (by rw [List.length_replicate]; exact hi), List.length_replicate, List.getElem?_drop]
      congr 1
      omega
  refine ⟨hbeg, by omega, trivial, ?_⟩
  by_cases hl : low (x.drop b) < 0
  · simp only [if_pos hl]
    have hxl : (x.take b ++ raise (-(11 / 10 * low (x.drop b))) (x.drop b)).length = x.length := by
      rw [List.length_append, raise_length, List.length_take, List.length_drop]; omega
    have hxr : ∀ i, e ≤ i → (x.take b ++ raise (-(11 / 10 * low (x.drop b))) (x.drop b))[i]? = x[i]? := by
      intro i hi
      rw [List.getElem?_append_right (by rw [List.length_take]; omega), List.length_take, Nat.min_eq_left (by omega),
        raise_out _ _ _ (by rw [run_len h]; omega), List.getElem?_drop]
      congr 1
      omega
    obtain ⟨k1, k2, k3⟩ := key _ hxl hxr
    refine ⟨k1, k2, fun i hi => by rw [k3 i (by omega)]; exact hxr i hi, fun hnn => ?_⟩
    rw [low_nonneg (x.drop b) fun i v hv => hnn (b + i) v (by rw [← List.getElem?_drop]; exact hv)] at hl
    exact absurd hl (lt_irrefl _)
  · simp only [if_neg hl]
    obtain ⟨k1, k2, k3⟩ := key x rfl fun _ _ => rfl
    exact ⟨k1, k2, fun i hi => k3 i (by omega), fun _ => ⟨trivial, k3⟩⟩

theorem extr_id (n : Nat) (season : Nat → K) (d : K) (l : List (Option K)) (i : Nat) (h : ∀ v, l[0]? ≠ some (some v)) :
    extr n season d l i = l := by
  match l, h with
  | [], _ => rfl
  | none :: l, _ => rfl
  | some v :: l, h => exact absurd rfl (h v)

theorem tab_get (v : Nat → K) {dim i : Nat} (h : i < dim) : (tab v dim)[i]? = some (some (v i)) := by
  unfold tab
  rw [List.getElem?_map, List.getElem?_range h]
  rfl

theorem tab_length (v : Nat → K) (dim : Nat) : (tab v dim).length = dim := by
  unfold tab; rw [List.length_map, List.length_range]

/-- The result of an adjustment, position by position. -/
theorem adjust_facts {root : K → K} {n : Nat} {eps : K} {x : List (Option K)} {b e : Nat} (h : Run x b e) {r : Stored K}
    (hr : adjust root n eps x = .ok r) :
    r.vec.length = x.length ∧ (∀ i, i < years n b e → r.vec[i]? = some none) ∧ (∀ i, e ≤ i → r.vec[i]? = x[i]?) ∧
      ((dsTest n eps x).seasonal = false ∧ r = ⟨(dsTest n eps x).vec, none⟩ ∨
        ∃ a c i, (dsTest n eps x).seasonal = true ∧ r.comps = some (c, i) ∧
          dsVec root n ((dsTest n eps x).dim / n) (dsTest n eps x).shift (fun f => val (dsTest n eps x).vec ((dsTest n eps x).beg + f)) =
            .ok a ∧
          (c.length = x.length ∧ i.length = x.length) ∧ (∀ q, (q < years n b e ∨ (e ≤ q ∧ q < x.length)) → c[q]? = some none ∧ i[q]? = some none) ∧
          ∀ f, years n b e + f < e → r.vec[years n b e + f]? = some (some (a.vec f)) ∧ c[years n b e + f]? = some (some (a.c f)) ∧
            i[years n b e + f]? = some (some (a.i f))) := by
  obtain ⟨t1, t2, _, t3, t4, t5, _⟩ := dsTest_facts h n eps
  have hle := run_le h
  unfold adjust at hr
  cases hs : (dsTest n eps x).seasonal with
  | false =>
    simp only [hs, if_true] at hr
    cases hr
    exact ⟨t3, t4, t5, .inl ⟨rfl, rfl⟩⟩
  | true =>
    simp only [hs] at hr
    rw [if_neg (by simp)] at hr
    cases hd : dsVec root n ((dsTest n eps x).dim / n) (dsTest n eps x).shift (fun f => val (dsTest n eps x).vec ((dsTest n eps x).beg + f)) with
    | err => rw [hd] at hr; cases hr
    | ub => rw [hd] at hr; cases hr
    | ok a =>
      rw [hd] at hr
      have hex : ∀ season d, extr n season d ((dsTest n eps x).vec.drop e) 0 = (dsTest n eps x).vec.drop e := fun season d =>
        extr_id n season d _ 0 fun v => by rw [List.getElem?_drop, Nat.add_zero, t5 e (by omega)]; exact h.stop v
      simp only [Res.bind, Res.ok.injEq] at hr
      rw [t2, hex] at hr
      rw [t1] at hr t2
      subst hr
      have hl1 : ((dsTest n eps x).vec.take (years n b e)).length = years n b e := by
        rw [List.length_take]; omega
      have hl2 : ((dsTest n eps x).vec.take (years n b e) ++ tab a.vec (dsTest n eps x).dim).length = e := by
        rw [List.length_append, hl1, tab_length, t2]
      refine ⟨?_, fun i hi => ?_, fun i hi => ?_, .inr ⟨a, _, _, rfl, rfl, rfl, ?_, fun q hq => ?_, fun f hf => ?_⟩⟩
      · show ((dsTest n eps x).vec.take (years n b e) ++ tab a.vec (dsTest n eps x).dim ++ (dsTest n eps x).vec.drop e).length = _
        rw [List.length_append, hl2, List.length_drop]; omega
      · show ((dsTest n eps x).vec.take (years n b e) ++ tab a.vec (dsTest n eps x).dim ++ (dsTest n eps x).vec.drop e)[i]? = _
        rw [List.getElem?_append_left (by omega), List.getElem?_append_left (by omega), List.getElem?_take_of_lt hi]
        exact t4 i hi
      · show ((dsTest n eps x).vec.take (years n b e) ++ tab a.vec (dsTest n eps x).dim ++ (dsTest n eps x).vec.drop e)[i]? = _
        rw [List.getElem?_append_right (by omega), hl2, List.getElem?_drop, show e + (i - e) = i by omega]
        exact t5 i hi
      · constructor <;> (simp only [List.length_append, List.length_replicate, tab_length]; omega)
      · have pad : ∀ v : Nat → K, (List.replicate (years n b e) none ++ tab v (dsTest n eps x).dim ++
            List.replicate (x.length - e) none)[q]? = some none := by
          intro v
          have hp : (List.replicate (years n b e) (none : Option K) ++ tab v (dsTest n eps x).dim).length = e := by
            rw [List.length_append, List.length_replicate, tab_length, t2]
          rcases hq with hq | ⟨hq, hq'⟩
          · rw [List.getElem?_append_left (by omega), List.getElem?_append_left (by rw [List.length_replicate]; exact hq),
              List.getElem?_replicate, if_pos hq]
          · rw [List.getElem?_append_right (by omega), hp, List.getElem?_replicate, if_pos (by omega)]
        exact ⟨pad _, pad _⟩
      · have pad : ∀ v : Nat → K, (List.replicate (years n b e) none ++ tab v (dsTest n eps x).dim ++
            List.replicate (x.length - e) none)[years n b e + f]? = some (some (v f)) := by
          intro v
          rw [List.getElem?_append_left (by rw [List.length_append, List.length_replicate, tab_length]; omega),
            List.getElem?_append_right (by rw [List.length_replicate]; omega), List.length_replicate, Nat.add_sub_cancel_left,
            tab_get v (by omega)]
        refine ⟨?_, pad _, pad _⟩
        show ((dsTest n eps x).vec.take (years n b e) ++ tab a.vec (dsTest n eps x).dim ++ (dsTest n eps x).vec.drop e)[years n b e + f]? = _
        rw [List.getElem?_append_left (by omega), List.getElem?_append_right (by omega), hl1, Nat.add_sub_cancel_left, tab_get _ (by omega)]

/-! ## The property -/

/-- Only the whole years at the end of the first run of numbers are adjusted: what comes before them is missing, what comes behind is as
it was. -/
theorem C81_outside {root : K → K} {n : Nat} {eps : K} {x : List (Option K)} {b e : Nat} (h : Run x b e) {r : Stored K}
    (hr : adjust root n eps x = .ok r) :
    r.vec.length = x.length ∧ (∀ i, i < years n b e → r.vec[i]? = some none) ∧ (∀ i, e ≤ i → r.vec[i]? = x[i]?) ∧
      ∀ c i, r.comps = some (c, i) → c.length = x.length ∧ i.length = x.length ∧
        ∀ q, (q < years n b e ∨ (e ≤ q ∧ q < x.length)) → c[q]? = some none ∧ i[q]? = some none := by
  obtain ⟨a1, a2, a3, a4⟩ := adjust_facts h hr
  refine ⟨a1, a2, a3, fun c i hc => ?_⟩
  rcases a4 with ⟨_, g⟩ | ⟨a, c', i', _, g2, _, g4, g5, _⟩
  · rw [g] at hc; cases hc
  · rw [g2] at hc
    cases hc
    exact ⟨g4.1, g4.2, g5⟩

/-- Three whole years are always adjusted or left; the components are there when the test found a season. -/
theorem C81_defined (root : K → K) {x : List (Option K)} {b e : Nat} (h : Run x b e) (n : Nat) (eps : K) (hN : 3 ≤ (e - b) / n) :
    ∃ r, adjust root n eps x = .ok r ∧ ((dsTest n eps x).seasonal = true → ∃ c i, r.comps = some (c, i)) := by
  obtain ⟨_, _, t, _⟩ := dsTest_facts h n eps
  have hn : 0 < n := by
    rcases Nat.eq_zero_or_pos n with rfl | g
    · rw [Nat.div_zero] at hN; omega
    · exact g
  have hN' : ¬ (dsTest n eps x).dim / n < 3 := by rw [t, Nat.mul_div_cancel _ hn]; omega
  unfold adjust
  cases hs : (dsTest n eps x).seasonal with
  | false => simp only [hs, if_true]; exact ⟨_, rfl, fun h => by cases h⟩
  | true =>
    unfold dsVec
    simp only [hs]
    rw [if_neg (by simp), if_neg hN']
    exact ⟨_, rfl, fun _ => ⟨_, _, rfl⟩⟩

/-- A series that is not seasonal stays as it is, from the whole years on, when it is nowhere negative. -/
theorem C81_unchanged_partial {root : K → K} {n : Nat} {eps : K} {x : List (Option K)} {b e : Nat} (h : Run x b e) (hx : NonNeg x)
    {r : Stored K} (hr : adjust root n eps x = .ok r) (hc : r.comps = none) : ∀ i, years n b e ≤ i → r.vec[i]? = x[i]? := by
  obtain ⟨_, _, _, a4⟩ := adjust_facts h hr
  rcases a4 with ⟨_, g⟩ | ⟨a, c', i', _, g2, _⟩
  · rw [g]
    exact ((dsTest_facts h n eps).2.2.2.2.2.2 hx).2
  · rw [g2] at hc; cases hc

/-- The component and the irregular component multiply to the adjusted series. -/
theorem C81_product {root : K → K} {n : Nat} {eps : K} {x : List (Option K)} {b e : Nat} (h : Run x b e) (hx : NonNeg x)
    {r : Stored K} (hr : adjust root n eps x = .ok r) {c i : List (Option K)} (hc : r.comps = some (c, i)) {q : Nat} (h1 : years n b e ≤ q)
    (h2 : q < e) : ∃ v w u, r.vec[q]? = some (some v) ∧ c[q]? = some (some w) ∧ i[q]? = some (some u) ∧ (w ≠ 0 → w * u = 100 * v) := by
  obtain ⟨_, _, _, a4⟩ := adjust_facts h hr
  rcases a4 with ⟨_, g⟩ | ⟨a, c', i', _, g2, g3, _, _, g6⟩
  · rw [g] at hc; cases hc
  · rw [g2] at hc
    cases hc
    obtain ⟨k1, k2, k3⟩ := g6 (q - years n b e) (by omega)
    rw [show years n b e + (q - years n b e) = q by omega] at k1 k2 k3
    refine ⟨_, _, _, k1, k2, k3, fun hw => ?_⟩
    rw [((dsTest_facts h n eps).2.2.2.2.2.2 hx).1] at g3
    unfold dsVec at g3
    by_cases hN : (dsTest n eps x).dim / n < 3
    · rw [if_pos hN] at g3; cases g3
    · rw [if_neg hN] at g3
      simp only [Res.ok.injEq] at g3
      subst g3
      simp only [sub_zero] at hw ⊢
      unfold irreg
      exact mul_div_cancel₀ _ hw

/-! ## A pure season -/

theorem pure_run {n N : Nat} (hn : 0 < n) (hN : 0 < N) (c : K) (σ : Nat → K) : Run (pure n N c σ) 0 (n * N) := by
  refine ⟨Nat.mul_pos hn hN, fun i hi => by omega, fun i _ hi => ⟨_, tab_get _ hi⟩, fun v => ?_⟩
  rw [List.getElem?_eq_none (l := pure n N c σ) (Nat.le_of_eq (tab_length (fun f => c * σ (f % n)) _))]
  simp

/-- Whole years that differ from a level by factors with the mean one are adjusted to that level; the component is the level and the
irregular one is 100. When the test finds no season they stay. -/
theorem C81_season {root : K → K} (hroot : root 0 = 0) {n h N : Nat} (hn : n = 2 * h) (hh : 0 < h) (hN : 3 ≤ N) (eps : K) {c : K} (hc : 0 < c)
    {σ : Nat → K} (hσ : ∀ m, m < n → 0 < σ m) (hs : tot n σ = (n : K)) :
    ((dsTest n eps (pure n N c σ)).seasonal = true →
      adjust root n eps (pure n N c σ) =
        .ok ⟨List.replicate (n * N) (some c), some (List.replicate (n * N) (some c), List.replicate (n * N) (some 100))⟩) ∧
    ((dsTest n eps (pure n N c σ)).seasonal = false → adjust root n eps (pure n N c σ) = .ok ⟨pure n N c σ, none⟩) := by
  have hrun := pure_run (n := n) (N := N) (by omega) (by omega) c σ
  have hget : ∀ i, i < n * N → (pure n N c σ)[i]? = some (some (c * σ (i % n))) := fun i hi =>
    tab_get (fun f => c * σ (f % n)) hi
  have hlen : (pure n N c σ).length = n * N := tab_length (fun f => c * σ (f % n)) _
  have hnn : NonNeg (pure n N c σ) := by
    intro i v hv
    rcases Nat.lt_or_ge i (n * N) with g | g
    · rw [hget i g] at hv
      cases hv
      exact (mul_pos hc (hσ _ (Nat.mod_lt _ (by omega)))).le
    · rw [List.getElem?_eq_none (by omega)] at hv; cases hv
  obtain ⟨t1, t2, t2', t3, t4, t5, t6⟩ := dsTest_facts hrun n eps
  obtain ⟨t6, t7⟩ := t6 hnn
  have hy : years n 0 (n * N) = 0 := by
    unfold years
    rw [Nat.sub_zero, Nat.mul_div_cancel_left _ (by omega), Nat.mul_comm N n, Nat.sub_self]
  rw [hy] at t1 t7
  have hdim : (dsTest n eps (pure n N c σ)).dim = n * N := by omega
  have hvec : (dsTest n eps (pure n N c σ)).vec = pure n N c σ := by
    apply List.ext_getElem?
    intro i
    exact t7 i (by omega)
  constructor
  · intro hseas
    have hN' : (dsTest n eps (pure n N c σ)).dim / n = N := by rw [hdim, Nat.mul_div_cancel_left _ (by omega)]
    obtain ⟨a, e1, e2, _⟩ := dsVec_season (v := fun f => val (dsTest n eps (pure n N c σ)).vec ((dsTest n eps (pure n N c σ)).beg + f))
      hroot hn hh hN hs (fun m hm => (hσ m hm).ne') (fun f hf => by
        rw [hvec, t1, Nat.zero_add]; unfold val; rw [hget f hf]; rfl) hc.ne' (dsTest n eps (pure n N c σ)).shift
    have htab : ∀ (v : Nat → K) (a : K), (∀ f, f < n * N → v f = a) → tab v (n * N) = List.replicate (n * N) (some a) := by
      intro v a hv
      rw [List.eq_replicate_iff]
      refine ⟨tab_length _ _, fun o ho => ?_⟩
      unfold tab at ho
      rw [List.mem_map] at ho
      obtain ⟨f, hf, rfl⟩ := ho
      rw [hv f (List.mem_range.mp hf)]
    rw [t6] at e1 e2
    unfold adjust
    simp only [hseas]
    rw [if_neg (by simp), hN', t6, e1]
    show Res.ok _ = Res.ok _
    rw [hdim, t1, htab a.vec c (fun f hf => by rw [(e2 f hf).1, sub_zero]), htab a.c c (fun f hf => by rw [(e2 f hf).2.1, sub_zero]),
      htab a.i 100 (fun f hf => (e2 f hf).2.2), Nat.zero_add, hlen, Nat.sub_self, hvec, List.drop_eq_nil_of_le (by omega)]
    simp [extr]
  · intro hseas
    unfold adjust
    simp only [hseas, if_true]
    rw [hvec]

/-! ## Where it falls short -/

/-- A series of months that is not seasonal but negative is stored with the shift of the test. -/
theorem C81_negative_counterexample (root : Rat → Rat) :
    adjust root 12 5 (List.replicate 36 (some (-1))) = .ok ⟨List.replicate 36 (some (1 / 10)), none⟩ := by
  have h : (dsTest 12 (5 : Rat) (List.replicate 36 (some (-1)))).seasonal = false := by decide +kernel
  unfold adjust
  simp only [h, if_true]
  rw [show (dsTest 12 (5 : Rat) (List.replicate 36 (some (-1)))).vec = List.replicate 36 (some (1 / 10)) by decide +kernel]

/-- A run of numbers shorter than a year is lost. -/
theorem C81_short_counterexample (root : Rat → Rat) :
    adjust root 12 5 (List.replicate 6 none ++ List.replicate 6 (some 1)) = .ok ⟨List.replicate 12 none, none⟩ := by
  have h : (dsTest 12 (5 : Rat) (List.replicate 6 none ++ List.replicate 6 (some 1))).seasonal = false := by decide +kernel
  unfold adjust
  simp only [h, if_true]
  rw [show (dsTest 12 (5 : Rat) (List.replicate 6 none ++ List.replicate 6 (some 1))).vec = List.replicate 12 none by decide +kernel]

/-- Constant quarters count as seasonal: the last quarter of a year is divided by the number of years although the last year has none. -/
theorem C81_constant_counterexample :
    (dsTest 4 (5 : Rat) (List.replicate 16 (some 1))).seasonal = true ∧ (dsTest 12 (5 : Rat) (List.replicate 48 (some 1))).seasonal = false := by
  constructor <;> decide +kernel

/-- Two years that are seasonal read outside of the vectors. -/
theorem C81_two_years_undefined (root : Rat → Rat) :
    adjust root 4 5 [some 1, some 2, some 1, some 2, some 1, some 2, some 1, some 2] = .ub := by
  have h : (dsTest 4 (5 : Rat) [some 1, some 2, some 1, some 2, some 1, some 2, some 1, some 2]).seasonal = true := by decide +kernel
  have h' : (dsTest 4 (5 : Rat) [some 1, some 2, some 1, some 2, some 1, some 2, some 1, some 2]).dim = 8 := by decide +kernel
  unfold adjust
  simp only [h, h']
  rfl

/-- The mean that replaces the first ratio of a column takes in a ratio that was not computed. -/
theorem C81_outlier_counterexample (n N : Nat) (v : Nat → K) (m : Nat) (hm : m < n / 2) (hN : 3 ≤ N) :
    around N (col n (ratio n N v) m) 1 = 1 / 3 * (0 + ratio n N v (n + m) + ratio n N v (2 * n + m)) := by
  unfold around col
  rw [if_neg (by omega), if_neg (by omega)]
  simp only [Nat.mul_zero, Nat.zero_add, Nat.sub_self, Nat.mul_one, show n * (1 + 1) = 2 * n by ring]
  rw [show ratio n N v m = 0 by unfold ratio; rw [if_neg (by omega)]]

/-! ## Examples -/

/-- The factors of four quarters. -/
def exS (m : Nat) : Rat := ([1 / 2, 1, 3 / 2, 1] : List Rat).getD m 0

example : (dsTest 4 5 (pure 4 5 10 exS)).seasonal = true ∧ tot 4 exS = 4 ∧ ∀ m, m < 4 → 0 < exS m := by decide +kernel

example : adjust (fun x => x) 4 5 (pure 4 5 10 exS) =
    .ok ⟨List.replicate 20 (some 10), some (List.replicate 20 (some 10), List.replicate 20 (some 100))⟩ :=
  (C81_season (h := 2) rfl rfl (by omega) (by omega) 5 (by norm_num) (by decide +kernel) (by decide +kernel)).1 (by decide +kernel)

/-- Two missing quarters, a quarter too many, three years, a gap and two more quarters. -/
def exX : List (Option Rat) :=
  [none, none, some 7, some 4, some 8, some 12, some 8, some 5, some 9, some 16, some 10, some 6, some 11, some 17, some 12, none, some 3, some 4]

theorem exX_run : Run exX 2 15 := by
  refine ⟨by decide, by decide +kernel, fun i h1 h2 => ?_, fun v => by simp [exX]⟩
  have : i = 2 ∨ i = 3 ∨ i = 4 ∨ i = 5 ∨ i = 6 ∨ i = 7 ∨ i = 8 ∨ i = 9 ∨ i = 10 ∨ i = 11 ∨ i = 12 ∨ i = 13 ∨ i = 14 := by omega
  rcases this with rfl | rfl | rfl | rfl | rfl | rfl | rfl | rfl | rfl | rfl | rfl | rfl | rfl <;> exact ⟨_, rfl⟩

theorem exX_nonneg : NonNeg exX := by
  intro i v h
  have hm := List.mem_of_getElem? h
  simp only [exX, List.mem_cons, Option.some.injEq, reduceCtorEq, false_or, List.not_mem_nil, or_false] at hm
  rcases hm with h | h | h | h | h | h | h | h | h | h | h | h | h | h | h <;> subst h <;> norm_num

/-- The quarter too many is lost, what follows the gap is not adjusted. -/
example (root : Rat → Rat) : ∃ r, adjust root 4 5 exX = .ok r ∧ r.vec.length = 18 ∧ (∀ i, i < 3 → r.vec[i]? = some none) ∧
    r.vec[16]? = some (some 3) ∧ r.vec[17]? = some (some 4) ∧
    ∃ c i v w u, r.comps = some (c, i) ∧ r.vec[5]? = some (some v) ∧ c[5]? = some (some w) ∧ i[5]? = some (some u) ∧ (w ≠ 0 → w * u = 100 * v) := by
  obtain ⟨r, hr, hs⟩ := C81_defined root exX_run 4 5 (by decide)
  obtain ⟨h1, h2, h3, _⟩ := C81_outside exX_run hr
  obtain ⟨c, i, hc⟩ := hs (by decide +kernel)
  obtain ⟨v, w, u, k1, k2, k3, k4⟩ := C81_product exX_run exX_nonneg hr hc (q := 5) (by decide) (by decide)
  exact ⟨r, hr, h1, h2, h3 16 (by decide), h3 17 (by decide), c, i, v, w, u, hc, k1, k2, k3, k4⟩

end Iode.Season
