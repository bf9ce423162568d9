import Verif.Lemmas.LecNa

/-!
# C26: missing values propagate

`reads` (the values a formula reads) does not depend on how formulas are executed.  Proved for every formula
made of numbers, variables with any lag or date, coefficients, operators, signs and ordinary functions:
if one value read is NA then the result is NA, and if the result is NA then either a value read is NA or
an operator or function was applied to numbers outside of its domain.

The functions `if`, `isan`, `lmean`, `lstderr` and `lcount` accept NA on purpose; `lastobs` skips NA.
They are outside of `Basic`.
-/
namespace Iode.Lec

variable {F : Type}

theorem Basic.na {A : Arith F} {E : Env F} (hna : A.isNum A.na = false) {e : Expr} (hb : Basic e) {t : Int} :
    ∀ {v w : F}, eval A E e t = some v → w ∈ reads A E e t → A.isNum w = false → A.isNum v = false := by
  induction hb with
  | cst k => intro v w _ h; simp [reads] at h
  | val k => intro v w _ h; simp [reads] at h
  | var x l p =>
    intro v w hv hw hn
    cases p <;> (rw [eval] at hv; rw [reads] at hw; cases hv; rw [← List.mem_singleton.1 hw]; exact hn)
  | coef x =>
    intro v w hv hw hn
    rw [eval] at hv; rw [reads] at hw
    rw [← List.mem_singleton.1 hw] at hv
    rw [hn] at hv
    cases hv
    exact hna
  | par _ ih =>
    intro v w hv hw hn
    rw [eval] at hv; rw [reads] at hw
    exact ih hv hw hn
  | bin o _ _ iha ihb =>
    intro v w hv hw hn
    rw [eval] at hv
    rw [reads, List.mem_append] at hw
    split at hv
    · rename_i x y hx hy
      simp only [Option.some.injEq] at hv
      rcases hw with hw | hw
      · rw [iha hx hw hn] at hv
        simp at hv
        rw [← hv]; exact hna
      · rw [ihb hy hw hn] at hv
        simp at hv
        rw [← hv]; exact hna
    · cases hv
  | @fn f args hf _ ih =>
    intro v w hv hw hn
    rw [eval, evalFs_eq, List.map_map, Option.bind_eq_some_iff] at hv
    obtain ⟨vs, hvs, hv⟩ := hv
    have hvs' : allSome (args.map (fun e => eval A E e t)) = some vs := hvs
    rw [reads, readsL_mem] at hw
    obtain ⟨a, ha, hwa⟩ := hw
    obtain ⟨x, hx, hxv⟩ := allSome_get (f := fun e => eval A E e t) hvs' ha
    have hxn := ih a ha hx hwa hn
    unfold fnVal at hv
    rw [if_neg (by rintro rfl; cases hf), hf] at hv
    rw [if_neg] at hv
    · simp only [Option.some.injEq] at hv; rw [← hv]; exact hna
    · simp only [Bool.false_or]
      intro hall
      have := (all_eq_allNum A vs).1 hall x hxv
      rw [hxn] at this
      cases this

/-- One missing value read makes the result of the formula missing. -/
theorem C26_missing_value_propagates (A : Arith F) (E : Env F) (hna : A.isNum A.na = false) (hc : Casts A)
    {rts : List RTok} {e : Expr} {t : Int} (hr : Reads (group rts) e) (hb : Basic e)
    {w : F} (hw : w ∈ reads A E e t) (hn : A.isNum w = false) :
    ∃ v, evalText A E [] rts t = .ok v ∧ A.isNum v = false := by
  obtain ⟨v, hv⟩ := hb.defined E hc (G.wf hr e (by simp)) t
  exact ⟨v, C24_basic_value A E hna hr hb hv, hb.na hna hv hw hn⟩

/-- A variable dated outside of the sample is missing. -/
theorem C26_outside_sample (A : Arith F) (E : Env F) (x : Name) (l : Int) (t : Int)
    (h : t + l < 0 ∨ E.nb ≤ t + l) : reads A E (.var x l none) t = [A.na] := by
  rw [reads, Env.at, if_neg (by omega)]

/-- An operator or an ordinary function, somewhere in the formula, applied to numbers gives no number. -/
inductive Fault (A : Arith F) (E : Env F) (t : Int) : Expr → Prop where
  | par {e} : Fault A E t e → Fault A E t (.par e)
  | left {o a b} : Fault A E t a → Fault A E t (.bin o a b)
  | right {o a b} : Fault A E t b → Fault A E t (.bin o a b)
  | arg {f args a} : a ∈ args → Fault A E t a → Fault A E t (.app f args)
  | op {o a b x y} : eval A E a t = some x → eval A E b t = some y → A.isNum x = true → A.isNum y = true →
      A.isNum (A.bin o x y) = false → Fault A E t (.bin o a b)
  | fn {f args vs v} : allSome (args.map fun e => eval A E e t) = some vs → AllNum A vs →
      A.fnRev f vs.reverse = .ok v → A.isNum v = false → Fault A E t (.app (.fn f) args)
  | cst {k v} : eval A E (.cst k) t = some v → A.isNum v = false → Fault A E t (.cst k)
  | val {k v} : eval A E (.val k) t = some v → A.isNum v = false → Fault A E t (.val k)

theorem Basic.cause {A : Arith F} {E : Env F} {e : Expr} (hb : Basic e) {t : Int} :
    ∀ {v : F}, eval A E e t = some v → A.isNum v = false →
      (∃ w ∈ reads A E e t, A.isNum w = false) ∨ Fault A E t e := by
  induction hb with
  | cst k => intro v hv hn; exact .inr (.cst hv hn)
  | val k => intro v hv hn; exact .inr (.val hv hn)
  | var x l p =>
    intro v hv hn
    cases p <;> (rw [eval] at hv; cases hv; exact .inl ⟨_, by rw [reads]; simp, hn⟩)
  | coef x =>
    intro v hv hn
    rw [eval] at hv
    refine .inl ⟨E.coef x, by rw [reads]; simp, ?_⟩
    cases h : A.isNum (E.coef x) with
    | false => rfl
    | true => rw [h] at hv; cases hv; rw [if_pos (by rfl)] at hn; rw [h] at hn; cases hn
  | par _ ih =>
    intro v hv hn
    rw [eval] at hv
    rcases ih hv hn with h | h
    · exact .inl (by rw [reads]; exact h)
    · exact .inr (.par h)
  | @bin o a b _ _ iha ihb =>
    intro v hv hn
    rw [eval] at hv
    split at hv
    · rename_i x y hx hy
      simp only [Option.some.injEq] at hv
      rw [reads]
      cases h1 : A.isNum x with
      | false =>
        rcases iha hx h1 with ⟨w, hw, hwn⟩ | h
        · exact .inl ⟨w, by simp [hw], hwn⟩
        · exact .inr (.left h)
      | true =>
        cases h2 : A.isNum y with
        | false =>
          rcases ihb hy h2 with ⟨w, hw, hwn⟩ | h
          · exact .inl ⟨w, by simp [hw], hwn⟩
          · exact .inr (.right h)
        | true =>
          rw [h1, h2] at hv
          simp at hv
          exact .inr (.op hx hy h1 h2 (by rw [hv]; exact hn))
    · cases hv
  | @fn f args hf _ ih =>
    intro v hv hn
    rw [eval, evalFs_eq, List.map_map, Option.bind_eq_some_iff] at hv
    obtain ⟨vs, hvs, hv⟩ := hv
    have hvs' : allSome (args.map (fun e => eval A E e t)) = some vs := hvs
    by_cases hall : AllNum A vs
    · unfold fnVal at hv
      rw [if_neg (by rintro rfl; cases hf), if_pos (by rw [(all_eq_allNum A vs).2 hall]; simp)] at hv
      cases hr : A.fnRev f vs.reverse with
      | ok u =>
        rw [hr] at hv
        cases hv
        exact .inr (.fn hvs' hall hr hn)
      | err => rw [hr] at hv; cases hv
      | ub => rw [hr] at hv; cases hv
    · have : ∃ x ∈ vs, A.isNum x = false := by
        refine Decidable.byContradiction fun h => hall fun x hx => ?_
        cases hxn : A.isNum x with
        | true => rfl
        | false => exact absurd ⟨x, hx, hxn⟩ h
      obtain ⟨x, hx, hxn⟩ := this
      obtain ⟨a, ha, hax⟩ := allSome_mem hvs' x hx
      rcases ih a ha hax hxn with ⟨w, hw, hwn⟩ | h
      · exact .inl ⟨w, by rw [reads, readsL_mem]; exact ⟨a, ha, hw⟩, hwn⟩
      · exact .inr (.arg ha h)

/-- A missing result has a cause: a missing value read, or an application outside of a domain. -/
theorem C26_missing_result_has_cause (A : Arith F) (E : Env F) (hna : A.isNum A.na = false) (hc : Casts A)
    {rts : List RTok} {e : Expr} {t : Int} (hr : Reads (group rts) e) (hb : Basic e)
    {v : F} (hv : evalText A E [] rts t = .ok v) (hn : A.isNum v = false) :
    (∃ w ∈ reads A E e t, A.isNum w = false) ∨ Fault A E t e := by
  obtain ⟨u, hu⟩ := hb.defined E hc (G.wf hr e (by simp)) t
  have := C24_basic_value A E hna hr hb hu
  rw [hv] at this
  cases this
  exact hb.cause hu hn

/-- Division: outside of the domain means by zero (or a quotient that is no number). -/
theorem C26_division_by_zero (A : Arith F) (x y : F) (hx : A.isNum x = true) (hy : A.isNum y = true)
    (hna : A.isNum A.na = false) : A.isNum (A.bin .divide x y) = false ↔
      A.eq y (A.ofInt 0) = true ∨ A.isNum (A.div x y) = false := by
  simp only [Arith.bin, Arith.divide, hx, hy]
  cases A.eq y (A.ofInt 0) <;> simp [hna]

/-! ## The whole-stack test

A function looks at the whole stack, so NA further left in the formula also makes an
ordinary function NA.  For formulas of `Basic` kind this cannot change the result, because the NA on the left
makes the formula NA anyway; it does inside the functions that accept NA (`C24_na_below_counterexample`). -/

/-- `isan(N)` is a number although a value read is missing: the functions that accept NA are really
excluded. -/
theorem C26_accepting_functions_counterexample :
    evalText exArith exEnv [] [.fun (.fn .fnisan), .openp, .var (nm 'N'), .closep] 3 = .ok (some 0) := by
  decide +kernel

/-! ## The hypotheses are met -/

example : exArithTotal.isNum exArithTotal.na = false := rfl

/-- `A * 2 + max(N, B)` -/
example : let rts : List RTok := [.var (nm 'A'), .op .times, .cst (.long 2), .op .plus, .fun (.fn .max), .openp,
      .var (nm 'N'), .comma, .var (nm 'B'), .closep]
    let e : Expr := .bin .plus (.bin .times (.var (nm 'A') 0 none) (.cst (.long 2)))
      (.app (.fn .max) [.par (.var (nm 'N') 0 none), .par (.var (nm 'B') 0 none)])
    Reads (group rts) e ∧ Basic e ∧ none ∈ reads exArithTotal exEnv e 3 ∧
      evalText exArithTotal exEnv [] rts 3 = .ok none := by
  refine ⟨?_, ?_, by decide +kernel, by decide +kernel⟩
  · have h1 := G.bin (ext := false) .times ((G.var (nm 'A')).down (m := 6) (by omega)) ((G.cst (.long 2)).down (m := 7) (by omega))
    have h2 := G.call (ext := false) (.fn .max) (by decide) (by decide)
      (.argN (.arg1 ((G.var (nm 'N')).down (by omega))) ((G.var (nm 'B')).down (by omega)))
    exact (G.bin .plus (h1.down (m := 5) (by decide)) ((G.ofCall h2).down (by decide))).down (by omega)
  · refine .bin _ (.bin _ (.var _ _ _) (.cst _)) (.fn rfl ?_)
    intro a ha
    simp only [List.mem_cons, List.not_mem_nil, or_false] at ha
    rcases ha with rfl | rfl <;> exact .par (.var _ _ _)

example : reads exArith exEnv (.var (nm 'A') (-5) none) 3 = [none] :=
  C26_outside_sample exArith exEnv (nm 'A') (-5) 3 (.inl (by decide))

/-- `A / (B - B)` is missing because of the division, not because of a value read. -/
example : let e : Expr := .bin .divide (.var (nm 'A') 0 none) (.par (.bin .minus (.var (nm 'B') 0 none) (.var (nm 'B') 0 none)))
    eval exArith exEnv e 3 = some none ∧ Fault exArith exEnv 3 e ∧ ∀ w ∈ reads exArith exEnv e 3, exArith.isNum w = true :=
  ⟨by decide +kernel, .op (x := some 13) (y := some 0) (by decide +kernel) (by decide +kernel) rfl rfl (by decide +kernel),
    by decide +kernel⟩

end Iode.Lec
