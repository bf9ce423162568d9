import Verif.Lemmas.LecNa

/-!
# C27: lagging a formula equals evaluating it in the past

`(e)[k]` at `t` has the value of `e` at `t + k`; `(e)[p]` has the value of `e` at the period `p`.

Proved for formulas of the class of C24 (`Simple`) that do not contain the values `t` and `i` and
whose time functions are the ones with a lag (`l`, `d`, `r`, `dln`, `grt`, `ma`); with a date, without time
functions.  The claim is false for the functions over a range (`sum`, `mean`, ...) and for brackets behind a
call with several arguments: counterexamples below.
-/
namespace Iode.Lec

variable {F : Type}

/-- Formulas whose value moves with time: no `t`, no `i`, no function over a range. -/
inductive Moves : Expr → Prop where
  | cst (k) : Moves (.cst k)
  | pi : Moves (.val .pi)
  | e : Moves (.val .e)
  | euro : Moves (.val .euro)
  | var (x l p) : Moves (.var x l p)
  | coef (x) : Moves (.coef x)
  | par {e} : Moves e → Moves (.par e)
  | bin (o) {a b} : Moves a → Moves b → Moves (.bin o a b)
  | fn (f) {args} : (∀ a ∈ args, Moves a) → Moves (.app (.fn f) args)
  | tfn {f args} : f.lagged = true → (∀ a ∈ args, Moves a) → Moves (.app (.tfn f) args)

/-- The same without time functions. -/
inductive Still : Expr → Prop where
  | cst (k) : Still (.cst k)
  | pi : Still (.val .pi)
  | e : Still (.val .e)
  | euro : Still (.val .euro)
  | var (x l p) : Still (.var x l p)
  | coef (x) : Still (.coef x)
  | par {e} : Still e → Still (.par e)
  | bin (o) {a b} : Still a → Still b → Still (.bin o a b)
  | fn (f) {args} : (∀ a ∈ args, Still a) → Still (.app (.fn f) args)

theorem map_congr' {α β : Type} {f g : α → β} {l : List α} (h : ∀ a ∈ l, f a = g a) : l.map f = l.map g := by
  induction l with
  | nil => rfl
  | cons a l ih => simp [h a (by simp), ih (fun b hb => h b (by simp [hb]))]

theorem lagVal_shift (A : Arith F) (f : TFn) (hf : f.lagged = true) (b1 b2 : Int → Option F) (k : Int)
    (h : ∀ u, b1 u = b2 (u + k)) (t lag : Int) : lagVal A f b1 t lag = lagVal A f b2 (t + k) lag := by
  have hsub : b1 (t - lag) = b2 (t + k - lag) := by rw [h]; congr 1; omega
  have h2 : ∀ g, lagVal.two A b1 t lag g = lagVal.two A b2 (t + k) lag g := by
    intro g
    simp only [lagVal.two, h t, hsub]
  cases f with
  | lag => exact hsub
  | diff => exact h2 _
  | rapp => exact h2 _
  | dln => exact h2 _
  | grt => simp only [lagVal, h2]
  | mavg =>
    simp only [lagVal]
    have : (downFrom t (if lag < 1 then 1 else lag)).map b1 = (downFrom (t + k) (if lag < 1 then 1 else lag)).map b2 := by
      simp only [downFrom, List.map_map]
      apply map_congr'
      intro i _
      simp only [Function.comp, h]
      congr 1
      omega
    rw [this]
  | _ => cases hf

theorem tfnVal_shift (A : Arith F) (f : TFn) (hf : f.lagged = true) (b1 b2 : Int → Option F) (k : Int)
    (h : ∀ u, b1 u = b2 (u + k)) (opts : List F) (t : Int) : tfnVal A f opts b1 t = tfnVal A f opts b2 (t + k) := by
  unfold tfnVal
  simp only [hf, if_true]
  split
  · match opts with
    | [] => exact lagVal_shift A f hf b1 b2 k h t 1
    | [x] => simp only [lagVal_shift A f hf b1 b2 k h t]
    | _ :: _ :: _ => rfl
  · rfl

/-- The value of a lagged tree. -/
theorem eval_shift (A : Arith F) (E : Env F) (k : Int) {e : Expr} (h : Moves e) :
    ∀ t, eval A E (e.shift k) t = eval A E e (t + k) := by
  unfold Expr.shift
  induction h with
  | cst c => intro t; rw [Expr.mapVar]; cases c <;> simp only [eval]
  | pi => intro t; simp only [Expr.mapVar, eval, valVal]
  | e => intro t; simp only [Expr.mapVar, eval, valVal]
  | euro => intro t; simp only [Expr.mapVar, eval, valVal]
  | var x l p =>
    intro t
    cases p with
    | none => simp only [Expr.mapVar, Expr.lagV, eval]; congr 2; omega
    | some p => simp only [Expr.mapVar, Expr.lagV, eval]
  | coef x => intro t; simp only [Expr.mapVar, eval]
  | par _ ih => intro t; simp only [Expr.mapVar, eval]; exact ih t
  | bin o _ _ iha ihb => intro t; simp only [Expr.mapVar, eval, iha t, ihb t]
  | @fn f args _ ih =>
    intro t
    simp only [Expr.mapVar, eval, mapVarL_eq, evalFs_eq, List.map_map]
    congr 2
    apply map_congr'
    intro a ha
    exact ih a ha t
  | @tfn f args hf _ ih =>
    intro t
    simp only [Expr.mapVar, eval, mapVarL_eq, evalFs_eq, List.map_map]
    rw [← List.map_reverse, ← List.map_reverse]
    cases hr : args.reverse with
    | nil => rfl
    | cons body opts =>
      have hmem : ∀ a, a = body ∨ a ∈ opts → a ∈ args := by
        intro a ha
        have : a ∈ args.reverse := by rw [hr]; simpa using ha
        simpa using this
      simp only [List.map_cons, ← List.map_reverse, List.map_map]
      have h1 : (opts.reverse.map ((fun x => x t) ∘ eval A E ∘ Expr.mapVar (Expr.lagV k)))
          = opts.reverse.map ((fun x => x (t + k)) ∘ eval A E) := by
        apply map_congr'
        intro a ha
        exact ih a (hmem a (.inr (by simpa using ha))) t
      rw [h1]
      congr 1
      funext vs
      exact tfnVal_shift A f hf _ _ k (fun u => ih body (hmem body (.inl rfl)) u) vs t

/-- The value of a dated tree. -/
theorem eval_dated (A : Arith F) (E : Env F) (p : Period) {e : Expr} (h : Still e) :
    ∀ t, eval A E (e.dated p) t = eval A E e (E.posOf p) := by
  unfold Expr.dated
  induction h with
  | cst c => intro t; rw [Expr.mapVar]; cases c <;> simp only [eval]
  | pi => intro t; simp only [Expr.mapVar, eval, valVal]
  | e => intro t; simp only [Expr.mapVar, eval, valVal]
  | euro => intro t; simp only [Expr.mapVar, eval, valVal]
  | var x l p => intro t; cases p <;> simp only [Expr.mapVar, Expr.dateV, eval]
  | coef x => intro t; simp only [Expr.mapVar, eval]
  | par _ ih => intro t; simp only [Expr.mapVar, eval]; exact ih t
  | bin o _ _ iha ihb => intro t; simp only [Expr.mapVar, eval, iha t, ihb t]
  | @fn f args _ ih =>
    intro t
    simp only [Expr.mapVar, eval, mapVarL_eq, evalFs_eq, List.map_map]
    congr 2
    apply map_congr'
    intro a ha
    exact ih a ha t

/-! ## A bracket keeps the form of a formula -/

theorem Plain.mapVar (g) {e : Expr} (h : Plain e) : Plain (e.mapVar g) := by
  induction h with
  | cst k => exact .cst k
  | val k => exact .val k
  | var x l p => exact .var _ _ _
  | coef x => exact .coef x
  | par _ ih => exact .par ih
  | bin o _ _ iha ihb => exact .bin o iha ihb
  | tfn f _ ih =>
    rw [Expr.mapVar, mapVarL_eq, List.map_append, List.map_singleton]
    refine .tfn f ?_
    intro a ha
    obtain ⟨b, hb, rfl⟩ := List.mem_map.1 ha
    exact ih b hb

theorem Tight.mapVar (g) {e : Expr} (h : Tight e) : Tight (e.mapVar g) := by
  induction h with
  | cst k => exact .cst k
  | val k => exact .val k
  | var x l p => exact .var _ _ _
  | coef x => exact .coef x
  | par e => exact .par _
  | un f _ ih => rw [Expr.mapVar, mapVarL_eq]; exact .un f ih

theorem coefs_mapVar (g) : ∀ e : Expr, coefs (e.mapVar g) = coefs e := by
  intro e
  induction e using Expr.ind with
  | hc k => rfl
  | hv k => rfl
  | hx x l p => simp [Expr.mapVar, coefs]
  | hs x => rfl
  | hp e ih => simp [Expr.mapVar, coefs, ih]
  | hb o a b iha ihb => simp [Expr.mapVar, coefs, iha, ihb]
  | ha f args ih =>
    simp only [Expr.mapVar, coefs, mapVarL_eq]
    induction args with
    | nil => rfl
    | cons a as iha =>
      simp only [List.map_cons, coefsL]
      rw [ih a (by simp), iha (fun x hx => ih x (by simp [hx]))]

theorem coefsL_mapVar (g) (es : List Expr) : coefsL (es.map (Expr.mapVar g)) = coefsL es := by
  induction es with
  | nil => rfl
  | cons a as ih => simp [coefsL, coefs_mapVar, ih]

theorem Simple.mapVar (g) {A : Arith F} {E : Env F} {e : Expr} (h : Simple A E e) : Simple A E (e.mapVar g) := by
  induction h with
  | cst k => exact .cst k
  | val k => exact .val k
  | var x l p => exact .var _ _ _
  | coef x => exact .coef x
  | par _ ih => exact .par ih
  | bin o _ _ iha ihb => exact .bin o iha ihb
  | fn hf _ ih =>
    rw [Expr.mapVar, mapVarL_eq]
    refine .fn hf ?_
    intro a ha
    obtain ⟨b, hb, rfl⟩ := List.mem_map.1 ha
    exact ih b hb
  | fnNa hl _ hp hc ih =>
    rw [Expr.mapVar, mapVarL_eq]
    refine .fnNa hl ?_ ?_ (by rw [coefsL_mapVar]; exact hc)
    · intro a ha
      obtain ⟨b, hb, rfl⟩ := List.mem_map.1 ha
      exact ih b hb
    · intro a ha
      obtain ⟨b, hb, rfl⟩ := List.mem_map.1 ha
      exact (hp b hb).mapVar g
  | tfn _ hp _ ht iho ihb =>
    rw [Expr.mapVar, mapVarL_eq, List.map_append, List.map_singleton]
    refine .tfn ?_ ?_ ihb (ht.mapVar g)
    · intro a ha
      obtain ⟨b, hb, rfl⟩ := List.mem_map.1 ha
      exact iho b hb
    · intro a ha
      obtain ⟨b, hb, rfl⟩ := List.mem_map.1 ha
      exact (hp b hb).mapVar g

/-! ## Theorems about texts -/

/-- The text `( rts )[-n]`. -/
def lagText (rts : List RTok) (n : Int) : List RTok :=
  .openp :: (rts ++ [.closep, .openb, .op .minus, .cst (.long n), .closeb])

/-- The text `( rts )[p]`. -/
def dateText (rts : List RTok) (p : Period) : List RTok :=
  .openp :: (rts ++ [.closep, .openb, .cst (.period p), .closeb])

theorem lagText_reads {rts : List RTok} {e : Expr} (n : Int) (h : Reads (group rts) e) (he : RTok.eoe ∉ rts) :
    Reads (group (lagText rts n)) ((Expr.par e).shift (-n)) := by
  have := (G.lag (-n) (G.par h)).down (m := 0) (by omega)
  unfold lagText
  rw [group, group_append _ _ he h.tokens.2]
  simpa [group, Reads] using this

theorem dateText_reads {rts : List RTok} {e : Expr} (p : Period) (h : Reads (group rts) e) (he : RTok.eoe ∉ rts) :
    Reads (group (dateText rts p)) ((Expr.par e).dated p) := by
  have := (G.date p (G.par h)).down (m := 0) (by omega)
  unfold dateText
  rw [group, group_append _ _ he h.tokens.2]
  simpa [group, Reads] using this

/-- `(e)[-n]` at `t` is `e` at `t - n`. -/
theorem C27_lag_is_past_partial (A : Arith F) (E : Env F) (hna : A.isNum A.na = false) {rts : List RTok}
    {e : Expr} (hr : Reads (group rts) e) (he : RTok.eoe ∉ rts) (hs : Simple A E e) (hm : Moves e)
    (n t : Int) {v : F} (hv : eval A E e (t - n) = some v) :
    evalText A E [] (lagText rts n) t = .ok v ∧ evalText A E [] rts (t - n) = .ok v := by
  refine ⟨?_, C24_simple_value A E hna hr hs hv⟩
  refine C24_simple_value A E hna (lagText_reads n hr he) ((Simple.par hs).mapVar _) ?_
  rw [eval_shift A E _ (.par hm), eval]
  exact hv

/-- `(e)[p]` at any `t` is `e` at the position of the period `p`. -/
theorem C27_date_is_that_period_partial (A : Arith F) (E : Env F) (hna : A.isNum A.na = false) {rts : List RTok}
    {e : Expr} (hr : Reads (group rts) e) (he : RTok.eoe ∉ rts) (hs : Simple A E e) (hm : Still e)
    (p : Period) (t : Int) {v : F} (hv : eval A E e (E.posOf p) = some v) :
    evalText A E [] (dateText rts p) t = .ok v ∧ evalText A E [] rts (E.posOf p) = .ok v := by
  refine ⟨?_, C24_simple_value A E hna hr hs hv⟩
  refine C24_simple_value A E hna (dateText_reads p hr he) ((Simple.par hs).mapVar _) ?_
  rw [eval_dated A E _ (.par hm), eval]
  exact hv

/-- Lags add up: `(e)[-n][-m]` is `(e)[-(n+m)]`. -/
theorem C27_lags_add (n m : Int) (e : Expr) : (e.shift n).shift m = e.shift (n + m) := by
  unfold Expr.shift
  induction e using Expr.ind with
  | hc k => rfl
  | hv k => rfl
  | hx x l p => cases p <;> simp [Expr.mapVar, Expr.lagV, Int.add_assoc]
  | hs x => rfl
  | hp e ih => simp [Expr.mapVar, ih]
  | hb o a b iha ihb => simp [Expr.mapVar, iha, ihb]
  | ha f args ih =>
    simp only [Expr.mapVar, mapVarL_eq, List.map_map]
    congr 1
    apply map_congr'
    intro a ha
    exact ih a ha

/-- A lag behind a date has no effect, and the first of two dates counts. -/
theorem C27_date_absorbs (p q : Period) (n : Int) (e : Expr) :
    (e.dated p).shift n = e.dated p ∧ (e.dated p).dated q = e.dated p := by
  unfold Expr.shift Expr.dated
  induction e using Expr.ind with
  | hc k => exact ⟨rfl, rfl⟩
  | hv k => exact ⟨rfl, rfl⟩
  | hx x l p => cases p <;> simp [Expr.mapVar, Expr.lagV, Expr.dateV]
  | hs x => exact ⟨rfl, rfl⟩
  | hp e ih => simp [Expr.mapVar, ih]
  | hb o a b iha ihb => simp [Expr.mapVar, iha, ihb]
  | ha f args ih =>
    simp only [Expr.mapVar, mapVarL_eq, List.map_map]
    constructor
    · congr 1
      apply map_congr'
      intro a ha
      exact (ih a ha).1
    · congr 1
      apply map_congr'
      intro a ha
      exact (ih a ha).2

/-! ## Counterexamples -/

/-- `t[-1]` is `t`. -/
theorem C27_t_counterexample :
    evalText exArith exEnv [] [.val .t, .openb, .op .minus, .cst (.long 1), .closeb] 3 = .ok (some 3) ∧
    evalText exArith exEnv [] [.val .t] 2 = .ok (some 2) := by decide +kernel

/-- `(sum(0, A))[-1]` at 3 adds `A` from -1 to 2 (and is NA), not from 0 to 2. -/
theorem C27_sum_counterexample :
    evalText exArith exEnv [] (lagText [.fun (.tfn .sum), .openp, .var (nm 'A'), .closep] 1) 3 = .ok none ∧
    evalText exArith exEnv [] [.fun (.tfn .sum), .openp, .var (nm 'A'), .closep] 2 = .ok (some 33) := by
  decide +kernel

/-- `max(A, B)[-1]` without outer parentheses lags `B` only. -/
theorem C27_call_counterexample :
    evalText exArith exEnv [] [.fun (.fn .max), .openp, .var (nm 'A'), .comma, .var (nm 'B'), .closep, .openb,
      .op .minus, .cst (.long 1), .closeb] 3 = .ok (some 13) ∧
    evalText exArith exEnv [] [.fun (.fn .max), .openp, .var (nm 'A'), .comma, .var (nm 'B'), .closep] 2
      = .ok (some 12) := by decide +kernel

/-- `(d(A))[5]` is 0: both points of the difference are dated. -/
theorem C27_dated_difference_counterexample :
    evalText exArith exEnv [] (dateText [.fun (.tfn .diff), .openp, .var (nm 'A'), .closep] ⟨1, 5, 'Y'⟩) 3
      = .ok (some 0) ∧
    evalText exArith exEnv [] [.fun (.tfn .diff), .openp, .var (nm 'A'), .closep] 4 = .ok (some 1) := by
  decide +kernel

/-! ## The hypotheses are met -/

example : Moves exTree := by
  refine .bin _ (.bin _ (.bin _ (.bin _ (.fn _ ?_) (.cst _)) (.var _ _ _)) (.bin _ (.coef _) (.cst _))) (.tfn rfl ?_)
  · intro a ha; rw [List.mem_singleton.1 ha]; exact .var _ _ _
  · intro a ha
    simp only [List.nil_append] at ha
    rw [List.mem_singleton.1 ha]
    exact .par (.bin _ (.var _ _ _) (.var _ _ _))

example : RTok.eoe ∉ exText ∧ eval exArith exEnv exTree (5 - 2) = some (some 985) ∧
    evalText exArith exEnv [] (lagText exText 2) 5 = .ok (some 985) := by
  refine ⟨by decide, by decide +kernel, by decide +kernel⟩

example : Still (.bin .plus (.var (nm 'A') (-1) none) (.coef (nm 'c'))) := .bin _ (.var _ _ _) (.coef _)
example : evalText exArith exEnv [] (dateText [.var (nm 'A'), .op .plus, .coef (nm 'c')] ⟨1, 5, 'Y'⟩) 3
    = .ok (some 19) := by decide +kernel

end Iode.Lec
