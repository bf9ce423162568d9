import Verif.Lemmas.LecEx
import Verif.Lemmas.LecParse

/-!
# C24: a formula is computed according to its written structure

The reference is `Verif/Spec/Lec.lean`: expression trees, the grammar with the documented priorities
(`Reads`) and the value of a tree (`eval`).  Compiling, linking and executing the text of a tree
(`evalText`) gives the value of the tree, for every arithmetic (no law of doubles is used but "NA is not a
number").

The full claim is false of the code; the exceptions are stated as counterexamples below:
* `lcount` leaves its arguments on the stack;
* a time function written in front of a call with several arguments without parentheses
  (`d max(A,B)`) takes the wrong sub-expression;
* functions of several expressions inside a time function are cut in the wrong place;
* an ordinary function inside the arguments of a function that accepts NA, or in the lag of a time
  function, is NA as soon as anything computed before it in the formula is NA;
* a coefficient that is NA makes the whole formula NA, also inside a function that accepts NA.
Missing for a full proof of the rest: the functions of several expressions (`corr`, `hp`, ...).
-/
namespace Iode.Lec

variable {F : Type}

/-! ## The grammar gives each text one tree and each tree a text -/

/-- Read postfix elements back; the stack holds trees and (as `none`) open parentheses. -/
def decode : List Atom → List (Option Expr) → List (Option Expr)
  | [], S => S
  | .cst k :: as, S => decode as (some (.cst k) :: S)
  | .val v :: as, S => decode as (some (.val v) :: S)
  | .var x l p :: as, S => decode as (some (.var x l p) :: S)
  | .coef x :: as, S => decode as (some (.coef x) :: S)
  | .openp :: as, S => decode as (none :: S)
  | .closep :: as, S => match S with
    | some e :: none :: S => decode as (some (.par e) :: S)
    | _ => []
  | .op o :: as, S => match S with
    | some b :: some a :: S => decode as (some (.bin o a b) :: S)
    | _ => []
  | .fun f n :: as, S => decode as (some (.app f ((S.take n).reverse.filterMap id)) :: S.drop n)

theorem decode_atoms : ∀ e as S, decode (atomsOf e ++ as) S = decode as (some e :: S) := by
  intro e
  induction e using Expr.ind with
  | hc k => intro as S; simp [atomsOf, decode]
  | hv k => intro as S; simp [atomsOf, decode]
  | hx x l p => intro as S; simp [atomsOf, decode]
  | hs x => intro as S; simp [atomsOf, decode]
  | hp e ih => intro as S; simp [atomsOf, decode, ih]
  | hb o a b iha ihb => intro as S; simp [atomsOf, decode, iha, ihb]
  | ha f args ih =>
    intro as S
    have hL : ∀ (es : List Expr), (∀ a ∈ es, ∀ as S, decode (atomsOf a ++ as) S = decode as (some a :: S)) →
        ∀ as S, decode (atomsOfL es ++ as) S = decode as ((es.map some).reverse ++ S) := by
      intro es
      induction es with
      | nil => intro _ as S; simp [atomsOfL]
      | cons e es ihe =>
        intro h as S
        rw [atomsOfL, List.append_assoc, h e (by simp), ihe (fun a ha => h a (by simp [ha]))]
        simp
    rw [atomsOf, List.append_assoc, hL args ih, List.singleton_append, decode]
    have h1 : ((args.map some).reverse ++ S).take args.length = (args.map some).reverse := by
      rw [List.take_append_of_le_length (by simp), List.take_of_length_le (by simp)]
    have h2 : ((args.map some).reverse ++ S).drop args.length = S := by
      rw [List.drop_append_of_le_length (by simp), List.drop_of_length_le (by simp)]; rfl
    rw [h1, h2]
    simp

theorem atomsOf_inj {e e' : Expr} (h : atomsOf e = atomsOf e') : e = e' := by
  have h1 := decode_atoms e [] []
  have h2 := decode_atoms e' [] []
  simp only [List.append_nil, decode] at h1 h2
  rw [h, h2] at h1
  simpa using h1.symm

/-- No text has two readings. -/
theorem C24_unambiguous {ts : List Tok} {e e' : Expr} (h : Reads ts e) (h' : Reads ts e') : e = e' := by
  have h1 := G.compile h
  have h2 := G.compile h'
  rw [h1] at h2
  cases h2' : atomsOf e == atomsOf e' with
  | true => exact atomsOf_inj (by simpa using h2')
  | false => simp only [CRes.ok.injEq] at h2; simp [h2] at h2'

/-- Trees in which every function has a permitted number of arguments, at least one. -/
inductive WF : Expr → Prop where
  | cst (k) : WF (.cst k)
  | val (v) : WF (.val v)
  | var (x l p) : WF (.var x l p)
  | coef (x) : WF (.coef x)
  | par {e} : WF e → WF (.par e)
  | bin (o) {a b} : WF a → WF b → WF (.bin o a b)
  | app (f) {args} : args ≠ [] → f.arityOk args.length = true → (∀ a ∈ args, WF a) → WF (.app f args)

/-- Every tree can be written down: some text reads as the tree with parentheses added, which has the same
value. -/
theorem C24_every_tree_has_a_text (A : Arith F) (E : Env F) {e : Expr} (h : WF e) :
    ∃ ts e', Reads ts e' ∧ ∀ t, eval A E e' t = eval A E e t := by
  suffices h' : ∃ ts e', G false (.lev 0) ts [e'] ∧ ∀ t, eval A E e' t = eval A E e t from h'
  induction h with
  | cst k => exact ⟨_, _, (G.cst k).down (by omega), fun _ => rfl⟩
  | val k => exact ⟨_, _, (G.val k).down (by omega), fun _ => rfl⟩
  | coef k => exact ⟨_, _, (G.coef k).down (by omega), fun _ => rfl⟩
  | var x l p =>
    cases p with
    | none =>
      refine ⟨_, _, (G.lag l (G.var x)).down (by omega), fun _ => ?_⟩
      simp [Expr.shift, Expr.mapVar, Expr.lagV]
    | some p =>
      refine ⟨_, _, (G.date p (G.lag l (G.var x))).down (by omega), fun _ => ?_⟩
      simp [Expr.shift, Expr.dated, Expr.mapVar, Expr.lagV, Expr.dateV]
  | par _ ih =>
    obtain ⟨ts, e', h1, h2⟩ := ih
    exact ⟨_, _, (G.par h1).down (by omega), fun t => by simp only [eval, h2]⟩
  | bin o _ _ iha ihb =>
    obtain ⟨ts, a', h1, h2⟩ := iha
    obtain ⟨us, b', h3, h4⟩ := ihb
    have := o.prior_bounds
    exact ⟨_, _, (G.bin o ((G.par h1).down (by omega)) ((G.par h3).down (by omega))).down (by omega),
      fun t => by simp only [eval, h2, h4]⟩
  | @app f args hne har _ ih =>
    have key : ∀ es : List Expr, es ≠ [] → (∀ a ∈ es, ∃ ts e', G false (.lev 0) ts [e'] ∧
        ∀ t, eval A E e' t = eval A E a t) → ∃ ts es', G false .args ts es' ∧ es'.length = es.length ∧
          es'.map (eval A E) = es.map (eval A E) := by
      intro es
      induction h : es.length generalizing es with
      | zero => intro hne; exact absurd (List.length_eq_zero_iff.1 h) hne
      | succ n ihn =>
        intro hne hall
        obtain ⟨es0, e0, rfl⟩ : ∃ es0 e0, es = es0 ++ [e0] :=
          ⟨es.dropLast, es.getLast hne, (List.dropLast_concat_getLast hne).symm⟩
        obtain ⟨us, e', g1, g2⟩ := hall e0 (by simp)
        have g3 : eval A E (.par e') = eval A E e0 := by funext t; simp only [eval, g2]
        by_cases hz : es0 = []
        · subst hz
          exact ⟨_, _, .arg1 g1, by simpa using h, by simp [g3]⟩
        · obtain ⟨ts, es', k1, k2, k3⟩ := ihn es0 (by simpa using h) hz (fun a ha => hall a (by simp [ha]))
          exact ⟨_, _, .argN k1 g1, by simp [k2], by simp [k3, g3]⟩
    obtain ⟨ts, es', k1, k2, k3⟩ := key args hne ih
    have hev : ∀ t, eval A E (.app f es') t = eval A E (.app f args) t := by
      intro t
      cases f <;> simp only [eval, evalFs_eq, k3]
    rcases Nat.lt_or_ge es'.length 2 with hlt | hge
    · have hpos : 0 < args.length := List.length_pos_iff.2 hne
      obtain ⟨a, rfl⟩ : ∃ a, args = [a] := by
        match args, hpos, k2 with
        | [a], _, _ => exact ⟨a, rfl⟩
        | _ :: _ :: _, _, k2 => simp at k2; omega
      obtain ⟨us, e', g1, g2⟩ := ih a (by simp)
      refine ⟨_, _, (G.un f har ((G.par g1).down (by omega))).down (by omega), fun t => ?_⟩
      have g3 : evalFs A E [.par e'] = evalFs A E [a] := by
        simp only [evalFs]
        congr 1
        funext t
        rw [eval, g2]
      cases f <;> simp only [eval, g3]
    · exact ⟨_, _, (G.ofCall (G.call f hge (by rw [k2]; exact har) k1)).down (by omega), hev⟩

/-! ## The theorem -/

/-- The value of a text that reads as `e` is the value of `e`, if the executor gets the pieces right
(`Good`, `Fine`: see the exceptions above). -/
theorem C24_value_partial (A : Arith F) (E : Env F) (hna : A.isNum A.na = false) {rts : List RTok}
    {e : Expr} {t : Int} {v : F} (hr : Reads (group rts) e) (hg : Good e) (hf : Fine A E True e t)
    (hv : eval A E e t = some v) : evalText A E [] rts t = .ok v := by
  rw [evalText, G.compile hr]
  simp only [hg.build, Res.bind]
  exact hf.exec hna hv

/-- A class of formulas given by their form alone: no `lcount`, no function of several expressions; no
ordinary function call in the optional arguments of time functions nor in the arguments of `if`,
`isan`, `lmean`, `lstderr`, whose coefficients must be numbers. -/
inductive Simple (A : Arith F) (E : Env F) : Expr → Prop where
  | cst (k) : Simple A E (.cst k)
  | val (v) : Simple A E (.val v)
  | var (x l p) : Simple A E (.var x l p)
  | coef (x) : Simple A E (.coef x)
  | par {e} : Simple A E e → Simple A E (.par e)
  | bin (o) {a b} : Simple A E a → Simple A E b → Simple A E (.bin o a b)
  | fn {f args} : f.acceptsNa = false → (∀ a ∈ args, Simple A E a) → Simple A E (.app (.fn f) args)
  | fnNa {f args} : f ≠ .lcount → (∀ a ∈ args, Simple A E a) → (∀ a ∈ args, Plain a) →
      (∀ x ∈ coefsL args, A.isNum (E.coef x) = true) → Simple A E (.app (.fn f) args)
  | tfn {f opts body} : (∀ a ∈ opts, Simple A E a) → (∀ a ∈ opts, Plain a) → Simple A E body →
      Tight body → Simple A E (.app (.tfn f) (opts ++ [body]))

theorem Simple.good {A : Arith F} {E : Env F} {e : Expr} (h : Simple A E e) : Good e := by
  induction h with
  | cst k => exact .cst k
  | val k => exact .val k
  | var x l p => exact .var x l p
  | coef x => exact .coef x
  | par _ ih => exact .par ih
  | bin o _ _ iha ihb => exact .bin o iha ihb
  | fn _ _ ih => exact .fn _ ih
  | fnNa _ _ _ _ ih => exact .fn _ ih
  | tfn _ _ _ ht iho ihb => exact .tfn _ iho ihb ht

theorem Simple.fine {A : Arith F} {E : Env F} {e : Expr} (h : Simple A E e) : ∀ c t, Fine A E c e t := by
  induction h with
  | cst k => exact fun c t => .cst c k t
  | val k => exact fun c t => .val c k t
  | var x l p => exact fun c t => .var c x l p t
  | coef x => exact fun c t => .coef c x t
  | par _ ih => exact fun c t => .par (ih c t)
  | bin o _ _ iha ihb => exact fun c t => .bin (iha c t) (ihb _ t)
  | @fn f args hf _ ih =>
    intro c t
    refine .fn (by rintro rfl; cases hf) (fun pre a post hp => ih a (by simp [hp]) _ t) ?_
    intro h; rw [hf] at h; cases h
  | fnNa hl _ hp hc ih =>
    intro c t
    exact .fn hl (fun pre a post he => ih a (by simp [he]) _ t)
      (fun _ => ⟨hc, fun pre a post he => .inl (hp a (by simp [he]))⟩)
  | tfn _ hp _ _ iho ihb =>
    intro c t
    exact .tfn (fun pre a post he => iho a (by simp [he]) _ t)
      (fun pre a post he => .inl (hp a (by simp [he]))) (fun u => ihb True u)

/-- The same with a condition on the form of the formula only. -/
theorem C24_simple_value (A : Arith F) (E : Env F) (hna : A.isNum A.na = false) {rts : List RTok}
    {e : Expr} {t : Int} {v : F} (hr : Reads (group rts) e) (hs : Simple A E e)
    (hv : eval A E e t = some v) : evalText A E [] rts t = .ok v :=
  C24_value_partial A E hna hr hs.good (hs.fine True t) hv

/-- Formulas made of numbers, variables, coefficients, operators, parentheses and ordinary functions that
do not accept NA. -/
inductive Basic : Expr → Prop where
  | cst (k) : Basic (.cst k)
  | val (v) : Basic (.val v)
  | var (x l p) : Basic (.var x l p)
  | coef (x) : Basic (.coef x)
  | par {e} : Basic e → Basic (.par e)
  | bin (o) {a b} : Basic a → Basic b → Basic (.bin o a b)
  | fn {f args} : f.acceptsNa = false → (∀ a ∈ args, Basic a) → Basic (.app (.fn f) args)

theorem Basic.simple {e : Expr} (h : Basic e) (A : Arith F) (E : Env F) : Simple A E e := by
  induction h with
  | cst k => exact .cst k
  | val k => exact .val k
  | var x l p => exact .var x l p
  | coef x => exact .coef x
  | par _ ih => exact .par ih
  | bin o _ _ iha ihb => exact .bin o iha ihb
  | fn hf _ ih => exact .fn hf ih

/-- Operators, signs and ordinary functions: correct for all values of the variables, NA or not. -/
theorem C24_basic_value (A : Arith F) (E : Env F) (hna : A.isNum A.na = false) {rts : List RTok}
    {e : Expr} {t : Int} {v : F} (hr : Reads (group rts) e) (hb : Basic e)
    (hv : eval A E e t = some v) : evalText A E [] rts t = .ok v :=
  C24_simple_value A E hna hr (hb.simple A E) hv

/-! ## Where the full claim fails -/

/-- `2 - lcount(1,2,3)` is computed as `3 - 3`. -/
theorem C24_lcount_counterexample :
    let ts : List RTok := [.cst (.long 2), .op .minus, .fun (.fn .lcount), .openp, .cst (.long 1), .comma,
      .cst (.long 2), .comma, .cst (.long 3), .closep]
    let e : Expr := .bin .minus (.cst (.long 2)) (.app (.fn .lcount)
      [.par (.cst (.long 1)), .par (.cst (.long 2)), .par (.cst (.long 3))])
    Reads (group ts) e ∧ eval exArith exEnv e 3 = some (some (-1)) ∧
      evalText exArith exEnv [] ts 3 = .ok (some 0) := by
  refine ⟨?_, by rfl, by decide +kernel⟩
  refine (G.bin .minus (ts := [.cst (.long 2)]) ((G.cst _).down (by decide)) ((G.ofCall (.call _ (by decide) (by decide)
    (.argN (.argN (.arg1 ((G.cst (.long 1)).down (by omega))) ((G.cst (.long 2)).down (by omega)))
      ((G.cst (.long 3)).down (by omega)))) ).down (by decide))).down (by omega)

/-- `d max(A,B)` (no parentheses around the call) reads from an empty stack. -/
theorem C24_time_function_of_call_counterexample :
    let ts : List RTok := [.fun (.tfn .diff), .fun (.fn .max), .openp, .var (nm 'A'), .comma,
      .var (nm 'B'), .closep]
    let e : Expr := .app (.tfn .diff) [.app (.fn .max) [.par (.var (nm 'A') 0 none), .par (.var (nm 'B') 0 none)]]
    Reads (group ts) e ∧ eval exArith exEnv e 3 = some (some 1) ∧ evalText exArith exEnv [] ts 3 = .ub := by
  refine ⟨?_, by rfl, by decide +kernel⟩
  exact (G.un (.tfn .diff) (by decide) (.ofCall (.call _ (by decide) (by decide)
    (.argN (.arg1 ((G.var _).down (by omega))) ((G.var _).down (by omega)))))).down (by omega)

/-- `lmean(N, abs(B))` with `N` missing: the mean of the values present is `B`, but `abs` sees the NA that
waits on the stack. -/
theorem C24_na_below_counterexample :
    let ts : List RTok := [.fun (.fn .lmean), .openp, .var (nm 'N'), .comma, .fun (.fn .abs), .var (nm 'B'), .closep]
    let e : Expr := .app (.fn .lmean) [.par (.var (nm 'N') 0 none), .par (.app (.fn .abs) [.var (nm 'B') 0 none])]
    Reads (group ts) e ∧ eval exArith exEnv e 3 = some (some 6) ∧
      evalText exArith exEnv [] ts 3 = .ok none := by
  refine ⟨?_, by rfl, by decide +kernel⟩
  exact (G.ofCall (.call _ (by decide) (by decide)
    (.argN (.arg1 ((G.var _).down (by omega)))
      ((G.un (.fn .abs) (by decide) ((G.var _).down (by omega))).down (by omega))))).down (by omega)

/-- `N + l(-1, B)` with `N` missing: the sign sees the NA and the lag is the cast of NA to an integer. -/
theorem C24_lag_sign_counterexample :
    let ts : List RTok := [.var (nm 'N'), .op .plus, .fun (.tfn .lag), .openp, .op .minus, .cst (.long 1),
      .comma, .var (nm 'B'), .closep]
    let e : Expr := .bin .plus (.var (nm 'N') 0 none) (.app (.tfn .lag)
      [.par (.app (.fn .uminus) [.cst (.long 1)]), .par (.var (nm 'B') 0 none)])
    Reads (group ts) e ∧ eval exArith exEnv e 3 = some none ∧ evalText exArith exEnv [] ts 3 = .ub := by
  refine ⟨?_, by rfl, by decide +kernel⟩
  exact (G.bin .plus (ts := [.var (nm 'N')]) ((G.var _).down (by decide)) ((G.ofCall (.call _ (by decide) (by decide)
    (.argN (.arg1 ((G.minus ((G.cst _).down (by omega))).down (by omega)))
      ((G.var _).down (by omega))))).down (by decide))).down (by omega)

/-- `d(corr(A,B))`: the length of the code of `corr` is counted four bytes short. -/
theorem C24_mtfn_in_tfn_counterexample :
    evalText exArith exEnv [] [.fun (.tfn .diff), .openp, .fun (.mtfn .corr), .openp, .var (nm 'A'), .comma,
      .var (nm 'B'), .closep, .closep] 3 = .ub := by decide +kernel

/-- `isan(z)` of a coefficient that is NA is NA, not 0. -/
theorem C24_na_coefficient_counterexample :
    let ts : List RTok := [.fun (.fn .fnisan), .openp, .coef (nm 'z'), .closep]
    let e : Expr := .app (.fn .fnisan) [.par (.coef (nm 'z'))]
    Reads (group ts) e ∧ eval exArith exEnv e 3 = some (some 0) ∧
      evalText exArith exEnv [] ts 3 = .ok none := by
  refine ⟨?_, by rfl, by decide +kernel⟩
  exact (G.un (.fn .fnisan) (by decide) ((G.par (ts := [.coef (nm 'z')])
    ((G.coef _).down (by omega))).down (by omega))).down (by omega)

/-! ## The hypotheses are met -/

/-- `-A ^ 2 * B - c / 5 - d(A[-1] * B)`: unary minus binds tighter than the power, minus associates to
the left. -/
def exText : List RTok :=
  [.op .minus, .var (nm 'A'), .op .exp, .cst (.long 2), .op .times, .var (nm 'B'), .op .minus, .coef (nm 'c'),
   .op .divide, .cst (.long 5), .op .minus, .fun (.tfn .diff), .openp, .var (nm 'A'), .openb, .op .minus,
   .cst (.long 1), .closeb, .op .times, .var (nm 'B'), .closep]

/-- Its tree. -/
def exTree : Expr :=
  .bin .minus
    (.bin .minus
      (.bin .times (.bin .exp (.app (.fn .uminus) [.var (nm 'A') 0 none]) (.cst (.long 2))) (.var (nm 'B') 0 none))
      (.bin .divide (.coef (nm 'c')) (.cst (.long 5))))
    (.app (.tfn .diff) ([] ++ [.par (.bin .times (.var (nm 'A') (-1) none) (.var (nm 'B') 0 none))]))

theorem exText_reads : Reads (group exText) exTree := by
  have hA : G false (.lev 9) [.var (nm 'A')] [.var (nm 'A') 0 none] := .var _
  have hB : G false (.lev 9) [.var (nm 'B')] [.var (nm 'B') 0 none] := .var _
  have h1 := G.bin .exp (G.down (m := 7) (by omega) (G.minus (hA.down (by omega))))
    ((G.cst (.long 2)).down (m := 8) (by omega))
  have h2 := G.bin .times (h1.down (m := 6) (by decide)) (hB.down (m := 7) (by omega))
  have h3 := G.bin (ext := false) .divide ((G.coef (nm 'c')).down (m := 6) (by omega)) ((G.cst (.long 5)).down (m := 7) (by omega))
  have h4 := G.bin .minus (h2.down (m := 5) (by decide)) (h3.down (m := 6) (by decide))
  have h5 := G.bin .times ((G.lag (-1) hA).down (m := 6) (by omega)) (hB.down (m := 7) (by omega))
  have h6 := G.un (.tfn .diff) (by decide) ((G.par (h5.down (by omega))).down (by omega))
  exact (G.bin .minus h4 (h6.down (by decide))).down (by omega)

theorem exTree_simple : Simple exArith exEnv exTree := by
  refine .bin _ (.bin _ (.bin _ (.bin _ (.fn rfl ?_) (.cst _)) (.var _ _ _)) (.bin _ (.coef _) (.cst _)))
    (.tfn ?_ ?_ (.par (.bin _ (.var _ _ _) (.var _ _ _))) (.par _))
  · intro a ha
    simp only [List.mem_singleton] at ha
    subst ha
    exact .var _ _ _
  · intro a ha; cases ha
  · intro a ha; cases ha

example : eval exArith exEnv exTree 3 = some (some 985) ∧ evalText exArith exEnv [] exText 3 = .ok (some 985) := by
  have h : eval exArith exEnv exTree 3 = some (some 985) := by decide +kernel
  exact ⟨h, C24_simple_value exArith exEnv exArith_na exText_reads exTree_simple h⟩

example : WF (.app (.fn .max) [.cst (.long 1), .bin .plus (.var (nm 'A') (-2) none) (.coef (nm 'c'))]) := by
  refine .app _ (by simp) (by decide) ?_
  intro a ha
  simp only [List.mem_cons, List.not_mem_nil, or_false] at ha
  rcases ha with rfl | rfl
  · exact .cst _
  · exact .bin _ (.var _ _ _) (.coef _)

example : Basic (.bin .times (.app (.fn .max) [.var (nm 'A') 0 none, .cst (.long 0)]) (.coef (nm 'c'))) := by
  refine .bin _ (.fn rfl ?_) (.coef _)
  intro a ha
  simp only [List.mem_cons, List.not_mem_nil, or_false] at ha
  rcases ha with rfl | rfl
  · exact .var _ _ _
  · exact .cst _

end Iode.Lec
