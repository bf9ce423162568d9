import Verif.Spec.LecReal
import Verif.Lemmas.LecInvert
import Verif.Props.C27
import Verif.Props.C28

/-!
# C30: solving an equation for its variable gives a root of the equation
-/
namespace Iode.Lec

set_option linter.unusedSectionVars false

/-! ## What an expression reads -/

section Reading
variable {F : Type}

theorem eval_free (A : Arith F) (E : Env F) (x : Name) (p : Int) (v : F) : ∀ e, x ∉ varNames e →
    eval A (E.set x p v) e = eval A E e := by
  intro e
  induction e using Expr.ind with
  | hc k => intro _; funext u; cases k <;> simp only [eval, Env.set]
  | hv k => intro _; funext u; simp only [eval]; cases k <;> rfl
  | hx y l q =>
    intro h
    have hy : ¬ y = x := by intro h'; simp [varNames, h'] at h
    funext u
    cases q <;> simp [eval, Env.at, Env.set, hy]
  | hs y => intro _; funext u; rfl
  | hp e ih => intro h; funext u; simp only [eval]; rw [ih (by simpa [varNames] using h)]
  | hb o a b iha ihb =>
    intro h
    simp only [varNames, List.mem_append, not_or] at h
    funext u; simp only [eval]; rw [iha h.1, ihb h.2]
  | ha f args ih =>
    intro h
    have hL : ∀ es : List Expr, (∀ a ∈ es, x ∉ varNames a → eval A (E.set x p v) a = eval A E a) →
        x ∉ varNamesL es → es.map (eval A (E.set x p v)) = es.map (eval A E) := by
      intro es
      induction es with
      | nil => intros; rfl
      | cons a as iha =>
        intro h1 h2
        simp only [varNamesL, List.mem_append, not_or] at h2
        simp only [List.map_cons]
        rw [h1 a (by simp) h2.1, iha (fun b hb => h1 b (by simp [hb])) h2.2]
    have := hL args ih (by simpa [varNames] using h)
    funext u
    cases f <;> simp only [eval, evalFs_eq, this]

theorem lagVal_congr (A : Arith F) (f : TFn) (b1 b2 : Int → Option F) (t lag : Int) (hl : 0 ≤ lag)
    (h : ∀ u, u ≤ t → b1 u = b2 u) : lagVal A f b1 t lag = lagVal A f b2 t lag := by
  have h1 := h t (by omega)
  have h2 := h (t - lag) (by omega)
  have h3 : ∀ g, lagVal.two A b1 t lag g = lagVal.two A b2 t lag g := by
    intro g; simp only [lagVal.two, h1, h2]
  have h4 : ∀ l : Int, (downFrom t l).map b1 = (downFrom t l).map b2 := by
    intro l
    refine map_congr' fun u hu => h u ?_
    simp only [downFrom, List.mem_map, List.mem_range] at hu
    obtain ⟨i, _, rfl⟩ := hu
    omega
  cases f <;> simp only [lagVal, h2, h3, h4]

theorem Lit.eval {n : Int} {m : Expr} (h : Lit n m) (A : Arith F) (E : Env F) (t : Int) :
    eval A E m t = some (A.ofInt n) := by
  induction h with
  | cst => simp only [Lec.eval]
  | par _ ih => simp only [Lec.eval, ih]

end Reading

section Real
variable {A : Arith (Option ℝ)}

/-- An expression that reads `x` up to `u - k` only does not see a change of `x` after that. -/
theorem Back.eval (hA : RealMath A) {k : Int} {x : Name} {e : Expr} (h : Back k x e) (E : Env (Option ℝ)) (p : Int)
    (v : Option ℝ) : ∀ u, u < p + k → eval A (E.set x p v) e u = eval A E e u := by
  induction h with
  | free h => intro u _; rw [eval_free A E x p v _ h]
  | @var l hl =>
    intro u hu
    have : ¬ (u + l = p) := by omega
    simp [Lec.eval, Env.at, Env.set, this]
  | par _ ih => intro u hu; simp only [Lec.eval, ih u hu]
  | bin o _ _ iha ihb => intro u hu; simp only [Lec.eval, iha u hu, ihb u hu]
  | @fn f args _ ih =>
    intro u hu
    have : (args.map (Lec.eval A (E.set x p v))).map (· u) = (args.map (Lec.eval A E)).map (· u) := by
      rw [List.map_map, List.map_map]
      exact map_congr' fun a ha => ih a ha u hu
    simp only [Lec.eval, evalFs_eq, this]
  | @tfn f a hf _ ih =>
    intro u hu
    have := lagVal_congr A f (Lec.eval A (E.set x p v) a) (Lec.eval A E a) u 1 (by omega) (fun j hj => ih j (by omega))
    simp [Lec.eval, evalFs_eq, allSome, tfnVal, hf, this]
  | @tfnLag f n m a hf hn hm _ ih =>
    intro u hu
    have := lagVal_congr A f (Lec.eval A (E.set x p v) a) (Lec.eval A E a) u n (by omega) (fun j hj => ih j (by omega))
    simp [Lec.eval, evalFs_eq, allSome, tfnVal, hf, hm.eval, hA.isNum, hA.ofInt, hA.toExact.intlag, this]

/-! ## Numbers -/

theorem num_bin (hA : RealMath A) {E : Env (Option ℝ)} {o : Op} {a b : Expr} {t : Int} {z : ℝ}
    (h : eval A E (.bin o a b) t = some (some z)) :
    ∃ u v : ℝ, eval A E a t = some (some u) ∧ eval A E b t = some (some v) ∧ A.bin o (some u) (some v) = some z := by
  rw [eval] at h
  split at h
  case h_2 => cases h
  case h_1 p q hp hq =>
    cases p <;> cases q <;> simp [hA.isNum, hA.na] at h
    exact ⟨_, _, hp, hq, h⟩

theorem bin_num (hA : RealMath A) {E : Env (Option ℝ)} {o : Op} {a b : Expr} {t : Int} {u v : ℝ}
    (h1 : eval A E a t = some (some u)) (h2 : eval A E b t = some (some v)) :
    eval A E (.bin o a b) t = some (A.bin o (some u) (some v)) := by
  rw [eval, h1, h2]; simp [hA.isNum]

/-- The functions of one argument in the solved forms. -/
def Fn.unary : Fn → Bool
  | .ln | .expn | .uplus | .uminus | .cos | .sin | .tan | .acos | .asin | .atan => true
  | _ => false

/-- Their values. -/
def Arith.un {F : Type} (A : Arith F) : Fn → F → F
  | .ln, v => A.logn v
  | .expn, v => A.expn [v]
  | .uplus, v => v
  | .uminus, v => A.neg v
  | .cos, v => A.prim .cos v
  | .sin, v => A.prim .sin v
  | .tan, v => A.prim .tan v
  | .acos, v => A.prim .acos v
  | .asin, v => A.prim .asin v
  | .atan, v => A.prim .atan v
  | _, v => v

theorem num_fn (hA : RealMath A) {E : Env (Option ℝ)} {f : Fn} (hf : f.unary = true) {a : Expr} {t : Int} {z : ℝ}
    (h : eval A E (.app (.fn f) [a]) t = some (some z)) :
    ∃ u : ℝ, eval A E a t = some (some u) ∧ A.un f (some u) = some z := by
  simp only [eval, evalFs_eq, List.map_cons, List.map_nil] at h
  cases ha : eval A E a t with
  | none => simp [ha, allSome] at h
  | some w =>
    cases w with
    | none => cases f <;> simp [Fn.unary] at hf <;> simp [ha, allSome, fnVal, hA.isNum, hA.na, Fn.acceptsNa] at h
    | some u =>
      refine ⟨u, rfl, ?_⟩
      cases f <;> simp [Fn.unary] at hf <;>
        simp [ha, allSome, fnVal, hA.isNum, Fn.acceptsNa, Arith.fnRev] at h <;> simpa [Arith.un] using h

theorem fn_num (hA : RealMath A) {E : Env (Option ℝ)} {f : Fn} (hf : f.unary = true) {a : Expr} {t : Int} {u : ℝ}
    (h : eval A E a t = some (some u)) : eval A E (.app (.fn f) [a]) t = some (A.un f (some u)) := by
  simp only [eval, evalFs_eq, List.map_cons, List.map_nil, h, allSome, Option.map_some, Option.bind_some]
  cases f <;> simp [Fn.unary] at hf <;> simp [fnVal, hA.isNum, Fn.acceptsNa, Arith.fnRev, Arith.un]

theorem logn_some (hA : RealMath A) {u z : ℝ} (h : A.logn (some u) = some z) : 0 < u ∧ z = Real.log u := by
  unfold Arith.logn Arith.le at h
  simp only [hA.isNum, Option.isSome_some, Bool.not_true, Bool.false_or, hA.ofInt, hA.lt, hA.eq, hA.na, Int.cast_zero] at h
  split at h
  · cases h
  · rename_i hn
    simp only [Bool.or_eq_true, decide_eq_true_eq, not_or, not_lt] at hn
    have : 0 < u := lt_of_le_of_ne hn.1 (fun h => hn.2 h.symm)
    rw [hA.log u this] at h
    exact ⟨this, by simpa using h.symm⟩

theorem logn_pos (hA : RealMath A) {u : ℝ} (h : 0 < u) : A.logn (some u) = some (Real.log u) := by
  unfold Arith.logn Arith.le
  simp only [hA.isNum, Option.isSome_some, Bool.not_true, Bool.false_or, hA.ofInt, hA.lt, hA.eq, Int.cast_zero]
  rw [if_neg, hA.log u h]
  simp only [Bool.or_eq_true, decide_eq_true_eq, not_or, not_lt]
  exact ⟨le_of_lt h, ne_of_gt h⟩

theorem expn_some (hA : RealMath A) {u z : ℝ} (h : A.expn [some u] = some z) : z = Real.exp u := by
  simp only [Arith.expn] at h
  split at h
  · split at h
    · rw [hA.exp] at h; simpa using h.symm
    · rw [hA.na] at h; cases h
  · rw [hA.na] at h; cases h

theorem divide_some (hA : RealMath A) {u v z : ℝ} (h : A.divide (some u) (some v) = some z) : v ≠ 0 ∧ z = u / v := by
  unfold Arith.divide at h
  simp only [hA.isNum, Option.isSome_some, Bool.not_true, Bool.false_or, hA.ofInt, hA.eq, hA.na, Int.cast_zero,
    decide_eq_true_eq] at h
  split at h
  · cases h
  · rename_i hn
    rw [hA.div _ _ hn] at h
    exact ⟨hn, by simpa using h.symm⟩

theorem divide_ne (hA : RealMath A) {u v : ℝ} (h : v ≠ 0) : A.divide (some u) (some v) = some (u / v) := by
  unfold Arith.divide
  simp [hA.isNum, hA.ofInt, hA.eq, h, hA.div]

/-! ## Formulas with a value everywhere -/

/-- Ordinary functions of one argument that are defined (perhaps NA) for every number. -/
def Fn.calc1 : Fn → Bool
  | .ln | .expn | .uplus | .uminus | .cos | .sin | .tan | .acos | .asin | .atan | .sqrt | .abs | .not | .sign => true
  | _ => false

/-- Functions of any number of arguments. -/
def Fn.calcN : Fn → Bool
  | .max | .min | .lsum | .lprod => true
  | _ => false

/-- Formulas made of operands, operators, these functions, and `l`, `d`, `r`, `dln`, `grt`, `ma` with a literal lag applied
to an operand or to such a function of one argument. -/
inductive Calc : Expr → Prop where
  | cst (k) : Calc (.cst k)
  | val (v) : Calc (.val v)
  | var (x l p) : Calc (.var x l p)
  | coef (x) : Calc (.coef x)
  | par {e} : Calc e → Calc (.par e)
  | bin (o) {a b} : Calc a → Calc b → Calc (.bin o a b)
  | fn {f a} : f.calc1 = true → Calc a → Calc (.app (.fn f) [a])
  | fns {f args} : f.calcN = true → (∀ a ∈ args, Calc a) → Calc (.app (.fn f) args)
  | tfn {f a} : f.lagged = true → Calc a → Tight a → Calc (.app (.tfn f) [a])
  | tfnLag {f n m a} : f.lagged = true → Lit n m → Calc a → Tight a → Calc (.app (.tfn f) [m, a])

theorem Lit.plain {n : Int} {m : Expr} (h : Lit n m) : Plain m := by
  induction h with
  | cst => exact .cst _
  | par _ ih => exact .par ih

theorem Lit.simple {F : Type} {n : Int} {m : Expr} (h : Lit n m) (A : Arith F) (E : Env F) : Simple A E m := by
  induction h with
  | cst => exact .cst _
  | par _ ih => exact .par ih

theorem Calc.simple {F : Type} {e : Expr} (h : Calc e) (A : Arith F) (E : Env F) : Simple A E e := by
  induction h with
  | cst k => exact .cst k
  | val k => exact .val k
  | var x l p => exact .var x l p
  | coef x => exact .coef x
  | par _ ih => exact .par ih
  | bin o _ _ iha ihb => exact .bin o iha ihb
  | @fn f a hf _ ih =>
    refine .fn (by cases f <;> simp [Fn.calc1] at hf <;> rfl) ?_
    intro b hb; rw [List.mem_singleton.1 hb]; exact ih
  | @fns f args hf _ ih => exact .fn (by cases f <;> simp [Fn.calcN] at hf <;> rfl) ih
  | @tfn f a hf _ ht ih =>
    exact Simple.tfn (opts := []) (by simp) (by simp) ih ht
  | @tfnLag f n m a hf hm _ ht ih =>
    refine Simple.tfn (opts := [m]) ?_ ?_ ih ht
    · intro b hb; rw [List.mem_singleton.1 hb]; exact hm.simple A E
    · intro b hb; rw [List.mem_singleton.1 hb]; exact hm.plain

theorem allSome_total {F : Type} : ∀ os : List (Option F), (∀ o ∈ os, ∃ v, o = some v) → ∃ vs, allSome os = some vs
  | [], _ => ⟨[], rfl⟩
  | o :: os, h => by
    obtain ⟨v, rfl⟩ := h o (by simp)
    obtain ⟨vs, hv⟩ := allSome_total os (fun p hp => h p (by simp [hp]))
    exact ⟨v :: vs, by simp [allSome, hv]⟩

theorem lagVal_total {F : Type} (A : Arith F) {f : TFn} (hf : f.lagged = true) (body : Int → Option F)
    (h : ∀ u, ∃ v, body u = some v) (t lag : Int) : ∃ v, lagVal A f body t lag = some v := by
  have h2 : ∀ g, ∃ v, lagVal.two A body t lag g = some v := by
    intro g
    obtain ⟨v1, h1⟩ := h t
    obtain ⟨v2, h2⟩ := h (t - lag)
    simp only [lagVal.two, h1, h2]
    split <;> exact ⟨_, rfl⟩
  have h3 : ∀ (us : List Int) (s : F), ∃ v, foldVals A A.add (us.map body) s = some v := by
    intro us
    induction us with
    | nil => intro s; exact ⟨_, rfl⟩
    | cons u us ih =>
      intro s
      obtain ⟨v, hv⟩ := h u
      simp only [List.map_cons, hv, foldVals]
      split
      · exact ih _
      · exact ⟨_, rfl⟩
  cases f <;> simp [TFn.lagged] at hf <;> simp only [lagVal]
  case lag => exact h _
  case diff => exact h2 _
  case rapp => exact h2 _
  case dln => exact h2 _
  case grt => obtain ⟨v, hv⟩ := h2 (fun a b => A.divide a b); exact ⟨_, by rw [hv]; rfl⟩
  case mavg =>
    obtain ⟨v, hv⟩ := h3 (downFrom t (if lag < 1 then 1 else lag)) (A.ofInt 0)
    exact ⟨_, by rw [hv]; rfl⟩

theorem eval_tfn {F : Type} (A : Arith F) (E : Env F) {f : TFn} (hf : f.lagged = true) (a : Expr) (t : Int) :
    eval A E (.app (.tfn f) [a]) t = lagVal A f (eval A E a) t 1 := by
  simp [eval, evalFs_eq, allSome, tfnVal, hf]

theorem eval_tfnLag (hA : RealMath A) (E : Env (Option ℝ)) {f : TFn} (hf : f.lagged = true) {n : Int} {m : Expr}
    (hm : Lit n m) (a : Expr) (t : Int) : eval A E (.app (.tfn f) [m, a]) t = lagVal A f (eval A E a) t n := by
  simp [eval, evalFs_eq, allSome, tfnVal, hf, hm.eval, hA.isNum, hA.ofInt, hA.toExact.intlag]

theorem ite_some {α : Type} (c : Prop) [Decidable c] (a b : α) : ∃ v, (if c then some a else some b) = some v := by
  by_cases h : c
  · exact ⟨a, if_pos h⟩
  · exact ⟨b, if_neg h⟩

theorem Calc.total (hA : RealMath A) {e : Expr} (h : Calc e) (E : Env (Option ℝ)) : ∀ t, ∃ v, eval A E e t = some v := by
  induction h with
  | cst k => intro t; cases k <;> simp only [eval] <;> exact ⟨_, rfl⟩
  | val k => intro t; simp only [eval]; exact ⟨_, rfl⟩
  | var x l p => intro t; cases p <;> simp only [eval] <;> exact ⟨_, rfl⟩
  | coef x => intro t; simp only [eval]; exact ⟨_, rfl⟩
  | par _ ih => intro t; simpa only [eval] using ih t
  | bin o _ _ iha ihb =>
    intro t
    obtain ⟨u, hu⟩ := iha t
    obtain ⟨v, hv⟩ := ihb t
    exact ⟨_, by rw [eval, hu, hv]⟩
  | @fn f a hf _ ih =>
    intro t
    obtain ⟨u, hu⟩ := ih t
    simp only [eval, evalFs_eq, List.map_cons, List.map_nil, hu, allSome, Option.map_some, Option.bind_some]
    cases f <;> simp [Fn.calc1] at hf <;> simp only [fnVal, Fn.acceptsNa] <;>
      simp only [reduceCtorEq, if_false, Arith.fnRev, List.reverse_cons, List.reverse_nil, List.nil_append] <;>
      exact ite_some _ _ _
  | @fns f args hf _ ih =>
    intro t
    obtain ⟨vs, hv⟩ := allSome_total ((evalFs A E args).map (· t)) (by
      intro o ho
      rw [evalFs_eq] at ho
      simp only [List.map_map, List.mem_map, Function.comp] at ho
      obtain ⟨a, ha, rfl⟩ := ho
      exact ih a ha t)
    simp only [eval, hv, Option.bind_some]
    cases f <;> simp [Fn.calcN] at hf <;> simp only [fnVal, Fn.acceptsNa] <;>
      simp only [reduceCtorEq, if_false, Arith.fnRev] <;> exact ite_some _ _ _
  | @tfn f a hf _ _ ih => intro t; rw [eval_tfn A E hf]; exact lagVal_total A hf _ ih t 1
  | @tfnLag f n m a hf hm _ _ ih => intro t; rw [eval_tfnLag hA E hf hm]; exact lagVal_total A hf _ ih t n

/-! ## Occurrences -/

theorem occ_par (x : Name) (e : Expr) : occ x (.par e) = occ x e := by
  simp [occ, countEndo, atomsOf, isEndo]

theorem occ_bin (x : Name) (o : Op) (a b : Expr) : occ x (.bin o a b) = occ x a + occ x b := by
  simp [occ, countEndo, atomsOf, isEndo, Nat.add_assoc]

theorem occ_app1 (x : Name) (f : Fun) (a : Expr) : occ x (.app f [a]) = occ x a := by
  simp [occ, countEndo, atomsOf, atomsOfL, isEndo]

theorem occ_app2 (x : Name) (f : Fun) (a b : Expr) : occ x (.app f [a, b]) = occ x a + occ x b := by
  simp [occ, countEndo, atomsOf, atomsOfL, isEndo]

theorem occ_app (x : Name) (f : Fun) (args : List Expr) (h : ∀ a ∈ args, occ x a = 0) : occ x (.app f args) = 0 := by
  have : ∀ es : List Expr, (∀ a ∈ es, occ x a = 0) → countEndo x (atomsOfL es) = 0 := by
    intro es
    induction es with
    | nil => intro _; rfl
    | cons e es ih =>
      intro h
      have h1 := h e (by simp)
      have h2 := ih (fun a ha => h a (by simp [ha]))
      simp only [occ, countEndo] at h1 h2
      simp [atomsOfL, countEndo, h1, h2]
  have h' := this args h
  simp only [countEndo] at h'
  simp [occ, countEndo, atomsOf, h', isEndo]

theorem occ_free {x : Name} : ∀ e : Expr, x ∉ varNames e → occ x e = 0 := by
  intro e
  induction e using Expr.ind with
  | hc k => intro _; rfl
  | hv k => intro _; rfl
  | hx y l q =>
    intro h
    have hy : ¬ y = x := by intro h'; simp [varNames, h'] at h
    cases q <;> simp [occ, countEndo, atomsOf, isEndo, hy]
  | hs y => intro _; rfl
  | hp e ih => intro h; rw [occ_par]; exact ih (by simpa [varNames] using h)
  | hb o a b iha ihb =>
    intro h
    simp only [varNames, List.mem_append, not_or] at h
    rw [occ_bin, iha h.1, ihb h.2]
  | ha f args ih =>
    intro h
    simp only [varNames] at h
    refine occ_app x f args ?_
    have hL : ∀ es : List Expr, x ∉ varNamesL es → ∀ a ∈ es, x ∉ varNames a := by
      intro es
      induction es with
      | nil => intro _ a ha; cases ha
      | cons e es ih =>
        intro h a ha
        simp only [varNamesL, List.mem_append, not_or] at h
        rcases List.mem_cons.1 ha with rfl | ha
        · exact h.1
        · exact ih h.2 a ha
    exact fun a ha => ih a ha (hL args h a ha)

theorem Lit.occ {n : Int} {m : Expr} (h : Lit n m) (x : Name) : occ x m = 0 := by
  induction h with
  | cst => rfl
  | par _ ih => rw [occ_par, ih]

theorem Back.occ {x : Name} {e : Expr} (h : Back 1 x e) : occ x e = 0 := by
  induction h with
  | free h => exact occ_free _ h
  | @var l hl =>
    have : ¬ l = 0 := by omega
    simp [Lec.occ, countEndo, atomsOf, isEndo, this]
  | par _ ih => rw [occ_par, ih]
  | bin o _ _ iha ihb => rw [occ_bin, iha, ihb]
  | fn f _ ih => exact occ_app _ _ _ ih
  | tfn _ _ ih => rw [occ_app1, ih]
  | tfnLag _ _ hm _ ih => rw [occ_app2, hm.occ, ih]

theorem Solvable.occ {fs : Fn → Bool} {pow : Bool} {x : Name} {e : Expr} (h : Solvable fs pow x e) : occ x e = 1 := by
  induction h with
  | var => simp [Lec.occ, countEndo, atomsOf, isEndo]
  | par _ ih => rw [occ_par, ih]
  | left _ _ hb _ ih => rw [occ_bin, ih, hb.occ]
  | right _ ha _ _ ih => rw [occ_bin, ih, ha.occ]
  | fn _ _ _ ih => rw [occ_app1, ih]
  | tfn _ _ _ ih => rw [occ_app1, ih]
  | tfnLag _ _ hm _ _ ih => rw [occ_app2, ih, hm.occ]

theorem Lit.back {n : Int} {m : Expr} (h : Lit n m) (k : Int) (x : Name) : Back k x m := by
  induction h with
  | cst => exact .free (by simp [varNames])
  | par _ ih => exact .par ih

theorem Back.mono {k j : Int} (hj : j ≤ k) {x : Name} {e : Expr} (h : Back k x e) : Back j x e := by
  induction h with
  | free h => exact .free h
  | var hl => exact .var (by omega)
  | par _ ih => exact .par ih
  | bin o _ _ iha ihb => exact .bin o iha ihb
  | fn f _ ih => exact .fn f ih
  | tfn hf _ ih => exact .tfn hf ih
  | tfnLag hf hn hm _ ih => exact .tfnLag hf hn hm ih

theorem TFn.invertible_lagged {f : TFn} (h : f.invertible = true) : f.lagged = true := by
  cases f <;> simp [TFn.invertible] at h <;> rfl

theorem Solvable.back {fs : Fn → Bool} {pow : Bool} {x : Name} {e : Expr} (h : Solvable fs pow x e) : Back 0 x e := by
  induction h with
  | var => exact .var (by omega)
  | par _ ih => exact .par ih
  | left _ _ hb _ ih => exact .bin _ ih (hb.mono (by omega))
  | right _ ha _ _ ih => exact .bin _ (ha.mono (by omega)) ih
  | fn _ _ _ ih => exact .fn _ (fun a ha => by rw [List.mem_singleton.1 ha]; exact ih)
  | tfn hf _ _ ih => exact .tfn (TFn.invertible_lagged hf) ih
  | tfnLag hf hn hm _ _ ih => exact .tfnLag (TFn.invertible_lagged hf) hn hm ih

theorem NoOpenCall.whole {e : Expr} (h : NoOpenCall e) : Whole e := by
  induction h with
  | cst k => exact .cst k
  | val k => exact .val k
  | var x l p => exact .var x l p
  | coef x => exact .coef x
  | par e => exact .par e
  | un f _ ih => exact .un f ih
  | bin o _ _ iha ihb => exact .bin o iha ihb

/-! ## One step -/

/-- What is done to the other side to undo `o b` behind the variable. -/
def undoL : Op → Expr → Expr → Expr
  | .plus, r, b => .bin .minus r b
  | .times, r, b => .bin .divide r b
  | .minus, r, b => .bin .plus r b
  | .divide, r, b => .bin .times r b
  | .exp, r, b => .app (.fn .expn) [.bin .divide (.app (.fn .ln) [r]) b]
  | _, r, _ => r

/-- What is done to the other side to undo `a o` in front of the variable. -/
def undoR : Op → Expr → Expr → Expr
  | .plus, r, a => .bin .minus r a
  | .times, r, a => .bin .divide r a
  | .minus, r, a => .bin .minus a r
  | .divide, r, a => .bin .divide a r
  | _, r, _ => r

variable {E E' : Env (Option ℝ)} {t : Int}

theorem left_onto (hA : RealMath A) {o : Op}
    (ho : o = .plus ∨ o = .minus ∨ o = .times ∨ o = .divide ∨ o = .exp) {a b r : Expr} {y : ℝ}
    (hb : eval A E' b t = eval A E b t) (h : eval A E' (.bin o a b) t = some (some y)) :
    ∃ u : ℝ, eval A E' a t = some (some u) ∧
      (eval A E (undoL o r b) t = some (some u) → eval A E r t = some (some y)) := by
  obtain ⟨u, v, h1, h2, h3⟩ := num_bin hA h
  rw [hb] at h2
  refine ⟨u, h1, fun hu => ?_⟩
  rcases ho with rfl | rfl | rfl | rfl | rfl
  · obtain ⟨w, v', h4, h5, h6⟩ := num_bin hA hu
    rw [h2] at h5
    simp only [Option.some.injEq] at h5
    simp only [Arith.bin, hA.add, hA.sub, Option.some.injEq] at h3 h6
    rw [h4]; congr 2; subst h5; linarith
  · obtain ⟨w, v', h4, h5, h6⟩ := num_bin hA hu
    rw [h2] at h5
    simp only [Option.some.injEq] at h5
    simp only [Arith.bin, hA.add, hA.sub, Option.some.injEq] at h3 h6
    rw [h4]; congr 2; subst h5; linarith
  · obtain ⟨w, v', h4, h5, h6⟩ := num_bin hA hu
    rw [h2] at h5
    simp only [Option.some.injEq] at h5
    simp only [Arith.bin, hA.mul, Option.some.injEq] at h3 h6
    obtain ⟨hn, h7⟩ := divide_some hA h6
    rw [h4]; congr 2; subst h5
    rw [← h3, h7]; field_simp
  · obtain ⟨w, v', h4, h5, h6⟩ := num_bin hA hu
    rw [h2] at h5
    simp only [Option.some.injEq] at h5
    simp only [Arith.bin, hA.mul, Option.some.injEq] at h3 h6
    obtain ⟨hn, h7⟩ := divide_some hA h3
    rw [h4]; congr 2; subst h5
    rw [h7, ← h6]; field_simp
  · obtain ⟨q, h4, h5⟩ := num_fn hA (f := .expn) rfl hu
    have h5 := expn_some hA h5
    obtain ⟨k, v', h6, h7, h8⟩ := num_bin hA h4
    rw [h2] at h7
    simp only [Option.some.injEq] at h7
    subst h7
    obtain ⟨w, h9, h10⟩ := num_fn hA (f := .ln) rfl h6
    obtain ⟨hw, h10⟩ := logn_some hA h10
    simp only [Arith.bin] at h8 h3
    obtain ⟨hv, h8⟩ := divide_some hA h8
    have hu0 : 0 < u := by rw [h5]; exact Real.exp_pos _
    rw [hA.pow u v hu0] at h3
    simp only [Option.some.injEq] at h3
    rw [h9]; congr 2
    rw [← h3, Real.rpow_def_of_pos hu0, h5, Real.log_exp, h8, h10, div_mul_cancel₀ _ hv, Real.exp_log hw]

theorem left_inj (hA : RealMath A) {o : Op} (ho : o = .plus ∨ o = .minus ∨ o = .times ∨ o = .divide) {a b r : Expr} {c : ℝ}
    (hb : eval A E' b t = eval A E b t) (h : eval A E' (.bin o a b) t = some (some c))
    (hr : eval A E r t = some (some c)) :
    ∃ u : ℝ, eval A E' a t = some (some u) ∧ ∀ q, eval A E (undoL o r b) t = some (some q) → q = u := by
  obtain ⟨u, v, h1, h2, h3⟩ := num_bin hA h
  rw [hb] at h2
  refine ⟨u, h1, fun q hu => ?_⟩
  rcases ho with rfl | rfl | rfl | rfl <;>
    (obtain ⟨w, v', h4, h5, h6⟩ := num_bin hA hu
     rw [h2] at h5
     rw [hr] at h4
     simp only [Option.some.injEq] at h4 h5
     subst h4 h5)
  · simp only [Arith.bin, hA.add, hA.sub, Option.some.injEq] at h3 h6
    linarith
  · simp only [Arith.bin, hA.add, hA.sub, Option.some.injEq] at h3 h6
    linarith
  · simp only [Arith.bin, hA.mul, Option.some.injEq] at h3 h6
    obtain ⟨hn, h7⟩ := divide_some hA h6
    rw [h7, ← h3]; field_simp
  · simp only [Arith.bin, hA.mul, Option.some.injEq] at h3 h6
    obtain ⟨hn, h7⟩ := divide_some hA h3
    rw [← h6, h7]; field_simp

theorem right_onto (hA : RealMath A) {o : Op} (ho : o = .plus ∨ o = .minus ∨ o = .times ∨ o = .divide) {a b r : Expr}
    {y : ℝ} (ha : eval A E' a t = eval A E a t) (h : eval A E' (.bin o a b) t = some (some y)) :
    ∃ v : ℝ, eval A E' b t = some (some v) ∧
      (eval A E (undoR o r a) t = some (some v) → eval A E r t = some (some y)) := by
  obtain ⟨u, v, h1, h2, h3⟩ := num_bin hA h
  rw [ha] at h1
  refine ⟨v, h2, fun hu => ?_⟩
  rcases ho with rfl | rfl | rfl | rfl <;> obtain ⟨w, v', h4, h5, h6⟩ := num_bin hA hu
  · rw [h1] at h5
    simp only [Option.some.injEq] at h5
    simp only [Arith.bin, hA.add, hA.sub, Option.some.injEq] at h3 h6
    rw [h4]; congr 2; subst h5; linarith
  · rw [h1] at h4
    simp only [Option.some.injEq] at h4
    simp only [Arith.bin, hA.add, hA.sub, Option.some.injEq] at h3 h6
    rw [h5]; congr 2; subst h4; linarith
  · rw [h1] at h5
    simp only [Option.some.injEq] at h5
    simp only [Arith.bin, hA.mul, Option.some.injEq] at h3 h6
    obtain ⟨hn, h7⟩ := divide_some hA h6
    rw [h4]; congr 2; subst h5
    rw [← h3, h7]; field_simp
  · rw [h1] at h4
    simp only [Option.some.injEq] at h4
    simp only [Arith.bin] at h3 h6
    obtain ⟨hn, h7⟩ := divide_some hA h3
    obtain ⟨hm, h8⟩ := divide_some hA h6
    rw [h5]; congr 2; subst h4
    have hu0 : u ≠ 0 := by intro h0; rw [h0] at h8; simp at h8; exact hn h8
    rw [h7, h8]; field_simp

theorem right_inj (hA : RealMath A) {o : Op} (ho : o = .plus ∨ o = .minus ∨ o = .times ∨ o = .divide) {a b r : Expr} {c : ℝ}
    (ha : eval A E' a t = eval A E a t) (h : eval A E' (.bin o a b) t = some (some c))
    (hr : eval A E r t = some (some c)) :
    ∃ v : ℝ, eval A E' b t = some (some v) ∧ ∀ q, eval A E (undoR o r a) t = some (some q) → q = v := by
  obtain ⟨u, v, h1, h2, h3⟩ := num_bin hA h
  rw [ha] at h1
  refine ⟨v, h2, fun q hu => ?_⟩
  rcases ho with rfl | rfl | rfl | rfl <;> obtain ⟨w, v', h4, h5, h6⟩ := num_bin hA hu
  · rw [h1] at h5; rw [hr] at h4
    simp only [Option.some.injEq] at h4 h5
    subst h4 h5
    simp only [Arith.bin, hA.add, hA.sub, Option.some.injEq] at h3 h6
    linarith
  · rw [h1] at h4; rw [hr] at h5
    simp only [Option.some.injEq] at h4 h5
    subst h4 h5
    simp only [Arith.bin, hA.add, hA.sub, Option.some.injEq] at h3 h6
    linarith
  · rw [h1] at h5; rw [hr] at h4
    simp only [Option.some.injEq] at h4 h5
    subst h4 h5
    simp only [Arith.bin, hA.mul, Option.some.injEq] at h3 h6
    obtain ⟨hn, h7⟩ := divide_some hA h6
    rw [h7, ← h3]; field_simp
  · rw [h1] at h4; rw [hr] at h5
    simp only [Option.some.injEq] at h4 h5
    subst h4 h5
    simp only [Arith.bin] at h3 h6
    obtain ⟨hn, h7⟩ := divide_some hA h3
    obtain ⟨hm, h8⟩ := divide_some hA h6
    have hu0 : u ≠ 0 := by intro h0; rw [h0] at h7; simp at h7; exact hm h7
    rw [h8, h7]; field_simp

theorem fn_onto (hA : RealMath A) {f : Fn} (hf : f.onto = true) {a r r1 : Expr} (hu : undoExpr f r = some r1) {y : ℝ}
    (h : eval A E' (.app (.fn f) [a]) t = some (some y)) :
    ∃ u : ℝ, eval A E' a t = some (some u) ∧ (eval A E r1 t = some (some u) → eval A E r t = some (some y)) := by
  obtain ⟨u, h1, h2⟩ := num_fn hA (by cases f <;> simp [Fn.onto] at hf <;> rfl) h
  refine ⟨u, h1, fun h3 => ?_⟩
  cases f <;> simp [Fn.onto] at hf <;> simp only [undoExpr, Option.some.injEq] at hu <;> subst hu <;>
    simp only [Arith.un] at h2
  case uplus => rw [h3, h2]
  all_goals
    obtain ⟨w, h4, h5⟩ := num_fn hA (by rfl) h3
    simp only [Arith.un] at h5
    rw [h4]; congr 2
  case uminus =>
    rw [hA.neg] at h2 h5
    simp only [Option.some.injEq] at h2 h5
    linarith
  case cos =>
    rw [hA.acos] at h5
    split at h5
    case isTrue hw =>
      simp only [Option.some.injEq] at h5
      rw [hA.cos] at h2
      simp only [Option.some.injEq] at h2
      rw [← h2, ← h5, Real.cos_arccos hw.1 hw.2]
    case isFalse => cases h5
  case sin =>
    rw [hA.asin] at h5
    split at h5
    case isTrue hw =>
      simp only [Option.some.injEq] at h5
      rw [hA.sin] at h2
      simp only [Option.some.injEq] at h2
      rw [← h2, ← h5, Real.sin_arcsin hw.1 hw.2]
    case isFalse => cases h5
  case ln =>
    have h5 := expn_some hA h5
    obtain ⟨_, h2⟩ := logn_some hA h2
    rw [h2, h5, Real.log_exp]
  case expn =>
    have h2 := expn_some hA h2
    obtain ⟨hw, h5⟩ := logn_some hA h5
    rw [h2, h5, Real.exp_log hw]
  case tan =>
    rw [hA.atan] at h5
    simp only [Option.some.injEq] at h5
    rw [← h5, hA.tan _ (ne_of_gt (Real.cos_arctan_pos w)), Real.tan_arctan] at h2
    simpa using h2

theorem fn_inj (hA : RealMath A) {f : Fn} (hf : f.oneToOne = true) {a r r1 : Expr} (hu : undoExpr f r = some r1) {c : ℝ}
    (h : eval A E' (.app (.fn f) [a]) t = some (some c)) (hr : eval A E r t = some (some c)) :
    ∃ u : ℝ, eval A E' a t = some (some u) ∧ ∀ q, eval A E r1 t = some (some q) → q = u := by
  obtain ⟨u, h1, h2⟩ := num_fn hA (by cases f <;> simp [Fn.oneToOne] at hf <;> rfl) h
  refine ⟨u, h1, fun q h3 => ?_⟩
  cases f <;> simp [Fn.oneToOne] at hf <;> simp only [undoExpr, Option.some.injEq] at hu <;> subst hu <;>
    simp only [Arith.un] at h2
  case uplus => rw [hr] at h3; simp only [Option.some.injEq] at h2 h3; rw [← h3, h2]
  all_goals
    obtain ⟨w, h4, h5⟩ := num_fn hA (by rfl) h3
    simp only [Arith.un] at h5
    rw [hr] at h4
    simp only [Option.some.injEq] at h4
    subst h4
  case uminus =>
    rw [hA.neg] at h2 h5
    simp only [Option.some.injEq] at h2 h5
    linarith
  case acos =>
    rw [hA.acos] at h2
    split at h2
    case isTrue hw =>
      simp only [Option.some.injEq] at h2
      rw [hA.cos] at h5
      simp only [Option.some.injEq] at h5
      rw [← h5, ← h2, Real.cos_arccos hw.1 hw.2]
    case isFalse => cases h2
  case asin =>
    rw [hA.asin] at h2
    split at h2
    case isTrue hw =>
      simp only [Option.some.injEq] at h2
      rw [hA.sin] at h5
      simp only [Option.some.injEq] at h5
      rw [← h5, ← h2, Real.sin_arcsin hw.1 hw.2]
    case isFalse => cases h2
  case ln =>
    have h5 := expn_some hA h5
    obtain ⟨hw, h2⟩ := logn_some hA h2
    rw [h5, h2, Real.exp_log hw]
  case expn =>
    have h2 := expn_some hA h2
    obtain ⟨hw, h5⟩ := logn_some hA h5
    rw [h5, h2, Real.log_exp]
  case atan =>
    rw [hA.atan] at h2
    simp only [Option.some.injEq] at h2
    rw [← h2, hA.tan _ (ne_of_gt (Real.cos_arctan_pos u)), Real.tan_arctan] at h5
    simpa using h5.symm

/-- Values of the invertible time functions. -/
def TFn.rel : TFn → ℝ → ℝ → ℝ → Prop
  | .diff, y, u, v => y = u - v
  | .rapp, y, u, v => v ≠ 0 ∧ y = u / v
  | .dln, y, u, v => v ≠ 0 ∧ 0 < u / v ∧ y = Real.log (u / v)
  | .grt, y, u, v => v ≠ 0 ∧ y = (u / v - 1) * 100
  | _, _, _, _ => False

theorem num_lag (hA : RealMath A) {f : TFn} (hf : f.invertible = true) {body : Int → Option (Option ℝ)} {n : Int} {y : ℝ}
    (h : lagVal A f body t n = some (some y)) :
    ∃ u v : ℝ, body t = some (some u) ∧ body (t - n) = some (some v) ∧ f.rel y u v := by
  have two : ∀ (g : Option ℝ → Option ℝ → Option ℝ) (w : Option ℝ), lagVal.two A body t n g = some w → w ≠ none →
      ∃ u v : ℝ, body t = some (some u) ∧ body (t - n) = some (some v) ∧ g (some u) (some v) = w := by
    intro g w hw hn
    unfold lagVal.two at hw
    split at hw
    · cases hw
    · rename_i v1 h1
      cases v1 with
      | none => simp [hA.isNum, hA.na] at hw; exact absurd hw.symm (by simpa using hn)
      | some u =>
        simp only [hA.isNum, Option.isSome_some, if_true] at hw
        split at hw
        · cases hw
        · rename_i v2 h2
          cases v2 with
          | none => simp [hA.na] at hw; exact absurd hw.symm (by simpa using hn)
          | some v => exact ⟨u, v, h1, h2, by simpa using hw⟩
  cases f <;> simp [TFn.invertible] at hf <;> simp only [lagVal] at h
  case diff =>
    obtain ⟨u, v, h1, h2, h3⟩ := two _ _ h (by simp)
    rw [hA.sub] at h3
    simp only [Option.some.injEq] at h3
    exact ⟨u, v, h1, h2, h3.symm⟩
  case rapp =>
    obtain ⟨u, v, h1, h2, h3⟩ := two _ _ h (by simp)
    exact ⟨u, v, h1, h2, divide_some hA h3⟩
  case dln =>
    obtain ⟨u, v, h1, h2, h3⟩ := two _ _ h (by simp)
    cases hd : A.divide (some u) (some v) with
    | none => rw [hd] at h3; simp [Arith.logn, hA.isNum, hA.na] at h3
    | some q =>
      rw [hd] at h3
      obtain ⟨hv, hq⟩ := divide_some hA hd
      obtain ⟨hp, hl⟩ := logn_some hA h3
      subst hq
      exact ⟨u, v, h1, h2, hv, hp, hl⟩
  case grt =>
    simp only [Option.map_eq_some_iff] at h
    obtain ⟨w, h, hw⟩ := h
    cases w with
    | none => simp [Arith.growth, hA.isNum, hA.na] at hw
    | some q =>
      obtain ⟨u, v, h1, h2, h3⟩ := two _ _ h (by simp)
      obtain ⟨hv, hq⟩ := divide_some hA h3
      simp only [Arith.growth, hA.isNum, Option.isSome_some, if_true, hA.ofInt, hA.sub, hA.mul, Option.some.injEq] at hw
      refine ⟨u, v, h1, h2, hv, ?_⟩
      rw [← hq, ← hw]; norm_num

theorem tfn_onto (hA : RealMath A) {f : TFn} (hf : f.invertible = true) {r r1 lag : Expr} {y u v : ℝ}
    (hu : undoTfn f r lag = some r1) (hl : eval A E lag t = some (some v)) (hr : f.rel y u v)
    (h : eval A E r1 t = some (some u)) : eval A E r t = some (some y) := by
  cases f <;> simp [TFn.invertible] at hf <;> simp only [undoTfn, Option.some.injEq] at hu <;> subst hu <;>
    simp only [TFn.rel] at hr
  case diff =>
    obtain ⟨w, v', h4, h5, h6⟩ := num_bin hA h
    rw [hl] at h5
    simp only [Option.some.injEq] at h5
    simp only [Arith.bin, hA.add, Option.some.injEq] at h6
    rw [h4]; congr 2; subst h5; linarith
  case rapp =>
    obtain ⟨w, v', h4, h5, h6⟩ := num_bin hA h
    rw [hl] at h5
    simp only [Option.some.injEq] at h5
    simp only [Arith.bin, hA.mul, Option.some.injEq] at h6
    obtain ⟨hv, hr⟩ := hr
    rw [h4]; congr 2; subst h5
    rw [hr, ← h6]; field_simp
  case dln =>
    obtain ⟨q, h1, h2⟩ := num_fn hA (by rfl) h
    have h2 := expn_some hA h2
    obtain ⟨w, k, h4, h5, h6⟩ := num_bin hA h1
    obtain ⟨v', h7, h8⟩ := num_fn hA (by rfl) h5
    rw [hl] at h7
    simp only [Option.some.injEq] at h7
    subst h7
    obtain ⟨hv, h8⟩ := logn_some hA h8
    simp only [Arith.bin, hA.add, Option.some.injEq] at h6
    obtain ⟨_, hp, hr⟩ := hr
    rw [h4]; congr 2
    rw [hr, h2, Real.log_div (ne_of_gt (Real.exp_pos _)) (ne_of_gt hv), Real.log_exp, ← h6, h8]; ring
  case grt =>
    obtain ⟨q, v', h4, h5, h6⟩ := num_bin hA h
    rw [hl] at h5
    simp only [Option.some.injEq] at h5
    subst h5
    obtain ⟨p, one, h7, h8, h9⟩ := num_bin hA h4
    obtain ⟨w, hun, h10, h11, h12⟩ := num_bin hA h7
    simp only [eval, hA.ofInt, Option.some.injEq] at h8 h11
    simp only [Arith.bin, hA.add, hA.mul, Option.some.injEq] at h6 h9 h12
    obtain ⟨_, h12⟩ := divide_some hA h12
    obtain ⟨hv, hr⟩ := hr
    rw [h10]; congr 2
    rw [hr, ← h6, ← h9, h12, ← h8, ← h11]; push_cast; field_simp; ring

theorem tfn_inj (hA : RealMath A) {f : TFn} (hf : f.invertible = true) {r r1 lag : Expr} {c u v q : ℝ}
    (hu : undoTfn f r lag = some r1) (hl : eval A E lag t = some (some v)) (hr : f.rel c u v)
    (hc : eval A E r t = some (some c)) (h : eval A E r1 t = some (some q)) : q = u := by
  cases f <;> simp [TFn.invertible] at hf <;> simp only [undoTfn, Option.some.injEq] at hu <;> subst hu <;>
    simp only [TFn.rel] at hr
  case diff =>
    obtain ⟨w, v', h4, h5, h6⟩ := num_bin hA h
    rw [hl] at h5; rw [hc] at h4
    simp only [Option.some.injEq] at h4 h5
    simp only [Arith.bin, hA.add, Option.some.injEq] at h6
    subst h4 h5; linarith
  case rapp =>
    obtain ⟨w, v', h4, h5, h6⟩ := num_bin hA h
    rw [hl] at h5; rw [hc] at h4
    simp only [Option.some.injEq] at h4 h5
    simp only [Arith.bin, hA.mul, Option.some.injEq] at h6
    obtain ⟨hv, hr⟩ := hr
    subst h4 h5
    rw [← h6, hr]; field_simp
  case dln =>
    obtain ⟨p, h1, h2⟩ := num_fn hA (by rfl) h
    have h2 := expn_some hA h2
    obtain ⟨w, k, h4, h5, h6⟩ := num_bin hA h1
    obtain ⟨v', h7, h8⟩ := num_fn hA (by rfl) h5
    rw [hl] at h7; rw [hc] at h4
    simp only [Option.some.injEq] at h4 h7
    subst h4 h7
    obtain ⟨hv, h8⟩ := logn_some hA h8
    simp only [Arith.bin, hA.add, Option.some.injEq] at h6
    obtain ⟨_, hp, hr⟩ := hr
    rw [h2, ← h6, hr, h8, Real.exp_add, Real.exp_log hp, Real.exp_log hv]; field_simp
  case grt =>
    obtain ⟨p, v', h4, h5, h6⟩ := num_bin hA h
    rw [hl] at h5
    simp only [Option.some.injEq] at h5
    subst h5
    obtain ⟨k, one, h7, h8, h9⟩ := num_bin hA h4
    obtain ⟨w, hun, h10, h11, h12⟩ := num_bin hA h7
    rw [hc] at h10
    simp only [eval, hA.ofInt, Option.some.injEq] at h8 h10 h11
    simp only [Arith.bin, hA.add, hA.mul, Option.some.injEq] at h6 h9 h12
    obtain ⟨_, h12⟩ := divide_some hA h12
    obtain ⟨hv, hr⟩ := hr
    rw [← h6, ← h9, h12, ← h10, ← h8, ← h11, hr]; push_cast; field_simp; ring

/-! ## All the steps -/

theorem undoExpr_num (hA : RealMath A) {f : Fn} {r r1 : Expr} (hu : undoExpr f r = some r1) {q : ℝ}
    (h : eval A E r1 t = some (some q)) : ∃ w : ℝ, eval A E r t = some (some w) := by
  cases f <;> simp only [undoExpr, Option.some.injEq, reduceCtorEq] at hu <;> subst hu
  case uplus => exact ⟨q, h⟩
  all_goals
    obtain ⟨w, h1, _⟩ := num_fn hA (by rfl) h
    exact ⟨w, h1⟩

theorem undoTfn_num (hA : RealMath A) {f : TFn} {r r1 lag : Expr} (hu : undoTfn f r lag = some r1) {q : ℝ}
    (h : eval A E r1 t = some (some q)) :
    (∃ w : ℝ, eval A E r t = some (some w)) ∧ ∃ v : ℝ, eval A E lag t = some (some v) := by
  cases f <;> simp only [undoTfn, Option.some.injEq, reduceCtorEq] at hu <;> subst hu
  case diff => obtain ⟨w, v, h1, h2, _⟩ := num_bin hA h; exact ⟨⟨w, h1⟩, ⟨v, h2⟩⟩
  case rapp => obtain ⟨w, v, h1, h2, _⟩ := num_bin hA h; exact ⟨⟨w, h1⟩, ⟨v, h2⟩⟩
  case dln =>
    obtain ⟨p, h1, _⟩ := num_fn hA (by rfl) h
    obtain ⟨w, v, h2, h3, _⟩ := num_bin hA h1
    obtain ⟨v, h4, _⟩ := num_fn hA (by rfl) h3
    exact ⟨⟨w, h2⟩, ⟨v, h4⟩⟩
  case grt =>
    obtain ⟨p, v, h1, h2, _⟩ := num_bin hA h
    obtain ⟨k, _, h3, _, _⟩ := num_bin hA h1
    obtain ⟨w, _, h4, _, _⟩ := num_bin hA h3
    exact ⟨⟨w, h4⟩, ⟨v, h2⟩⟩

/-- If the solved form is a number so is what it was made of. -/
theorem Solves.num (hA : RealMath A) {x : Name} {e r r' : Expr} (h : Solves x e r r') : ∀ {z : ℝ},
    eval A E r' t = some (some z) → ∃ w : ℝ, eval A E r t = some (some w) := by
  induction h with
  | var r => intro z hz; exact ⟨z, hz⟩
  | par _ ih => exact fun hz => ih hz
  | plusL _ _ _ ih | timesL _ _ _ ih | minusL _ _ _ ih | divideL _ _ _ ih | plusR _ _ _ ih | timesR _ _ _ ih =>
    intro z hz
    obtain ⟨w, hw⟩ := ih hz
    obtain ⟨u, _, h1, _, _⟩ := num_bin hA hw
    exact ⟨u, h1⟩
  | minusR _ _ _ ih | divideR _ _ _ ih =>
    intro z hz
    obtain ⟨w, hw⟩ := ih hz
    obtain ⟨_, u, _, h1, _⟩ := num_bin hA hw
    exact ⟨u, h1⟩
  | expL _ _ _ ih =>
    intro z hz
    obtain ⟨w, hw⟩ := ih hz
    obtain ⟨_, h1, _⟩ := num_fn hA (by rfl) hw
    obtain ⟨_, _, h2, _, _⟩ := num_bin hA h1
    obtain ⟨u, h3, _⟩ := num_fn hA (by rfl) h2
    exact ⟨u, h3⟩
  | fn _ hu _ ih =>
    intro z hz
    obtain ⟨w, hw⟩ := ih hz
    exact undoExpr_num hA hu hw
  | tfn _ hu _ ih =>
    intro z hz
    obtain ⟨w, hw⟩ := ih hz
    exact (undoTfn_num hA hu hw).1
  | tfn2 _ _ hu _ ih =>
    intro z hz
    obtain ⟨w, hw⟩ := ih hz
    exact (undoTfn_num hA hu hw).1

theorem Solves.left {x : Name} {o : Op} (ho : o = .plus ∨ o = .minus ∨ o = .times ∨ o = .divide ∨ o = .exp)
    {a b r r' : Expr} (h1 : 0 < occ x a) (h2 : Whole b) (h : Solves x a (undoL o r b) r') : Solves x (.bin o a b) r r' := by
  rcases ho with rfl | rfl | rfl | rfl | rfl
  · exact .plusL h1 h2 h
  · exact .minusL h1 h2 h
  · exact .timesL h1 h2 h
  · exact .divideL h1 h2 h
  · exact .expL h1 h2 h

theorem Solves.right {x : Name} {o : Op} (ho : o = .plus ∨ o = .minus ∨ o = .times ∨ o = .divide)
    {a b r r' : Expr} (h1 : occ x a = 0) (h2 : Whole b) (h : Solves x b (undoR o r a) r') : Solves x (.bin o a b) r r' := by
  rcases ho with rfl | rfl | rfl | rfl
  · exact .plusR h1 h2 h
  · exact .minusR h1 h2 h
  · exact .timesR h1 h2 h
  · exact .divideR h1 h2 h

theorem undoTfn_some {f : TFn} (hf : f.invertible = true) (r l : Expr) : ∃ r1, undoTfn f r l = some r1 := by
  cases f <;> simp [TFn.invertible] at hf <;> exact ⟨_, rfl⟩

theorem eval_set_self (A : Arith (Option ℝ)) (E : Env (Option ℝ)) (x : Name) (ht : 0 ≤ t ∧ t < E.nb) (v : Option ℝ) :
    eval A (E.set x t v) (.var x 0 none) t = some v := by
  simp only [eval, Env.at, Env.set, Int.add_zero]
  simp [ht.1, not_lt.2 ht.1, not_le.2 ht.2, ht.2]

/-- The solved value is a root. -/
theorem solve_onto (hA : RealMath A) {x : Name} {e : Expr} (h : Solvable Fn.onto true x e) (ht : 0 ≤ t ∧ t < E.nb) :
    ∀ r, ∃ r', Solves x e r r' ∧ ∀ z y : ℝ, eval A E r' t = some (some z) →
      eval A (E.set x t (some z)) e t = some (some y) → eval A E r t = some (some y) := by
  induction h with
  | var =>
    intro r
    refine ⟨r, .var r, fun z y hz hy => ?_⟩
    rw [eval_set_self A E x ht] at hy
    rw [hz]; exact hy
  | par _ ih =>
    intro r
    obtain ⟨r', h1, h2⟩ := ih r
    exact ⟨r', .par h1, fun z y hz hy => h2 z y hz (by simpa only [eval] using hy)⟩
  | @left o a b ho ha hb hn ih =>
    intro r
    have ho : o = .plus ∨ o = .minus ∨ o = .times ∨ o = .divide ∨ o = .exp := by simpa using ho
    obtain ⟨r', h1, h2⟩ := ih (undoL o r b)
    refine ⟨r', .left ho (by rw [ha.occ]; omega) hn.whole h1, fun z y hz hy => ?_⟩
    obtain ⟨u, h3, h4⟩ := left_onto (r := r) hA ho (hb.eval hA E t (some z) t (by omega)) hy
    exact h4 (h2 z u hz h3)
  | @right o a b ho ha _ hn ih =>
    intro r
    obtain ⟨r', h1, h2⟩ := ih (undoR o r a)
    refine ⟨r', .right ho ha.occ hn.whole h1, fun z y hz hy => ?_⟩
    obtain ⟨u, h3, h4⟩ := right_onto (r := r) hA ho (ha.eval hA E t (some z) t (by omega)) hy
    exact h4 (h2 z u hz h3)
  | @fn f a hf _ hn ih =>
    intro r
    have : ∃ r1, undoExpr f r = some r1 := by cases f <;> simp [Fn.onto] at hf <;> exact ⟨_, rfl⟩
    obtain ⟨r1, hr1⟩ := this
    obtain ⟨r', h1, h2⟩ := ih r1
    refine ⟨r', .fn hn.whole hr1 h1, fun z y hz hy => ?_⟩
    obtain ⟨u, h3, h4⟩ := fn_onto (E := E) hA hf hr1 hy
    exact h4 (h2 z u hz h3)
  | @tfn f a hf ha hn ih =>
    intro r
    obtain ⟨r1, hr1⟩ := undoTfn_some hf r (.app (.tfn .lag) [a])
    obtain ⟨r', h1, h2⟩ := ih r1
    refine ⟨r', .tfn hn.whole hr1 h1, fun z y hz hy => ?_⟩
    rw [eval_tfn A _ (TFn.invertible_lagged hf)] at hy
    obtain ⟨u, v, h3, h4, h5⟩ := num_lag hA hf hy
    rw [ha.back.eval hA E t (some z) (t - 1) (by omega)] at h4
    exact tfn_onto hA hf hr1 (by rw [eval_tfn A E rfl]; simpa only [lagVal] using h4) h5 (h2 z u hz h3)
  | @tfnLag f n m a hf hn1 hm ha hn ih =>
    intro r
    obtain ⟨r1, hr1⟩ := undoTfn_some hf r (.app (.tfn .lag) [m, a])
    obtain ⟨r', h1, h2⟩ := ih r1
    refine ⟨r', .tfn2 (hm.occ x) hn.whole hr1 h1, fun z y hz hy => ?_⟩
    rw [eval_tfnLag hA _ (TFn.invertible_lagged hf) hm] at hy
    obtain ⟨u, v, h3, h4, h5⟩ := num_lag hA hf hy
    rw [ha.back.eval hA E t (some z) (t - n) (by omega)] at h4
    exact tfn_onto hA hf hr1 (by rw [eval_tfnLag hA E rfl hm]; simpa only [lagVal] using h4) h5 (h2 z u hz h3)

/-- The solved value is the only root. -/
theorem solve_inj (hA : RealMath A) {x : Name} {e : Expr} (h : Solvable Fn.oneToOne false x e) (ht : 0 ≤ t ∧ t < E.nb) :
    ∀ r, ∃ r', Solves x e r r' ∧ ∀ z y c : ℝ, eval A E r' t = some (some z) →
      eval A (E.set x t (some y)) e t = some (some c) → eval A E r t = some (some c) → z = y := by
  induction h with
  | var =>
    intro r
    refine ⟨r, .var r, fun z y c hz hy hc => ?_⟩
    rw [eval_set_self A E x ht] at hy
    rw [hz] at hc
    simp only [Option.some.injEq] at hy hc
    rw [hy, hc]
  | par _ ih =>
    intro r
    obtain ⟨r', h1, h2⟩ := ih r
    exact ⟨r', .par h1, fun z y c hz hy => h2 z y c hz (by simpa only [eval] using hy)⟩
  | @left o a b ho ha hb hn ih =>
    intro r
    have ho' : o = .plus ∨ o = .minus ∨ o = .times ∨ o = .divide := by simpa using ho
    have ho : o = .plus ∨ o = .minus ∨ o = .times ∨ o = .divide ∨ o = .exp := by
      rcases ho' with h | h | h | h <;> simp [h]
    obtain ⟨r', h1, h2⟩ := ih (undoL o r b)
    refine ⟨r', .left ho (by rw [ha.occ]; omega) hn.whole h1, fun z y c hz hy hc => ?_⟩
    obtain ⟨u, h3, h4⟩ := left_inj hA ho' (hb.eval hA E t (some y) t (by omega)) hy hc
    obtain ⟨q, hq⟩ := h1.num hA hz
    have := h4 q hq
    subst this
    exact h2 z y q hz h3 hq
  | @right o a b ho ha _ hn ih =>
    intro r
    obtain ⟨r', h1, h2⟩ := ih (undoR o r a)
    refine ⟨r', .right ho ha.occ hn.whole h1, fun z y c hz hy hc => ?_⟩
    obtain ⟨u, h3, h4⟩ := right_inj hA ho (ha.eval hA E t (some y) t (by omega)) hy hc
    obtain ⟨q, hq⟩ := h1.num hA hz
    have := h4 q hq
    subst this
    exact h2 z y q hz h3 hq
  | @fn f a hf _ hn ih =>
    intro r
    have : ∃ r1, undoExpr f r = some r1 := by cases f <;> simp [Fn.oneToOne] at hf <;> exact ⟨_, rfl⟩
    obtain ⟨r1, hr1⟩ := this
    obtain ⟨r', h1, h2⟩ := ih r1
    refine ⟨r', .fn hn.whole hr1 h1, fun z y c hz hy hc => ?_⟩
    obtain ⟨u, h3, h4⟩ := fn_inj (E := E) hA hf hr1 hy hc
    obtain ⟨q, hq⟩ := h1.num hA hz
    have := h4 q hq
    subst this
    exact h2 z y q hz h3 hq
  | @tfn f a hf ha hn ih =>
    intro r
    obtain ⟨r1, hr1⟩ := undoTfn_some hf r (.app (.tfn .lag) [a])
    obtain ⟨r', h1, h2⟩ := ih r1
    refine ⟨r', .tfn hn.whole hr1 h1, fun z y c hz hy hc => ?_⟩
    rw [eval_tfn A _ (TFn.invertible_lagged hf)] at hy
    obtain ⟨u, v, h3, h4, h5⟩ := num_lag hA hf hy
    rw [ha.back.eval hA E t (some y) (t - 1) (by omega)] at h4
    obtain ⟨q, hq⟩ := h1.num hA hz
    have := tfn_inj hA hf hr1 (by rw [eval_tfn A E rfl]; simpa only [lagVal] using h4) h5 hc hq
    subst this
    exact h2 z y q hz h3 hq
  | @tfnLag f n m a hf hn1 hm ha hn ih =>
    intro r
    obtain ⟨r1, hr1⟩ := undoTfn_some hf r (.app (.tfn .lag) [m, a])
    obtain ⟨r', h1, h2⟩ := ih r1
    refine ⟨r', .tfn2 (hm.occ x) hn.whole hr1 h1, fun z y c hz hy hc => ?_⟩
    rw [eval_tfnLag hA _ (TFn.invertible_lagged hf) hm] at hy
    obtain ⟨u, v, h3, h4, h5⟩ := num_lag hA hf hy
    rw [ha.back.eval hA E t (some y) (t - n) (by omega)] at h4
    obtain ⟨q, hq⟩ := h1.num hA hz
    have := tfn_inj hA hf hr1 (by rw [eval_tfnLag hA E rfl hm]; simpa only [lagVal] using h4) h5 hc hq
    subst this
    exact h2 z y q hz h3 hq

/-! ## The solved form has a value -/

theorem undoExpr_calc {f : Fn} {r r1 : Expr} (hu : undoExpr f r = some r1) (h : Calc r) : Calc r1 := by
  cases f <;> simp only [undoExpr, Option.some.injEq, reduceCtorEq] at hu <;> subst hu
  case uplus => exact h
  all_goals exact .fn rfl h

theorem undoTfn_calc {f : TFn} {r r1 l : Expr} (hu : undoTfn f r l = some r1) (h : Calc r) (hl : Calc l) : Calc r1 := by
  cases f <;> simp only [undoTfn, Option.some.injEq, reduceCtorEq] at hu <;> subst hu
  case diff => exact .bin _ h hl
  case rapp => exact .bin _ h hl
  case dln => exact .fn rfl (.bin _ h (.fn rfl hl))
  case grt => exact .bin _ (.bin _ (.bin _ h (.cst _)) (.cst _)) hl

theorem Solves.calc {x : Name} {e r r' : Expr} (h : Solves x e r r') : Calc e → Calc r → Calc r' := by
  induction h with
  | var r => exact fun _ h => h
  | par _ ih => intro h1 h2; cases h1 with | par h1 => exact ih h1 h2
  | plusL _ _ _ ih | timesL _ _ _ ih | minusL _ _ _ ih | divideL _ _ _ ih =>
    intro h1 h2
    cases h1 with | bin _ ha hb => exact ih ha (.bin _ h2 hb)
  | plusR _ _ _ ih | timesR _ _ _ ih =>
    intro h1 h2
    cases h1 with | bin _ ha hb => exact ih hb (.bin _ h2 ha)
  | minusR _ _ _ ih | divideR _ _ _ ih =>
    intro h1 h2
    cases h1 with | bin _ ha hb => exact ih hb (.bin _ ha h2)
  | expL _ _ _ ih =>
    intro h1 h2
    cases h1 with | bin _ ha hb => exact ih ha (.fn rfl (.bin _ (.fn rfl h2) hb))
  | fn _ hu _ ih =>
    intro h1 h2
    cases h1 with
    | fn hf ha => exact ih ha (undoExpr_calc hu h2)
    | fns hf ha => exact ih (ha _ (by simp)) (undoExpr_calc hu h2)
  | tfn _ hu _ ih =>
    intro h1 h2
    cases h1 with | tfn hf ha ht => exact ih ha (undoTfn_calc hu h2 (.tfn rfl ha ht))
  | tfn2 _ _ hu _ ih =>
    intro h1 h2
    cases h1 with | tfnLag hf hm ha ht => exact ih ha (undoTfn_calc hu h2 (.tfnLag rfl hm ha ht))

theorem solveText_of (hA : RealMath A) {lhs rhs : List RTok} {x : Name} {dup : Bool} {e : Expr} (hc : Calc e)
    (hi : invert (group lhs) (group rhs) x = .ok (dup, atomsOf e)) {v : Option ℝ} (hv : eval A E e t = some v) :
    solveText A E lhs rhs x t = .ok (dup, v) := by
  have hs := hc.simple A E
  simp only [solveText, hi, Res.bind, hs.good.build, (hs.fine True t).exec (by rw [hA.isNum, hA.na]; rfl) hv]

theorem evalText_of (hA : RealMath A) {rts : List RTok} {e : Expr} (hr : Reads (group rts) e) (hc : Calc e)
    {v : Option ℝ} : evalText A E [] rts t = .ok v ↔ eval A E e t = some v := by
  obtain ⟨w, hw⟩ := hc.total hA E t
  have := C24_simple_value A E (by rw [hA.isNum, hA.na]; rfl) hr (hc.simple A E) hw
  rw [this, hw]
  simp

/-! ## The property -/

/-- The variable is on one side of the equation, the other side reads it only in the past. -/
def OneSide (fs : Fn → Bool) (pow : Bool) (x : Name) (l r : Expr) : Prop :=
  (Solvable fs pow x l ∧ Back 1 x r) ∨ (Back 1 x l ∧ Solvable fs pow x r)

/-- The value computed by the solved equation is a root: with this value for the variable the two sides of the equation
are equal, if they are numbers. -/
theorem C30_solution_is_a_root_partial (hA : RealMath A) (E : Env (Option ℝ)) {lhs rhs : List RTok} {l r : Expr}
    (hl : Reads (group lhs) l) (hr : Reads (group rhs) r) (hcl : Calc l) (hcr : Calc r) {x : Name}
    (h : OneSide Fn.onto true x l r) {t : Int} (ht : 0 ≤ t ∧ t < E.nb) {d : Bool} {z u v : ℝ}
    (hz : solveText A E lhs rhs x t = .ok (d, some z))
    (hu : evalText A (E.set x t (some z)) [] lhs t = .ok (some u))
    (hv : evalText A (E.set x t (some z)) [] rhs t = .ok (some v)) : u = v := by
  rw [evalText_of hA hl hcl] at hu
  rw [evalText_of hA hr hcr] at hv
  rcases h with ⟨h1, h2⟩ | ⟨h1, h2⟩
  · obtain ⟨r', hs, hroot⟩ := solve_onto hA h1 ht r
    obtain ⟨w, hw⟩ := (hs.calc hcl hcr).total hA E t
    rw [solveText_of hA (hs.calc hcl hcr) (invert_left hl hr h1.occ h2.occ hs) hw] at hz
    cases hz
    have := hroot z u hw hu
    rw [← h2.eval hA E t (some z) t (by omega), hv] at this
    simpa using this.symm
  · obtain ⟨r', hs, hroot⟩ := solve_onto hA h2 ht l
    obtain ⟨w, hw⟩ := (hs.calc hcr hcl).total hA E t
    rw [solveText_of hA (hs.calc hcr hcl) (invert_right hl hr h1.occ h2.occ hs) hw] at hz
    cases hz
    have := hroot z v hw hv
    rw [← h1.eval hA E t (some z) t (by omega), hu] at this
    simpa using this

/-- If the equation has a root and the solved equation gives a number, it is this root. -/
theorem C30_solution_is_the_root_partial (hA : RealMath A) (E : Env (Option ℝ)) {lhs rhs : List RTok} {l r : Expr}
    (hl : Reads (group lhs) l) (hr : Reads (group rhs) r) (hcl : Calc l) (hcr : Calc r) {x : Name}
    (h : OneSide Fn.oneToOne false x l r) {t : Int} (ht : 0 ≤ t ∧ t < E.nb) {d : Bool} {z y c : ℝ}
    (hz : solveText A E lhs rhs x t = .ok (d, some z))
    (hu : evalText A (E.set x t (some y)) [] lhs t = .ok (some c))
    (hv : evalText A (E.set x t (some y)) [] rhs t = .ok (some c)) : z = y := by
  rw [evalText_of hA hl hcl] at hu
  rw [evalText_of hA hr hcr] at hv
  rcases h with ⟨h1, h2⟩ | ⟨h1, h2⟩
  · obtain ⟨r', hs, hroot⟩ := solve_inj hA h1 ht r
    obtain ⟨w, hw⟩ := (hs.calc hcl hcr).total hA E t
    rw [solveText_of hA (hs.calc hcl hcr) (invert_left hl hr h1.occ h2.occ hs) hw] at hz
    cases hz
    rw [h2.eval hA E t (some y) t (by omega)] at hv
    exact hroot z y c hw hu hv
  · obtain ⟨r', hs, hroot⟩ := solve_inj hA h2 ht l
    obtain ⟨w, hw⟩ := (hs.calc hcr hcl).total hA E t
    rw [solveText_of hA (hs.calc hcr hcl) (invert_right hl hr h1.occ h2.occ hs) hw] at hz
    cases hz
    rw [h1.eval hA E t (some y) t (by omega)] at hu
    exact hroot z y c hw hv hu

/-- These equations are always solved, not duplicated, and never undefined behaviour. -/
theorem C30_solved (hA : RealMath A) (E : Env (Option ℝ)) {lhs rhs : List RTok} {l r : Expr}
    (hl : Reads (group lhs) l) (hr : Reads (group rhs) r) (hcl : Calc l) (hcr : Calc r) {x : Name}
    (h : (OneSide Fn.onto true x l r) ∨ OneSide Fn.oneToOne false x l r) (t : Int) (ht : 0 ≤ t ∧ t < E.nb) :
    ∃ v, solveText A E lhs rhs x t = .ok (false, v) := by
  rcases h with (⟨h1, h2⟩ | ⟨h1, h2⟩) | (⟨h1, h2⟩ | ⟨h1, h2⟩)
  · obtain ⟨r', hs, _⟩ := solve_onto hA h1 ht r
    obtain ⟨w, hw⟩ := (hs.calc hcl hcr).total hA E t
    exact ⟨w, solveText_of hA (hs.calc hcl hcr) (invert_left hl hr h1.occ h2.occ hs) hw⟩
  · obtain ⟨r', hs, _⟩ := solve_onto hA h2 ht l
    obtain ⟨w, hw⟩ := (hs.calc hcr hcl).total hA E t
    exact ⟨w, solveText_of hA (hs.calc hcr hcl) (invert_right hl hr h1.occ h2.occ hs) hw⟩
  · obtain ⟨r', hs, _⟩ := solve_inj hA h1 ht r
    obtain ⟨w, hw⟩ := (hs.calc hcl hcr).total hA E t
    exact ⟨w, solveText_of hA (hs.calc hcl hcr) (invert_left hl hr h1.occ h2.occ hs) hw⟩
  · obtain ⟨r', hs, _⟩ := solve_inj hA h2 ht l
    obtain ⟨w, hw⟩ := (hs.calc hcr hcl).total hA E t
    exact ⟨w, solveText_of hA (hs.calc hcr hcl) (invert_right hl hr h1.occ h2.occ hs) hw⟩

theorem occ_now (x : Name) : ∀ e : Expr, occ x e = nowCount x e := by
  intro e
  induction e using Expr.ind with
  | hc k => rfl
  | hv k => rfl
  | hx y l q =>
    cases q with
    | none => simp [occ, countEndo, atomsOf, isEndo, nowCount, List.countP_cons]
    | some p => rfl
  | hs y => rfl
  | hp e ih => rw [occ_par, ih, nowCount]
  | hb o a b iha ihb => rw [occ_bin, iha, ihb, nowCount]
  | ha f args ih =>
    have hL : ∀ es : List Expr, (∀ a ∈ es, occ x a = nowCount x a) → countEndo x (atomsOfL es) = nowCountL x es := by
      intro es
      induction es with
      | nil => intro _; rfl
      | cons e es ih =>
        intro h
        have h1 := h e (by simp)
        have h2 := ih (fun a ha => h a (by simp [ha]))
        simp only [occ, countEndo] at h1 h2
        simp [atomsOfL, countEndo, nowCountL, h1, h2]
    have := hL args ih
    simp only [countEndo] at this
    simp [occ, countEndo, atomsOf, nowCount, this, isEndo]

/-- If the variable occurs several times at the current period the computed function is the difference between the two
sides, and the equation is marked. -/
theorem C30_duplicated (hA : RealMath A) (E : Env (Option ℝ)) {lhs rhs : List RTok} {l r : Expr}
    (hl : Reads (group lhs) l) (hr : Reads (group rhs) r) (hcl : Calc l) (hcr : Calc r) {x : Name}
    (h : 2 ≤ nowCount x l + nowCount x r) {t : Int} {u v : ℝ} (hu : evalText A E [] lhs t = .ok (some u))
    (hv : evalText A E [] rhs t = .ok (some v)) : solveText A E lhs rhs x t = .ok (true, some (u - v)) := by
  rw [evalText_of hA hl hcl] at hu
  rw [evalText_of hA hr hcr] at hv
  refine solveText_of hA (.bin .minus hcl hcr) ?_ (by rw [bin_num hA hu hv]; simp [Arith.bin, hA.sub])
  have h' : 2 ≤ countEndo x (atomsOf l) + countEndo x (atomsOf r) := by
    rw [← occ_now, ← occ_now] at h; exact h
  rw [invert, compileSide, compileSide, G.compile hl, G.compile hr]
  simp only [Res.bind]
  rw [if_neg (by omega), if_pos h']
  simp [atomsOf]

end Real

/-! ## Refused equations -/

section Refused
variable {F : Type}

/-- The variable must occur at the current period. -/
theorem C30_absent_refused (A : Arith F) (E : Env F) {lhs rhs : List RTok} {l r : Expr} (hl : Reads (group lhs) l)
    (hr : Reads (group rhs) r) {x : Name} (h : nowCount x l + nowCount x r = 0) (t : Int) :
    solveText A E lhs rhs x t = .err := by
  have h' : countEndo x (atomsOf l) + countEndo x (atomsOf r) = 0 := by
    rw [← occ_now, ← occ_now] at h; exact h
  rw [solveText, invert, compileSide, compileSide, G.compile hl, G.compile hr]
  simp only [Res.bind]
  rw [if_pos h']

/-- Functions of one argument that are not undone. -/
def Fn.noInverse : Fn → Bool
  | .ln | .expn | .uplus | .uminus | .cos | .sin | .tan | .acos | .asin | .atan => false
  | _ => true

/-- A function without inverse around the variable is refused, it is not solved wrongly. -/
theorem C30_no_inverse_refused (A : Arith F) (E : Env F) {lhs rhs : List RTok} {f : Fn} {a r : Expr}
    (hl : Reads (group lhs) (.app (.fn f) [a])) (hr : Reads (group rhs) r) {x : Name} (hf : f.noInverse = true)
    (ha : nowCount x a = 1) (hn : NoOpenCall a) (h0 : nowCount x r = 0) (t : Int) : solveText A E lhs rhs x t = .err := by
  have h1 : countEndo x (atomsOf (.app (.fn f) [a])) = 1 := by rw [← occ_now] at ha; rw [← ha]; exact occ_app1 x _ a
  have h2 : countEndo x (atomsOf r) = 0 := by rw [← occ_now] at h0; exact h0
  have hu : ∀ w o v : List Atom, undo (.fun (.fn f) 1) false o v w = .err := by
    intro w o v; cases f <;> simp [Fn.noInverse] at hf <;> rfl
  rw [solveText, invert, compileSide, compileSide, G.compile hl, G.compile hr]
  simp only [Res.bind, h1, h2]
  rw [if_neg (by omega), if_neg (by omega), if_neg (by omega), invLoop, splitExpr_un (.fn f) hn.whole]
  simp only [Res.bind]
  rw [if_neg (by simp [countEndo]), hu]

end Refused

/-! ## Where the claim fails -/

section Counter
variable {A : Arith (Option ℝ)}

/-- `2 ^ X := 8` is solved as `log(2, 8)`, that is `ln 2 / ln 8`: a third, not three. -/
theorem C30_exponent_counterexample (hA : RealMath A) (E : Env (Option ℝ)) (t : Int) :
    solveText A E [.cst (.long 2), .op .exp, .var (nm 'X')] [.cst (.long 8)] (nm 'X') t =
      .ok (false, some (Real.log 2 / Real.log 8)) ∧ (2 : ℝ) ^ (Real.log 2 / Real.log 8) ≠ 8 := by
  constructor
  · have hs : Simple A E (.app (.fn .log) [.cst (.long 2), .cst (.long 8)]) := by
      refine .fn rfl ?_
      intro a ha
      simp only [List.mem_cons, List.not_mem_nil, or_false] at ha
      rcases ha with rfl | rfl <;> exact .cst _
    have hi : invert (group [.cst (.long 2), .op .exp, .var (nm 'X')]) (group [.cst (.long 8)]) (nm 'X') =
        .ok (false, atomsOf (.app (.fn .log) [.cst (.long 2), .cst (.long 8)])) := by decide +kernel
    have hv : eval A E (.app (.fn .log) [.cst (.long 2), .cst (.long 8)]) t = some (some (Real.log 2 / Real.log 8)) := by
      have h2 : A.logn (some 2) = some (Real.log 2) := logn_pos hA (by norm_num)
      have h8 : A.logn (some 8) = some (Real.log 8) := logn_pos hA (by norm_num)
      have hd := divide_ne hA (u := Real.log 2) (v := Real.log 8) (ne_of_gt (Real.log_pos (by norm_num)))
      simp [eval, evalFs_eq, allSome, fnVal, Fn.acceptsNa, hA.isNum, hA.ofInt, Arith.fnRev, Arith.logf, h2, h8, hd]
    simp only [solveText, hi, Res.bind, hs.good.build, (hs.fine True t).exec (by rw [hA.isNum, hA.na]; rfl) hv]
  · intro h
    have h8 : Real.log 8 = 3 * Real.log 2 := by
      rw [show (8 : ℝ) = 2 ^ (3 : ℕ) by norm_num, Real.log_pow]; norm_num
    have hl2 : Real.log 2 ≠ 0 := ne_of_gt (Real.log_pos (by norm_num))
    have := congrArg Real.log h
    rw [Real.log_rpow (by norm_num), h8] at this
    have h3 : Real.log 2 / (3 * Real.log 2) = 1 / 3 := by field_simp
    rw [h3] at this
    have : Real.log 2 = 0 := by linarith
    exact hl2 this

/-- `exp(2, X) := 8` (two to the power `X`) is solved as if it were `exp(X)`. -/
theorem C30_exp_base_counterexample :
    invert (group [.fun (.fn .expn), .openp, .cst (.long 2), .comma, .var (nm 'X'), .closep]) (group [.cst (.long 8)]) (nm 'X') =
      invert (group [.fun (.fn .expn), .var (nm 'X')]) (group [.cst (.long 8)]) (nm 'X') ∧
    (2 : ℝ) ^ Real.log 8 ≠ 8 := by
  constructor
  · decide +kernel
  · intro h
    have := congrArg Real.log h
    rw [Real.log_rpow (by norm_num)] at this
    have h8 : Real.log 8 ≠ 0 := ne_of_gt (Real.log_pos (by norm_num))
    have h1 : Real.log 2 = 1 := by
      have : Real.log 8 * (Real.log 2 - 1) = 0 := by linarith
      rcases mul_eq_zero.1 this with h | h
      · exact absurd h h8
      · linarith
    have he : Real.exp 1 = 2 := by rw [← h1, Real.exp_log (by norm_num)]
    have := Real.add_one_lt_exp (x := 1) (by norm_num)
    rw [he] at this
    norm_num at this

/-- `X + max(A, B) := C`: the solved form lost the argument `A`, the executor reads below the stack. -/
theorem C30_call_behind_counterexample :
    invert (group [.var (nm 'X'), .op .plus, .fun (.fn .max), .openp, .var (nm 'A'), .comma, .var (nm 'B'), .closep])
      (group [.var (nm 'C')]) (nm 'X') = .ok (false, [.var (nm 'C') 0 none, .openp, .var (nm 'B') 0 none, .closep,
        .fun (.fn .max) 2, .op .minus]) ∧
    solveText ratArith ratEnv [.var (nm 'X'), .op .plus, .fun (.fn .max), .openp, .var (nm 'A'), .comma, .var (nm 'B'),
      .closep] [.var (nm 'C')] (nm 'X') 3 = .ub := by decide +kernel

/-- A date counts as another period even if it is the current one: `X := X[2000Y1] + 1` in 2000 has no root, a value is
computed all the same. -/
theorem C30_dated_counterexample : ∃ z, solveText ratArith ratEnv [.var (nm 'X')]
      [.var (nm 'X'), .openb, .cst (.period ⟨2000, 1, 'Y'⟩), .closeb, .op .plus, .cst (.long 1)] (nm 'X') 0 = .ok (false, z) ∧
    evalText ratArith (ratEnv.set (nm 'X') 0 z) [] [.var (nm 'X')] 0 ≠
      evalText ratArith (ratEnv.set (nm 'X') 0 z) []
        [.var (nm 'X'), .openb, .cst (.period ⟨2000, 1, 'Y'⟩), .closeb, .op .plus, .cst (.long 1)] 0 :=
  ⟨some (3 / 2), by decide +kernel, by decide +kernel⟩

/-- A malformed side is not an error: the code removes the last element of an empty vector. -/
theorem C30_malformed_counterexample (lhs rhs : List RTok) (x : Name) (A : Arith (Option ℝ)) (E : Env (Option ℝ))
    (t : Int) (h : ∀ as, compile [] (group lhs) ≠ .ok as) : solveText A E lhs rhs x t = .ub := by
  rw [solveText, invert, compileSide]
  cases hc : compile [] (group lhs) with
  | ok as => exact absurd hc (h as)
  | err n => rfl
  | ub => rfl

end Counter

/-! ## The hypotheses are met -/

/-- Exact real arithmetic. -/
noncomputable def realArith : Arith (Option ℝ) where
  na := none
  isNum := Option.isSome
  ofInt n := some n
  ofReal n d := some (n / d)
  half := some (1 / 2)
  add a b := (a.bind fun x => b.map (x + ·))
  sub a b := (a.bind fun x => b.map (x - ·))
  mul a b := (a.bind fun x => b.map (x * ·))
  div a b := (a.bind fun x => b.map (x / ·))
  neg a := a.map (- ·)
  lt a b := match a, b with
    | some x, some y => decide (x < y)
    | none, some _ => true
    | _, none => false
  eq a b := decide (a = b)
  tiny a := decide (a = some 0)
  pow a b := a.bind fun x => b.map (x ^ ·)
  expArgOk _ := true
  expResOk _ := true
  prim p a := match p with
    | .fabs => a.map fun x => |x|
    | .floor => a.map fun x => (⌊x⌋ : ℝ)
    | .log => a.map Real.log
    | .exp => a.map Real.exp
    | .cos => a.map Real.cos
    | .sin => a.map Real.sin
    | .tan => a.map Real.tan
    | .atan => a.map Real.arctan
    | .acos => a.bind fun x => if -1 ≤ x ∧ x ≤ 1 then some (Real.arccos x) else none
    | .asin => a.bind fun x => if -1 ≤ x ∧ x ≤ 1 then some (Real.arcsin x) else none
    | _ => a
  pow10 a := some (a.map fun y => (10 : ℝ) ^ ⌊y⌋.toNat)
  grandom a _ := a
  toInt a := a.map fun x => if x < 0 then ⌈x⌉ else ⌊x⌋
  valPi := some Real.pi
  valE := some (Real.exp 1)
  valEuro := some 40
  mfn _ _ _ _ _ _ := .ok (some 0)

theorem realArith_real : RealMath realArith where
  na := rfl
  isNum _ := rfl
  ofInt _ := rfl
  half := rfl
  add _ _ := rfl
  sub _ _ := rfl
  mul _ _ := rfl
  div _ _ _ := rfl
  neg _ := rfl
  lt _ _ := rfl
  eq x y := by simp [realArith]
  tiny := by simp [realArith]
  floor _ := rfl
  fabs _ := rfl
  pow10 n := by simp [realArith]
  toInt _ := rfl
  exp _ := rfl
  log _ _ := rfl
  cos _ := rfl
  sin _ := rfl
  tan _ _ := rfl
  acos _ := rfl
  asin _ := rfl
  atan _ := rfl
  pow _ _ _ := rfl

/-- All variables are 2 in even and 3 in odd positions. -/
noncomputable def realEnv : Env (Option ℝ) where
  nb := 10
  posOf p := p.step - 1
  var _ i := some (if i % 2 = 0 then 2 else 3)
  coef _ := some 5
  curt := 4

/-- `dln X := c + ln(A) * X[-1]`: the hypotheses of the theorems hold. -/
def exLhs : List RTok := [.fun (.tfn .dln), .var (nm 'X')]
/-- The right-hand side. -/
def exRhs : List RTok := [.coef (nm 'c'), .op .plus, .fun (.fn .ln), .openp, .var (nm 'A'), .closep, .op .times, .var (nm 'X'),
  .openb, .op .minus, .cst (.long 1), .closeb]
/-- Its tree. -/
def exL : Expr := .app (.tfn .dln) [.var (nm 'X') 0 none]
/-- Its tree. -/
def exR : Expr := .bin .plus (.coef (nm 'c')) (.bin .times (.app (.fn .ln) [.par (.var (nm 'A') 0 none)]) (.var (nm 'X') (-1) none))

theorem exLhs_reads : Reads (group exLhs) exL :=
  (G.un (ext := false) (.tfn .dln) (by decide) ((G.var (nm 'X')).down (by omega))).down (by omega)

theorem exRhs_reads : Reads (group exRhs) exR := by
  have h1 : G false (.lev 8) [.fun (.fn .ln), .openp, .var (nm 'A'), .closep] [.app (.fn .ln) [.par (.var (nm 'A') 0 none)]] :=
    G.un (.fn .ln) (by decide) ((G.par ((G.var (nm 'A')).down (by omega))).down (by omega))
  have h2 : G false (.lev 9) [.var (nm 'X'), .lag (-1)] [.var (nm 'X') (-1) none] := G.lag (-1) (G.var (ext := false) (nm 'X'))
  have h3 := G.bin (ext := false) .times (h1.down (by decide)) (h2.down (by decide))
  exact (G.bin (ext := false) .plus ((G.coef (nm 'c')).down (by decide)) (h3.down (by decide))).down (by omega)

example : OneSide Fn.onto true (nm 'X') exL exR ∧ OneSide Fn.oneToOne false (nm 'X') exL exR ∧ Calc exL ∧ Calc exR := by
  have hb : Back 1 (nm 'X') exR := .bin _ (.free (by simp [varNames]))
    (.bin _ (.free (by decide)) (.var (by omega)))
  refine ⟨.inl ⟨.tfn rfl .var (.var _ _ _), hb⟩, .inl ⟨.tfn rfl .var (.var _ _ _), hb⟩, .tfn rfl (.var _ _ _) (.var _ _ _), ?_⟩
  exact .bin _ (.coef _) (.bin _ (.fn rfl (.par (.var _ _ _))) (.var _ _ _))

/-- `2 * X - A := X[-1]` at 1: the solution is `(2 + 3) / 2`, and both sides are numbers there. -/
example : solveText ratArith { ratEnv with var := fun _ i => some (if i % 2 = 0 then 2 else 3) }
    [.cst (.long 2), .op .times, .var (nm 'X'), .op .minus, .var (nm 'A')]
    [.var (nm 'X'), .openb, .op .minus, .cst (.long 1), .closeb] (nm 'X') 1 = .ok (false, some (5 / 2)) := by decide +kernel

end Iode.Lec
