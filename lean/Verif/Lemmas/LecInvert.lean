import Verif.Model.LecInvert
import Verif.Lemmas.LecBuild

/-!
# Inverting an equation on trees

The elements produced by `invLoop` for a tree are those of a tree.
-/
namespace Iode.Lec

/-- Expressions whose beginning `L_sub_expr` finds, operators included: no call with several arguments except between
parentheses. -/
inductive Whole : Expr → Prop where
  | cst (k) : Whole (.cst k)
  | val (v) : Whole (.val v)
  | var (x l p) : Whole (.var x l p)
  | coef (x) : Whole (.coef x)
  | par (e) : Whole (.par e)
  | un (f) {e} : Whole e → Whole (.app f [e])
  | bin (o) {a b} : Whole a → Whole b → Whole (.bin o a b)

theorem atomsOf_pos (e : Expr) : 0 < (atomsOf e).length := by
  cases e <;> simp [atomsOf]
  omega

theorem sub_whole {e : Expr} (h : Whole e) : ∀ (fuel : Nat) (r : List Atom),
    sub ((atomsOf e).length + fuel) ((atomsOf e).reverse ++ r) 0 = .ok (atomsOf e).length := by
  induction h with
  | cst k => exact fun fuel r => sub_prim (.one _ (by simp) (by simp) (by simp) (by simp)) fuel r
  | val k => exact fun fuel r => sub_prim (.one _ (by simp) (by simp) (by simp) (by simp)) fuel r
  | var x l p => exact fun fuel r => sub_prim (.one _ (by simp) (by simp) (by simp) (by simp)) fuel r
  | coef k => exact fun fuel r => sub_prim (.one _ (by simp) (by simp) (by simp) (by simp)) fuel r
  | par e => exact fun fuel r => by rw [atomsOf]; exact sub_prim (.par (bal_atomsOf e)) fuel r
  | @un f e _ ih =>
    intro fuel r
    have h1 : atomsOf (.app f [e]) = atomsOf e ++ [.fun f 1] := by simp [atomsOf, atomsOfL]
    rw [h1]
    simp only [List.length_append, List.length_singleton, List.reverse_append, List.reverse_singleton,
      List.cons_append]
    rw [show (atomsOf e).length + 1 + fuel = ((atomsOf e).length + fuel) + 1 by omega, sub, List.nil_append, ih]
    · rfl
  | @bin o a b _ _ iha ihb =>
    intro fuel r
    have h1 : (atomsOf (.bin o a b)).length = (atomsOf a).length + (atomsOf b).length + 1 := by
      simp [atomsOf]; omega
    have h2 : (atomsOf (.bin o a b)).reverse ++ r = .op o :: ((atomsOf b).reverse ++ ((atomsOf a).reverse ++ r)) := by
      simp [atomsOf]
    have ha := atomsOf_pos a
    have hb := atomsOf_pos b
    rw [h1, h2, show (atomsOf a).length + (atomsOf b).length + 1 + fuel =
      ((atomsOf b).length + ((atomsOf a).length + fuel)) + 1 by omega, sub, if_neg, ihb]
    · have h3 : ((atomsOf b).reverse ++ ((atomsOf a).reverse ++ r)).drop (atomsOf b).length
          = (atomsOf a).reverse ++ r := by
        rw [List.drop_append_of_le_length (by simp), List.drop_of_length_le (by simp)]; rfl
      simp only [Res.bind]
      rw [h3, if_neg, show (atomsOf b).length + ((atomsOf a).length + fuel) =
        (atomsOf a).length + ((atomsOf b).length + fuel) by omega, iha]
      · intro h
        have := congrArg List.length h
        simp only [List.length_append, List.length_reverse, List.length_nil] at this
        omega
    · intro h
      have := congrArg List.length h
      simp only [List.length_append, List.length_reverse, List.length_nil] at this
      omega

theorem cutLast_whole (a : Atom) {e : Expr} (h : Whole e) (w : List Atom) :
    cutLast a (w ++ atomsOf e) = .ok (.parts a w (atomsOf e)) := by
  have h1 : subLast (w ++ atomsOf e) = .ok (atomsOf e).length := by
    rw [subLast, List.reverse_append, List.length_append, Nat.add_comm]
    exact sub_whole h _ _
  rw [cutLast, h1]
  simp [Res.bind]

theorem splitExpr_par (e : Expr) : splitExpr (atomsOf (.par e)) = splitExpr (atomsOf e) := by
  have h : (atomsOf (.par e)).getLast? = some .closep := by
    rw [atomsOf, ← List.cons_append, List.getLast?_concat]
  rw [splitExpr, h]
  simp [atomsOf]

theorem splitExpr_bin (o : Op) (a : Expr) {b : Expr} (h : Whole b) :
    splitExpr (atomsOf (.bin o a b)) = .ok (.parts (.op o) (atomsOf a) (atomsOf b)) := by
  have h1 : atomsOf (.bin o a b) = (atomsOf a ++ atomsOf b) ++ [.op o] := by simp [atomsOf]
  rw [splitExpr, h1, List.getLast?_concat]
  simp only [List.dropLast_concat]
  exact cutLast_whole _ h _

theorem splitExpr_un (f : Fun) {a : Expr} (h : Whole a) :
    splitExpr (atomsOf (.app f [a])) = .ok (.parts (.fun f 1) [] (atomsOf a)) := by
  have h1 : atomsOf (.app f [a]) = atomsOf a ++ [.fun f 1] := by simp [atomsOf, atomsOfL]
  rw [splitExpr, h1, List.getLast?_concat]
  simp only [List.dropLast_concat]
  exact cutLast_whole _ h []

theorem splitExpr_two (f : Fun) (n : Expr) {a : Expr} (h : Whole a) :
    splitExpr (atomsOf (.app f [n, a])) = .ok (.parts (.fun f 2) (atomsOf n) (atomsOf a)) := by
  have h1 : atomsOf (.app f [n, a]) = (atomsOf n ++ atomsOf a) ++ [.fun f 2] := by simp [atomsOf, atomsOfL]
  rw [splitExpr, h1, List.getLast?_concat]
  simp only [List.dropLast_concat]
  exact cutLast_whole _ h _

/-- Number of occurrences of `x` at the current period. -/
def occ (x : Name) (e : Expr) : Nat := countEndo x (atomsOf e)

/-- The inverse of a function of one argument. -/
def undoExpr : Fn → Expr → Option Expr
  | .ln, r => some (.app (.fn .expn) [r])
  | .expn, r => some (.app (.fn .ln) [r])
  | .uplus, r => some r
  | .uminus, r => some (.app (.fn .uminus) [r])
  | .cos, r => some (.app (.fn .acos) [r])
  | .acos, r => some (.app (.fn .cos) [r])
  | .sin, r => some (.app (.fn .asin) [r])
  | .asin, r => some (.app (.fn .sin) [r])
  | .tan, r => some (.app (.fn .atan) [r])
  | .atan, r => some (.app (.fn .tan) [r])
  | _, _ => none

/-- The inverse of a time function; `l` is the lagged argument. -/
def undoTfn : TFn → Expr → Expr → Option Expr
  | .diff, r, l => some (.bin .plus r l)
  | .dln, r, l => some (.app (.fn .expn) [.bin .plus r (.app (.fn .ln) [l])])
  | .grt, r, l => some (.bin .times (.bin .plus (.bin .divide r (.cst (.long 100))) (.cst (.long 1))) l)
  | .rapp, r, l => some (.bin .times r l)
  | _, _, _ => none

/-- `Solves x e r r'`: solving `e = r` for the only current occurrence of `x`, which is in `e`, gives `r'`. -/
inductive Solves (x : Name) : Expr → Expr → Expr → Prop where
  | var (r) : Solves x (.var x 0 none) r r
  | par {e r r'} : Solves x e r r' → Solves x (.par e) r r'
  | plusL {a b r r'} : 0 < occ x a → Whole b → Solves x a (.bin .minus r b) r' → Solves x (.bin .plus a b) r r'
  | plusR {a b r r'} : occ x a = 0 → Whole b → Solves x b (.bin .minus r a) r' → Solves x (.bin .plus a b) r r'
  | timesL {a b r r'} : 0 < occ x a → Whole b → Solves x a (.bin .divide r b) r' → Solves x (.bin .times a b) r r'
  | timesR {a b r r'} : occ x a = 0 → Whole b → Solves x b (.bin .divide r a) r' → Solves x (.bin .times a b) r r'
  | minusL {a b r r'} : 0 < occ x a → Whole b → Solves x a (.bin .plus r b) r' → Solves x (.bin .minus a b) r r'
  | minusR {a b r r'} : occ x a = 0 → Whole b → Solves x b (.bin .minus a r) r' → Solves x (.bin .minus a b) r r'
  | divideL {a b r r'} : 0 < occ x a → Whole b → Solves x a (.bin .times r b) r' → Solves x (.bin .divide a b) r r'
  | divideR {a b r r'} : occ x a = 0 → Whole b → Solves x b (.bin .divide a r) r' → Solves x (.bin .divide a b) r r'
  | expL {a b r r'} : 0 < occ x a → Whole b →
      Solves x a (.app (.fn .expn) [.bin .divide (.app (.fn .ln) [r]) b]) r' → Solves x (.bin .exp a b) r r'
  | fn {f a r r1 r'} : Whole a → undoExpr f r = some r1 → Solves x a r1 r' → Solves x (.app (.fn f) [a]) r r'
  | tfn {f a r r1 r'} : Whole a → undoTfn f r (.app (.tfn .lag) [a]) = some r1 → Solves x a r1 r' →
      Solves x (.app (.tfn f) [a]) r r'
  | tfn2 {f n a r r1 r'} : occ x n = 0 → Whole a → undoTfn f r (.app (.tfn .lag) [n, a]) = some r1 →
      Solves x a r1 r' → Solves x (.app (.tfn f) [n, a]) r r'

theorem invLoop_par (x : Name) (fuel : Nat) (e : Expr) (r : List Atom) :
    invLoop x fuel (atomsOf (.par e)) r = invLoop x fuel (atomsOf e) r := by
  cases fuel with
  | zero => rfl
  | succ n => rw [invLoop, invLoop, splitExpr_par]

/-- The loop of `L_invert` on the elements of trees. -/
theorem Solves.invLoop {x : Name} {e r r' : Expr} (h : Solves x e r r') : ∀ fuel, (atomsOf e).length < fuel →
    invLoop x fuel (atomsOf e) (atomsOf r) = .ok (atomsOf r') := by
  have key : ∀ {a : Atom} {l w : List Atom} {v rr : List Atom} {n : Nat}, splitExpr v = .ok (.parts a l w) →
      Lec.invLoop x (n + 1) v rr = if countEndo x l > 0 then (undo a true w l rr).bind fun r => Lec.invLoop x n l r
        else (undo a false l w rr).bind fun r => Lec.invLoop x n w r := by
    intro a l w v rr n hs
    rw [Lec.invLoop, hs]
    rfl
  have hnil : countEndo x [] = 0 := rfl
  induction h with
  | var r =>
    intro fuel hf
    obtain ⟨n, rfl⟩ : ∃ n, fuel = n + 1 := ⟨fuel - 1, by omega⟩
    rw [Lec.invLoop, atomsOf, splitExpr]
    rfl
  | par _ ih =>
    intro fuel hf
    rw [invLoop_par]
    exact ih fuel (by simp [atomsOf] at hf; omega)
  | @plusL a b r r' ho hw _ ih | @timesL a b r r' ho hw _ ih | @minusL a b r r' ho hw _ ih
  | @divideL a b r r' ho hw _ ih | @expL a b r r' ho hw _ ih =>
    intro fuel hf
    obtain ⟨n, rfl⟩ : ∃ n, fuel = n + 1 := ⟨fuel - 1, by omega⟩
    rw [key (splitExpr_bin _ a hw), if_pos (by exact ho)]
    rw [← ih n (by simp [atomsOf] at hf; omega)]
    simp [undo, Res.bind, atomsOf, atomsOfL]
  | @plusR a b r r' ho hw _ ih | @timesR a b r r' ho hw _ ih | @minusR a b r r' ho hw _ ih
  | @divideR a b r r' ho hw _ ih =>
    intro fuel hf
    obtain ⟨n, rfl⟩ : ∃ n, fuel = n + 1 := ⟨fuel - 1, by omega⟩
    have ho' : countEndo x (atomsOf a) = 0 := ho
    rw [key (splitExpr_bin _ a hw), if_neg (by omega)]
    rw [← ih n (by simp [atomsOf] at hf; omega)]
    simp [undo, Res.bind, atomsOf, atomsOfL]
  | @fn f a r r1 r' hw hu _ ih =>
    intro fuel hf
    obtain ⟨n, rfl⟩ : ∃ n, fuel = n + 1 := ⟨fuel - 1, by omega⟩
    rw [key (splitExpr_un _ hw), if_neg (by rw [hnil]; omega)]
    rw [← ih n (by simp [atomsOf, atomsOfL] at hf; omega)]
    cases f <;> simp only [undoExpr, Option.some.injEq, reduceCtorEq] at hu <;> subst hu <;>
      simp [undo, undoFn, Res.bind, atomsOf, atomsOfL]
  | @tfn f a r r1 r' hw hu _ ih =>
    intro fuel hf
    obtain ⟨n, rfl⟩ : ∃ n, fuel = n + 1 := ⟨fuel - 1, by omega⟩
    rw [key (splitExpr_un _ hw), if_neg (by rw [hnil]; omega)]
    rw [← ih n (by simp [atomsOf, atomsOfL] at hf; omega)]
    cases f <;> simp only [undoTfn, Option.some.injEq, reduceCtorEq] at hu <;> subst hu <;>
      simp [undo, lagAgain, Res.bind, atomsOf, atomsOfL]
  | @tfn2 f m a r r1 r' ho hw hu _ ih =>
    intro fuel hf
    obtain ⟨n, rfl⟩ : ∃ n, fuel = n + 1 := ⟨fuel - 1, by omega⟩
    have ho' : countEndo x (atomsOf m) = 0 := ho
    rw [key (splitExpr_two _ _ hw), if_neg (by omega)]
    rw [← ih n (by simp [atomsOf, atomsOfL] at hf; omega)]
    cases f <;> simp only [undoTfn, Option.some.injEq, reduceCtorEq] at hu <;> subst hu <;>
      simp [undo, lagAgain, Res.bind, atomsOf, atomsOfL]

/-- `L_invert` on texts that read as trees, the variable on the left. -/
theorem invert_left {x : Name} {lhs rhs : List Tok} {l r r' : Expr} (hl : Reads lhs l) (hr : Reads rhs r)
    (h1 : occ x l = 1) (h0 : occ x r = 0) (hs : Solves x l r r') :
    invert lhs rhs x = .ok (false, atomsOf r') := by
  have h1' : countEndo x (atomsOf l) = 1 := h1
  have h0' : countEndo x (atomsOf r) = 0 := h0
  rw [invert, compileSide, compileSide, G.compile hl, G.compile hr]
  simp only [Res.bind, h1', h0']
  rw [hs.invLoop _ (by omega)]
  rfl

/-- The variable on the right. -/
theorem invert_right {x : Name} {lhs rhs : List Tok} {l r r' : Expr} (hl : Reads lhs l) (hr : Reads rhs r)
    (h0 : occ x l = 0) (h1 : occ x r = 1) (hs : Solves x r l r') :
    invert lhs rhs x = .ok (false, atomsOf r') := by
  have h1' : countEndo x (atomsOf r) = 1 := h1
  have h0' : countEndo x (atomsOf l) = 0 := h0
  rw [invert, compileSide, compileSide, G.compile hl, G.compile hr]
  simp only [Res.bind, h1', h0']
  rw [hs.invLoop _ (by omega)]
  rfl

end Iode.Lec
