import Verif.Model.DfTest
import Verif.Model.DynAdj
import Verif.Props.C47
import Verif.Lemmas.PrintfText

/-!
# Lemmas on the equation of the Dickey-Fuller test
-/
namespace Iode.DfTest

open Iode.Args (Text)
open Lec hiding Text
open Lec.Written hiding Text

theorem chars_length : ∀ (k n : Nat), n < 10 ^ (k + 1) → (natToChars n).length ≤ k + 1
  | 0, n, h => by
    rw [natToChars, if_pos (by simpa using h)]
    simp
  | k + 1, n, h => by
    rw [natToChars]
    split
    · simp
    · have := chars_length k (n / 10) (by rw [Nat.pow_succ] at h; omega)
      simp only [List.length_append, List.length_singleton]
      omega

theorem chars_digit {n : Nat} {c : Char} (h : c ∈ natToChars n) : Digit c := by
  have := natToChars_isDigit n c h
  simp only [isDigitC, Bool.and_eq_true, decide_eq_true_eq] at this
  exact this

/-- The right side of the equation. -/
def rhs (drift trend : Bool) (order : Nat) : Text :=
  " df_ * _DF[-1]".toList ++ ((if drift then "+ df_d".toList else []) ++ ((if trend then "+ df_t*t".toList else []) ++
    (List.range order).flatMap fun i : Nat => " + df".toList ++ natToChars (i + 1) ++ "*d(_DF[-".toList ++ natToChars (i + 1) ++ "])".toList))

theorem lecText_split (drift trend : Bool) (order : Nat) : DynAdj.splitEq (lecText drift trend order) = some ("d(_DF) ".toList, rhs drift trend order) := by
  have h : lecText drift trend order = "d(_DF) :=".toList ++ rhs drift trend order := by
    unfold lecText rhs
    have : "d(_DF) := df_ * _DF[-1]".toList = "d(_DF) :=".toList ++ " df_ * _DF[-1]".toList := by decide +kernel
    rw [this]
    simp only [List.append_assoc]
  rw [h]
  generalize rhs drift trend order = r
  rfl

/-- The tokens of one lag. -/
def termToks (i : Nat) : List RTok :=
  [.op .plus, .coef ('d' :: 'f' :: natToChars i), .op .times, .fun (.tfn .diff), .openp, .var dfName, .openb, .op .minus, .cst (.long i), .closeb, .closep]

theorem item_df {rnd : Rat → Rat} {rest : Text} (h : NameEnd rest) : Item rnd dfName (.var dfName) rest :=
  .var (c := '_') (w := ['D', 'F']) (by decide) (by decide) (by decide) (by decide) h

theorem gap_nil : Gap [] := .nil
theorem gap_one : Gap [' '] := .white (by decide) .nil

theorem next_cons {c : Char} {r : Text} (h : ¬ White c) : next (c :: r) = some c := by
  unfold next
  rw [List.dropWhile_cons_of_neg (by simpa using h)]
  rfl

theorem item_num {rnd : Rat → Rat} {i : Nat} (hi : i < 10 ^ 9) (rest : Text) : Item rnd (natToChars i) (.cst (.long i)) (']' :: rest) := by
  have := Item.long (rnd := rnd) (d := natToChars i) (rest := ']' :: rest) (fun c hc => chars_digit hc) (natToChars_ne_nil i) (chars_length 8 i hi)
    (by intro c hc; injection hc with hc; subst hc; decide) (by intro c hc; injection hc with hc; subst hc; decide)
  rw [Printf.dec_natToChars] at this
  exact this

theorem item_coef {rnd : Rat → Rat} {i : Nat} (hi : i < 10 ^ 9) (rest : Text) : Item rnd ('d' :: 'f' :: natToChars i) (.coef ('d' :: 'f' :: natToChars i)) ('*' :: rest) := by
  refine .coef (by decide) ?_ ?_ ?_ ?_
  · intro c hc
    rcases List.mem_cons.mp hc with rfl | hc
    · left; decide
    · rcases List.mem_cons.mp hc with rfl | hc
      · left; decide
      · right; left; exact chars_digit hc
  · have := chars_length 8 i hi
    simp only [List.length_cons]
    omega
  · have hk : ∀ k ∈ keywords, k.1.toList.take 2 ≠ ['d', 'f'] := by decide +kernel
    intro k hk' e
    exact hk k hk' (by rw [e]; rfl)
  · intro c hc; injection hc with hc; subst hc; decide

theorem laid_term {rnd : Rat → Rat} {i : Nat} (hi : i < 10 ^ 9) {ts : List RTok} {rest : Text} (h : Laid rnd ts rest) :
    Laid rnd (termToks i ++ ts) (" + df".toList ++ natToChars i ++ "*d(_DF[-".toList ++ natToChars i ++ "])".toList ++ rest) := by
  have e : " + df".toList ++ natToChars i ++ "*d(_DF[-".toList ++ natToChars i ++ "])".toList ++ rest =
      [' '] ++ (['+'] ++ ([' '] ++ (('d' :: 'f' :: natToChars i) ++ ([] ++ (['*'] ++ ([] ++ ("d".toList ++ ([] ++ (['('] ++ ([] ++ (dfName ++ ([] ++ (['['] ++ ([] ++ (['-'] ++
        ([] ++ (natToChars i ++ ([] ++ ([']'] ++ ([] ++ ([')'] ++ rest))))))))))))))))))))) := by
    simp only [List.append_assoc, List.nil_append]
    rfl
  rw [e]
  refine .cons gap_one (.simple (by decide)) (.cons gap_one (item_coef hi _) (.cons gap_nil (.longer (ext := ['*']) (by decide) ?_) (.cons gap_nil (.keyword (by decide) ?_)
    (.cons gap_nil (.longer (ext := [')']) (by decide) ?_) (.cons gap_nil (item_df ?_) (.cons gap_nil (.simple (by decide)) (.cons gap_nil (.simple (by decide))
    (.cons gap_nil (item_num hi _) (.cons gap_nil (.simple (by decide)) (.cons gap_nil (.simple (by decide)) h))))))))))
  · intro d hd
    have : next ('d' :: _) = some d := hd
    rw [next_cons (by decide)] at this
    injection this with this
    subst this
    decide
  · intro c hc; injection hc with hc; subst hc; decide
  · intro d hd
    have : next ('_' :: _) = some d := hd
    rw [next_cons (by decide)] at this
    injection this with this
    subst this
    decide
  · intro c hc; injection hc with hc; subst hc; decide

/-- The tokens of the lags from `s` on. -/
def lagToks : Nat → Nat → List RTok
  | _, 0 => []
  | s, n + 1 => termToks (s + 1) ++ lagToks (s + 1) n

def lagText : Nat → Nat → Text
  | _, 0 => []
  | s, n + 1 => (" + df".toList ++ natToChars (s + 1) ++ "*d(_DF[-".toList ++ natToChars (s + 1) ++ "])".toList) ++ lagText (s + 1) n

theorem lagText_range : ∀ (n s : Nat), ((List.range' s n).flatMap fun i : Nat => " + df".toList ++ natToChars (i + 1) ++ "*d(_DF[-".toList ++ natToChars (i + 1) ++ "])".toList) = lagText s n
  | 0, s => rfl
  | n + 1, s => by
    rw [List.range'_succ, List.flatMap_cons, lagText_range n (s + 1)]
    rfl

theorem laid_lags {rnd : Rat → Rat} : ∀ (n s : Nat), s + n < 10 ^ 9 → Laid rnd (lagToks s n) (lagText s n)
  | 0, s, _ => .nil gap_nil
  | n + 1, s, h => laid_term (by omega) (laid_lags n (s + 1) (by omega))

theorem lagText_head (s n : Nat) : NameEnd (lagText s n) := by
  cases n with
  | zero => intro c hc; cases hc
  | succ n => intro c hc; injection hc with hc; subst hc; decide

/-- The tokens of the right side. -/
def rhsToks (drift trend : Bool) (order : Nat) : List RTok :=
  [.coef "df_".toList, .op .times, .var dfName, .openb, .op .minus, .cst (.long 1), .closeb] ++
    ((if drift then [.op .plus, .coef "df_d".toList] else []) ++ ((if trend then [.op .plus, .coef "df_t".toList, .op .times, .val .t] else []) ++ lagToks 0 order))

theorem laid_rhs {rnd : Rat → Rat} (drift trend : Bool) {order : Nat} (h : order < 10 ^ 9) : Laid rnd (rhsToks drift trend order) (rhs drift trend order) := by
  have hl := laid_lags (rnd := rnd) order 0 (by omega)
  have hh := lagText_head 0 order
  unfold rhs rhsToks
  rw [List.range_eq_range', lagText_range]
  generalize lagText 0 order = lt at *
  generalize lagToks 0 order = lk at *
  have ht : Laid rnd ((if trend then [.op .plus, .coef "df_t".toList, .op .times, .val .t] else []) ++ lk) ((if trend then "+ df_t*t".toList else []) ++ lt) ∧
      NameEnd ((if trend then "+ df_t*t".toList else []) ++ lt) := by
    cases trend with
    | false => exact ⟨hl, hh⟩
    | true =>
      refine ⟨?_, by intro c hc; injection hc with hc; subst hc; decide⟩
      have e : "+ df_t*t".toList ++ lt = [] ++ (['+'] ++ ([' '] ++ ("df_t".toList ++ ([] ++ (['*'] ++ ([] ++ ("t".toList ++ lt))))))) := rfl
      simp only [if_true]
      rw [e]
      refine .cons gap_nil (.simple (by decide)) (.cons gap_one (.coef (c := 'd') (w := ['f', '_', 't']) (by decide) (by decide) (by decide) (by decide +kernel) ?_)
        (.cons gap_nil (.longer (ext := ['*']) (by decide) ?_) (.cons gap_nil (.keyword (by decide) hh) hl)))
      · intro c hc; injection hc with hc; subst hc; decide
      · intro d hd
        have : next ('t' :: _) = some d := hd
        rw [next_cons (by decide)] at this
        injection this with this
        subst this
        decide
  obtain ⟨hl2, hh2⟩ := ht
  generalize (if trend then "+ df_t*t".toList else []) ++ lt = lt2 at *
  generalize (if trend then [.op .plus, .coef "df_t".toList, .op .times, .val .t] else []) ++ lk = lk2 at *
  have hd : Laid rnd ((if drift then [.op .plus, .coef "df_d".toList] else []) ++ lk2) ((if drift then "+ df_d".toList else []) ++ lt2) := by
    cases drift with
    | false => exact hl2
    | true =>
      have e : "+ df_d".toList ++ lt2 = [] ++ (['+'] ++ ([' '] ++ ("df_d".toList ++ lt2))) := rfl
      simp only [if_true]
      rw [e]
      exact .cons gap_nil (.simple (by decide)) (.cons gap_one (.coef (c := 'd') (w := ['f', '_', 'd']) (by decide) (by decide) (by decide) (by decide +kernel) hh2) hl2)
  generalize (if drift then "+ df_d".toList else []) ++ lt2 = lt3 at *
  generalize (if drift then [.op .plus, .coef "df_d".toList] else []) ++ lk2 = lk3 at *
  have e : " df_ * _DF[-1]".toList ++ lt3 = [' '] ++ ("df_".toList ++ ([' '] ++ (['*'] ++ ([' '] ++ (dfName ++ ([] ++ (['['] ++ ([] ++ (['-'] ++ ([] ++ (['1'] ++ ([] ++ ([']'] ++ lt3))))))))))))) := rfl
  rw [e]
  have h1 : natToChars 1 = ['1'] := by decide +kernel
  have hn := item_num (rnd := rnd) (i := 1) (by decide) ([] ++ lt3)
  rw [h1] at hn
  refine .cons gap_one (.coef (c := 'd') (w := ['f', '_']) (by decide) (by decide) (by decide) (by decide +kernel) ?_) (.cons gap_one (.longer (ext := ['*']) (by decide) ?_)
    (.cons gap_one (item_df ?_) (.cons gap_nil (.simple (by decide)) (.cons gap_nil (.simple (by decide)) (.cons gap_nil hn (.cons gap_nil (.simple (by decide)) hd))))))
  · intro c hc; injection hc with hc; subst hc; decide
  · intro d hd
    have : next ('_' :: _) = some d := hd
    rw [next_cons (by decide)] at this
    injection this with this
    subst this
    decide
  · intro c hc; injection hc with hc; subst hc; decide

/-! ## The tree and its value -/

/-- One lag. -/
def termExpr (i : Nat) : Expr := .bin .times (.coef ('d' :: 'f' :: natToChars i)) (.app (.tfn .diff) [.par (.var dfName (-(i : Int)) none)])

def sumExpr : Nat → Nat → Expr → Expr
  | _, 0, e => e
  | s, n + 1, e => sumExpr (s + 1) n (.bin .plus e (termExpr (s + 1)))

def baseExpr (drift trend : Bool) : Expr :=
  let e0 := Expr.bin .times (.coef "df_".toList) (.var dfName (-1) none)
  let e1 := if drift then Expr.bin .plus e0 (.coef "df_d".toList) else e0
  if trend then Expr.bin .plus e1 (.bin .times (.coef "df_t".toList) (.val .t)) else e1

theorem up_to {n m : Nat} {ts : List Tok} {es : List Expr} (h : G false (.lev (n + m)) ts es) : G false (.lev n) ts es := by
  induction m with
  | zero => exact h
  | succ m ih => exact ih (.up h)

/-- The tokens of one lag with brackets grouped. -/
def termG (i : Nat) : List Tok :=
  [.op .plus, .coef ('d' :: 'f' :: natToChars i), .op .times, .fun (.tfn .diff), .openp, .var dfName, .lag (-(i : Int)), .closep]

theorem group_term (i : Nat) (ts : List RTok) : group (termToks i ++ ts) = termG i ++ group ts := rfl

theorem var_lag (i : Int) : G false (.lev 9) [.var dfName, .lag (-i)] [.var dfName (-i) none] := by
  have h := G.lag (ext := false) (-i) (G.var dfName)
  have e : (Expr.var dfName 0 none).shift (-i) = .var dfName (-i) none := by
    show Expr.var dfName (0 + -i) none = _
    rw [Int.zero_add]
  rw [e] at h
  exact h

theorem reads_diff (i : Int) : G false (.lev 8) [.fun (.tfn .diff), .openp, .var dfName, .lag (-i), .closep] [.app (.tfn .diff) [.par (.var dfName (-i) none)]] := by
  have h1 := G.par (up_to (n := 0) (m := 9) (var_lag i))
  exact .un _ rfl (.up h1)

theorem reads_add {ts : List Tok} {e : Expr} (h : G false (.lev 5) ts [e]) (i : Nat) : G false (.lev 5) (ts ++ termG i) [.bin .plus e (termExpr i)] := by
  have h1 := reads_diff i
  have h2 : G false (.lev 6) ([.coef ('d' :: 'f' :: natToChars i)] ++ .op .times :: [.fun (.tfn .diff), .openp, .var dfName, .lag (-(i : Int)), .closep]) [termExpr i] :=
    .bin .times (up_to (n := 6) (m := 3) (.coef _)) (.up h1)
  exact .bin .plus h h2

theorem reads_sum : ∀ (n s : Nat) {ts : List Tok} {e : Expr}, G false (.lev 5) ts [e] → G false (.lev 5) (ts ++ group (lagToks s n)) [sumExpr s n e]
  | 0, s, ts, e, h => by
    show G false _ (ts ++ group []) [e]
    simpa [group] using h
  | n + 1, s, ts, e, h => by
    show G false _ (ts ++ group (termToks (s + 1) ++ lagToks (s + 1) n)) _
    rw [group_term, ← List.append_assoc]
    exact reads_sum n (s + 1) (reads_add h (s + 1))

theorem reads_rhs (drift trend : Bool) (order : Nat) : Reads (group (rhsToks drift trend order)) (sumExpr 0 order (baseExpr drift trend)) := by
  have h0 : G false (.lev 6) ([.coef "df_".toList] ++ .op .times :: [.var dfName, .lag (-1)]) [.bin .times (.coef "df_".toList) (.var dfName (-1) none)] :=
    .bin .times (up_to (n := 6) (m := 3) (.coef _)) (up_to (n := 7) (m := 2) (var_lag 1))
  have h1 : G false (.lev 5) [.coef "df_".toList, .op .times, .var dfName, .lag (-1)] [.bin .times (.coef "df_".toList) (.var dfName (-1) none)] := .up h0
  have ht : G false (.lev 6) ([.coef "df_t".toList] ++ .op .times :: [.val .t]) [.bin .times (.coef "df_t".toList) (.val .t)] :=
    .bin .times (up_to (n := 6) (m := 3) (.coef _)) (up_to (n := 7) (m := 2) (.val _))
  unfold Reads
  refine up_to (n := 0) (m := 5) ?_
  unfold rhsToks baseExpr
  generalize "df_".toList = a1, "df_d".toList = a2, "df_t".toList = a3 at *
  cases drift with
  | false =>
    cases trend with
    | false => exact reads_sum order 0 h1
    | true => exact reads_sum order 0 (.bin .plus h1 ht)
  | true =>
    have h2 := G.bin (ext := false) .plus h1 (up_to (n := 6) (m := 3) (.coef a2))
    cases trend with
    | false => exact reads_sum order 0 h2
    | true => exact reads_sum order 0 (.bin .plus h2 ht)

variable {F : Type}

theorem simple_diff (A : Arith F) (E : Env F) (i : Int) : Simple A E (.app (.tfn .diff) [.par (.var dfName i none)]) :=
  .tfn (opts := []) (by simp) (by simp) (.par (.var _ _ _)) (.par _)

theorem simple_sum (A : Arith F) (E : Env F) : ∀ (n s : Nat) {e : Expr}, Simple A E e → Simple A E (sumExpr s n e)
  | 0, _, _, h => h
  | n + 1, s, _, h => simple_sum A E n (s + 1) (.bin _ h (.bin _ (.coef _) (simple_diff A E _)))

theorem simple_base (A : Arith F) (E : Env F) (drift trend : Bool) : Simple A E (baseExpr drift trend) := by
  have h0 : Simple A E (Expr.bin .times (.coef "df_".toList) (.var dfName (-1) none)) := .bin _ (.coef _) (.var _ _ _)
  unfold baseExpr
  cases drift with
  | false =>
    cases trend with
    | false => exact h0
    | true => exact .bin _ h0 (.bin _ (.coef _) (.val _))
  | true =>
    cases trend with
    | false => exact .bin _ h0 (.coef _)
    | true => exact .bin _ (.bin _ h0 (.coef _)) (.bin _ (.coef _) (.val _))

/-- Sums, differences and products of numbers are numbers. -/
structure Numbers (A : Arith F) : Prop where
  add : ∀ a b, A.isNum a = true → A.isNum b = true → A.isNum (A.add a b) = true
  sub : ∀ a b, A.isNum a = true → A.isNum b = true → A.isNum (A.sub a b) = true
  mul : ∀ a b, A.isNum a = true → A.isNum b = true → A.isNum (A.mul a b) = true

/-- The sum of the lags: from `s`, `n` of them, on top of `v`. -/
def lagSum (A : Arith F) (E : Env F) (t : Int) (v : F) (order : Nat) : F :=
  (List.range order).foldl (fun s i => A.add s (A.mul (E.coef ('d' :: 'f' :: natToChars (i + 1))) (A.sub (E.at A dfName (t - (i + 1 : Nat))) (E.at A dfName (t - (i + 1 : Nat) - 1))))) v

def lagSum' (A : Arith F) (E : Env F) (t : Int) : Nat → Nat → F → F
  | _, 0, v => v
  | s, n + 1, v => lagSum' A E t (s + 1) n (A.add v (A.mul (E.coef ('d' :: 'f' :: natToChars (s + 1))) (A.sub (E.at A dfName (t - (s + 1 : Nat))) (E.at A dfName (t - (s + 1 : Nat) - 1)))))

theorem lagSum_range (A : Arith F) (E : Env F) (t : Int) : ∀ (n s : Nat) (v : F),
    (List.range' s n).foldl (fun s i => A.add s (A.mul (E.coef ('d' :: 'f' :: natToChars (i + 1))) (A.sub (E.at A dfName (t - (i + 1 : Nat))) (E.at A dfName (t - (i + 1 : Nat) - 1))))) v = lagSum' A E t s n v
  | 0, s, v => rfl
  | n + 1, s, v => by
    rw [List.range'_succ, List.foldl_cons, lagSum_range A E t n (s + 1)]
    rfl

theorem eval_bin {A : Arith F} {E : Env F} {o : Op} {a b : Expr} {t : Int} {x y : F} (ha : eval A E a t = some x) (hb : eval A E b t = some y) (hx : A.isNum x = true) (hy : A.isNum y = true) :
    eval A E (.bin o a b) t = some (A.bin o x y) := by
  rw [eval, ha, hb]
  simp [hx, hy]

theorem eval_diff {A : Arith F} {E : Env F} {l t : Int} (h1 : A.isNum (E.at A dfName (t + l)) = true) (h2 : A.isNum (E.at A dfName (t - 1 + l)) = true) :
    eval A E (.app (.tfn .diff) [.par (.var dfName l none)]) t = some (A.sub (E.at A dfName (t + l)) (E.at A dfName (t - 1 + l))) := by
  rw [eval]
  have e1 : (evalFs A E [.par (.var dfName l none)]).reverse = [eval A E (.par (.var dfName l none))] := by simp [evalFs]
  rw [e1]
  have e2 : ∀ u, eval A E (.par (.var dfName l none)) u = some (E.at A dfName (u + l)) := by
    intro u
    rw [eval, eval]
  simp only [List.reverse_nil, List.map_nil, allSome, Option.bind_some, tfnVal, List.all_nil, if_true, TFn.lagged, lagVal, lagVal.two, e2, h1, h2]

theorem eval_coef {A : Arith F} {E : Env F} {x : Name} {t : Int} (h : A.isNum (E.coef x) = true) : eval A E (.coef x) t = some (E.coef x) := by
  rw [eval, if_pos h]

theorem eval_sum {A : Arith F} (hA : Numbers A) {E : Env F} {t : Int} : ∀ (n s : Nat) {e : Expr} {v : F}, eval A E e t = some v → A.isNum v = true →
    (∀ i, s < i → i ≤ s + n → A.isNum (E.coef ('d' :: 'f' :: natToChars i)) = true) → (∀ i : Nat, s < i → i ≤ s + n + 1 → A.isNum (E.at A dfName (t - i)) = true) →
    eval A E (sumExpr s n e) t = some (lagSum' A E t s n v)
  | 0, s, e, v, he, _, _, _ => he
  | n + 1, s, e, v, he, hv, hc, hx => by
    have c1 := hc (s + 1) (by omega) (by omega)
    have x1 := hx (s + 1) (by omega) (by omega)
    have x2 := hx (s + 2) (by omega) (by omega)
    have i1 : t + -((s + 1 : Nat) : Int) = t - (s + 1 : Nat) := by omega
    have i2 : t - 1 + -((s + 1 : Nat) : Int) = t - (s + 1 : Nat) - 1 := by omega
    have i3 : t - (s + 2 : Nat) = t - (s + 1 : Nat) - 1 := by omega
    rw [i3] at x2
    have hd := eval_diff (A := A) (E := E) (l := -((s + 1 : Nat) : Int)) (t := t) (by rw [i1]; exact x1) (by rw [i2]; exact x2)
    rw [i1, i2] at hd
    have hs := hA.sub _ _ x1 x2
    have hm := eval_bin (o := .times) (eval_coef (t := t) c1) hd c1 hs
    have hmn := hA.mul _ _ c1 hs
    have ha := eval_bin (o := .plus) he hm hv hmn
    exact eval_sum hA n (s + 1) ha (hA.add _ _ hv hmn) (fun i h1 h2 => hc i (by omega) (by omega)) fun i h1 h2 => hx i (by omega) (by omega)

/-- The terms in front of the lags. -/
def baseVal (A : Arith F) (E : Env F) (drift trend : Bool) (t : Int) : F :=
  let v0 := A.mul (E.coef "df_".toList) (E.at A dfName (t - 1))
  let v1 := if drift then A.add v0 (E.coef "df_d".toList) else v0
  if trend then A.add v1 (A.mul (E.coef "df_t".toList) (A.ofInt t)) else v1

theorem eval_base {A : Arith F} (hA : Numbers A) {E : Env F} {drift trend : Bool} {t : Int} (h0 : A.isNum (E.coef "df_".toList) = true) (hd : drift = true → A.isNum (E.coef "df_d".toList) = true)
    (ht : trend = true → A.isNum (E.coef "df_t".toList) = true ∧ A.isNum (A.ofInt t) = true) (hx : A.isNum (E.at A dfName (t - 1)) = true) :
    eval A E (baseExpr drift trend) t = some (baseVal A E drift trend t) ∧ A.isNum (baseVal A E drift trend t) = true := by
  unfold baseExpr baseVal
  generalize "df_".toList = a1, "df_d".toList = a2, "df_t".toList = a3 at *
  have hv : eval A E (.var dfName (-1) none) t = some (E.at A dfName (t - 1)) := by rw [eval]; rfl
  have e0 := eval_bin (o := .times) (eval_coef (t := t) h0) hv h0 hx
  have n0 := hA.mul _ _ h0 hx
  have step : ∀ (d : Bool), (d = true → A.isNum (E.coef a2) = true) →
      eval A E (if d then Expr.bin .plus (Expr.bin .times (.coef a1) (.var dfName (-1) none)) (.coef a2) else Expr.bin .times (.coef a1) (.var dfName (-1) none)) t =
        some (if d then A.add (A.mul (E.coef a1) (E.at A dfName (t - 1))) (E.coef a2) else A.mul (E.coef a1) (E.at A dfName (t - 1))) ∧
      A.isNum (if d then A.add (A.mul (E.coef a1) (E.at A dfName (t - 1))) (E.coef a2) else A.mul (E.coef a1) (E.at A dfName (t - 1))) = true := by
    intro d h
    cases d with
    | false => exact ⟨e0, n0⟩
    | true => exact ⟨eval_bin (o := .plus) e0 (eval_coef (h rfl)) n0 (h rfl), hA.add _ _ n0 (h rfl)⟩
  obtain ⟨e1, n1⟩ := step drift hd
  simp only []
  generalize (if drift then Expr.bin .plus (Expr.bin .times (.coef a1) (.var dfName (-1) none)) (.coef a2) else Expr.bin .times (.coef a1) (.var dfName (-1) none)) = x1 at *
  generalize (if drift then A.add (A.mul (E.coef a1) (E.at A dfName (t - 1))) (E.coef a2) else A.mul (E.coef a1) (E.at A dfName (t - 1))) = y1 at *
  cases trend with
  | false => exact ⟨e1, n1⟩
  | true =>
    obtain ⟨h3, h4⟩ := ht rfl
    have ev : eval A E (.val .t) t = some (A.ofInt t) := by rw [eval]; rfl
    have e2 := eval_bin (o := .times) (eval_coef (t := t) h3) ev h3 h4
    have n2 := hA.mul _ _ h3 h4
    exact ⟨eval_bin (o := .plus) e1 e2 n1 n2, hA.add _ _ n1 n2⟩

/-! ## The left side -/

def lhsToks : List RTok := [.fun (.tfn .diff), .openp, .var dfName, .closep]

theorem laid_lhs {rnd : Rat → Rat} : Laid rnd lhsToks "d(_DF) ".toList := by
  have e : "d(_DF) ".toList = [] ++ ("d".toList ++ ([] ++ (['('] ++ ([] ++ (dfName ++ ([] ++ ([')'] ++ [' ']))))))) := by decide +kernel
  rw [e]
  refine .cons gap_nil (.keyword (by decide) ?_) (.cons gap_nil (.longer (ext := [')']) (by decide) ?_) (.cons gap_nil (item_df ?_) (.cons gap_nil (.simple (by decide)) (.nil gap_one))))
  · intro c hc; injection hc with hc; subst hc; decide
  · intro d hd
    have : next ('_' :: _) = some d := hd
    rw [next_cons (by decide)] at this
    injection this with this
    subst this
    decide
  · intro c hc; injection hc with hc; subst hc; decide

theorem reads_lhs : Reads (group lhsToks) (.app (.tfn .diff) [.par (.var dfName 0 none)]) := by
  have h1 := G.par (up_to (n := 0) (m := 9) (.var dfName))
  exact up_to (n := 0) (m := 8) (.un _ rfl (.up h1))

end Iode.DfTest
