import Verif.Lemmas.DynAdj
import Verif.Props.C27
import Verif.Spec.LecManual
import Mathlib.Tactic.LinearCombination

/-!
# C70: the dynamic adjustment of an equation
-/
namespace Iode.DynAdj

open Iode.RepFn (FirstAt stripText)
open Iode.Lec Iode.Lec.Written

/-! ## Trees -/

/-- `d(L)`. -/
def diffOf (l : Expr) : Expr := .app (.tfn .diff) [.par l]

/-- `c1 * (R - (L)[-1])`. -/
def partialOf (c1 : Name) (l r : Expr) : Expr := .bin .times (.coef c1) (.par (.bin .minus r ((Expr.par l).shift (-1))))

/-- `c1 * d(R) + c2 * (R - L)[-1]`. -/
def correctionOf (c1 c2 : Name) (l r : Expr) : Expr :=
  .bin .plus (.bin .times (.coef c1) (diffOf r)) (.bin .times (.coef c2) ((Expr.par (.bin .minus r l)).shift (-1)))

/-! ## Pieces of text -/

theorem side_parts {rnd : Rat → Rat} {n : Nat} {s : Text} {e : Expr} (h : Side rnd n s e) :
    ∃ ts, Body rnd ts s ∧ G false (.lev n) (group ts) [e] ∧ RTok.eoe ∉ ts ∧ Tok.bad ∉ group ts ∧ ts.head? ≠ some .closep ∧ ts.getLast? ≠ some .openp := by
  obtain ⟨ts, h1, h2⟩ := h
  have he := body_eoe h1
  exact ⟨ts, h1, h2, he, h2.tokens.2, fun h => (G_ends h2).1 (group_head h), fun h => (G_ends h2).2 (group_last he h2.tokens.2 h)⟩

theorem head_append {ts us : List RTok} (h : ts.head? ≠ some .closep) (hn : group ts ≠ []) : (ts ++ us).head? ≠ some .closep := by
  cases ts with
  | nil => exact absurd rfl hn
  | cons t ts => exact h

theorem coef_item {rnd : Rat → Rat} {c : Text} (h : CoefName c) (rest : Text) : Item rnd c (.coef c) (' ' :: rest) := by
  obtain ⟨h1, h2, h3, h4, h5⟩ := h
  cases c with
  | nil => exact absurd rfl h1
  | cons x w =>
    refine .coef (h2 x rfl) h3 (by simp at h4; omega) h5 fun y hy => ?_
    cases hy
    decide

theorem blank : Gap [' '] := .white (by decide) .nil

theorem body_one {rnd : Rat → Rat} {txt s : Text} {tok : RTok} {ts : List RTok} (hi : Item rnd txt tok s) (hb : Body rnd ts s) : Body rnd (tok :: ts) (txt ++ s) :=
  .cons .nil hi hb

theorem body_blank {rnd : Rat → Rat} {txt s : Text} {tok : RTok} {ts : List RTok} (hi : Item rnd txt tok s) (hb : Body rnd ts s) :
    Body rnd (tok :: ts) (' ' :: (txt ++ s)) := .cons blank hi hb

theorem body_gap {rnd : Rat → Rat} {g s : Text} {ts : List RTok} (hg : Gap g) (hb : Body rnd ts s) : Body rnd ts (g ++ s) := by
  cases hb with
  | nil h => exact .nil (gap_append hg h)
  | cons h hi hb => rw [← List.append_assoc]; exact .cons (gap_append hg h) hi hb

/-- `)[-1]` with something behind it. -/
theorem lag_body {rnd : Rat → Rat} {ts : List RTok} {s : Text} (h : Body rnd ts s) :
    Body rnd (.closep :: .openb :: .op .minus :: .cst (.long 1) :: .closeb :: ts) (')' :: '[' :: '-' :: '1' :: ']' :: s) := by
  refine body_one (txt := [')']) (.simple (by decide)) (body_one (txt := ['[']) (.simple (by decide)) (body_one (txt := ['-']) (.simple (by decide))
    (body_one (txt := ['1']) ?_ (body_one (txt := [']']) (.simple (by decide)) h))))
  refine Item.long (d := ['1']) (by unfold Digits; decide) (by simp) (by simp) (fun c hc => ?_) (fun c hc => ?_)
  · cases hc; decide
  · cases hc; decide

theorem diff_body {rnd : Rat → Rat} {ts us : List RTok} {s rest : Text} (h : Body rnd ts s) (h1 : ts.head? ≠ some .closep) (hn : ts ≠ []) (h2 : ts.getLast? ≠ some .openp)
    (hu : Body rnd us rest) : Body rnd (.fun (.tfn .diff) :: .openp :: (ts ++ .closep :: us)) ('d' :: '(' :: (s ++ ')' :: rest)) := by
  have hb : Body rnd (ts ++ .closep :: us) (s ++ ')' :: rest) :=
    body_append h (body_one (txt := [')']) (.simple (by decide)) hu) (.inl ⟨rfl, by rw [next_cons, if_neg (by decide)]⟩) h2
  refine body_one (txt := ['d']) ?_ (body_one (txt := ['(']) (body_open hb ?_) hb)
  · refine Item.keyword (w := "d") (by decide) fun c hc => ?_
    cases hc
    decide
  · cases ts with
    | nil => exact absurd rfl hn
    | cons t ts => exact h1

theorem ne_of_group {ts : List RTok} (h : group ts ≠ []) : ts ≠ [] := by rintro rfl; exact h rfl

/-! ## The left side -/

theorem left_side {rnd : Rat → Rat} {n : Nat} {l : Text} {L : Expr} (h : Side rnd n l L) : Side rnd 0 ("d(".toList ++ l ++ ")".toList) (diffOf L) := by
  obtain ⟨ts, hb, hg, he, hbad, hh, hl⟩ := side_parts h
  refine ⟨.fun (.tfn .diff) :: .openp :: (ts ++ [.closep]), ?_, ?_⟩
  · have := diff_body hb hh (ne_of_group hg.ne_nil) hl (Body.nil (rnd := rnd) .nil)
    simpa using this
  · rw [group, group, group_append _ _ he hbad]
    have := G.un (.tfn .diff) (by decide) (G.par (hg.down (Nat.zero_le n))).up
    exact this.down (by omega)

theorem last_append {a b : Text} (hb : b ≠ []) : (a ++ b).getLast? = b.getLast? := List.getLast?_append_of_ne_nil _ hb

theorem sides_split {eq l r : Text} (h : Sides eq l r) : splitEq eq ≠ none ∧ splitEq l = none ∧
    ∃ l0, splitEq (stripText eq) = some (l0, r) ∧ stripText l0 = l ∧ stripText r = r := by
  obtain ⟨w, v, h1, h2, h3, h4⟩ := h
  have hs := firstAt_splitEq.mpr h1
  obtain ⟨e1, e2⟩ := splitEq_sound hs
  refine ⟨by rw [hs]; simp, splitEq_left e2, l ++ w, ?_, strip_blanks (fun c hc => h2 c (by simp [hc])) h3, strip_self h4⟩
  have : stripText eq = (l ++ w) ++ ':' :: '=' :: r := by
    rw [e1]
    have := strip_blanks (l := (l ++ w) ++ ':' :: '=' :: r) (w := v) (fun c hc => h2 c (by simp [hc])) ?_
    · simpa using this
    · intro c hc
      rw [last_append (by simp)] at hc
      cases hr : r with
      | nil => rw [hr] at hc; cases hc; decide
      | cons x r' =>
        rw [hr, List.getLast?_cons_cons, List.getLast?_cons_cons, ← hr] at hc
        exact h4 c hc
  rw [this, splitEq_append r e2]

theorem coef_strip {c : Text} (h : CoefName c) : stripText c = c := by
  refine strip_self fun x hx => ?_
  have := h.2.2.1 x (List.mem_of_mem_getLast? hx)
  rcases this with h | h | rfl
  · unfold Lower at h; omega
  · unfold Digit at h; omega
  · decide

theorem out_sides {l rest : Text} {x : Char} (hl : splitEq l = none) (hr : rest.getLast? = some x) (hx : 32 < x.toNat) :
    Sides ("d(".toList ++ l ++ ") := ".toList ++ rest) ("d(".toList ++ l ++ ")".toList) (' ' :: rest) := by
  refine ⟨[' '], [], firstAt_splitEq.mp ?_, by simp, fun c hc => ?_, fun c hc => ?_⟩
  · have h1 : splitEq ('d' :: '(' :: l) = none := by
      rw [splitEq, if_neg (by simp), splitEq, if_neg (by simp), hl]
      rfl
    have h2 := splitEq_mid (x := [')', ' ']) (by decide) h1 (by simp)
    have := splitEq_append (' ' :: rest) h2
    simpa using this
  · rw [last_append (by simp)] at hc
    cases hc
    decide
  · cases rest with
    | nil => cases hr
    | cons y rest =>
      rw [List.getLast?_cons_cons, hr] at hc
      cases hc
      exact hx

/-! ## The theorems -/

/-- Partial adjustment: `d(L) := c1 * (R - (L)[-1])`, for sides `L` without restriction and `R` without comparisons, `and`, `or` outside
    parentheses (priority level 5: sums). -/
theorem C70_adjusted {rnd : Rat → Rat} {eq l r c1 c2 : Text} {L R : Expr} (hs : Sides eq l r) (hl : Side rnd 0 l L) (hr : Side rnd 5 r R)
    (hc : CoefName c1) : ∃ out l' r', adjust 0 eq c1 c2 = .ok out ∧ Sides out l' r' ∧ Side rnd 0 l' (diffOf L) ∧ Side rnd 0 r' (partialOf c1 L R) := by
  obtain ⟨h0, hsl, l0, h1, h2, h3⟩ := sides_split hs
  refine ⟨"d(".toList ++ l ++ ") := ".toList ++ (c1 ++ " * (".toList ++ r ++ " -(".toList ++ l ++ ")[-1])".toList), "d(".toList ++ l ++ ")".toList,
    ' ' :: (c1 ++ " * (".toList ++ r ++ " -(".toList ++ l ++ ")[-1])".toList), ?_, ?_, left_side hl, ?_⟩
  · unfold adjust
    rw [if_neg (by simp [h0, hc.1])]
    unfold dynadj
    simp only [h1, h2, h3, coef_strip hc, if_true, if_neg hc.1, sprintf]
    rw [if_neg]
    · simp [Res.bind]
    · have := hc.2.2.2.1
      have e1 : "d(".toList.length = 2 := rfl
      have e2 : ") := ".toList.length = 5 := rfl
      have e3 : " * (".toList.length = 4 := rfl
      have e4 : " -(".toList.length = 3 := rfl
      have e5 : ")[-1])".toList.length = 6 := rfl
      simp only [List.length_append, e1, e2, e3, e4, e5]
      omega
  · exact out_sides hsl (x := ')') (by rw [last_append (by simp)]; rfl) (by decide)
  · obtain ⟨ts, hb, hg, he, hbad, hh, hlast⟩ := side_parts hl
    obtain ⟨us, kb, kg, ke, kbad, kh, klast⟩ := side_parts hr
    have b1 := lag_body (body_one (rnd := rnd) (txt := [')']) (tok := .closep) (.simple (by decide)) (.nil .nil))
    have b2 := body_append hb b1 (.inl ⟨rfl, by rw [next_cons, if_neg (by decide)]⟩) hlast
    have b3 := body_one (body_open b2 (head_append hh hg.ne_nil)) b2
    have b4 := body_blank (txt := ['-']) (tok := .op .minus) (.simple (by decide)) b3
    have b5 := body_append kb b4 (.inr ⟨rfl, by rw [next_cons, if_pos (by decide)]; rw [List.singleton_append, next_cons, if_neg (by decide)]⟩) klast
    have b7 : Body rnd _ _ := .cons blank (txt := ['(']) (body_open b5 (head_append kh kg.ne_nil)) b5
    have b8 := body_blank (txt := ['*']) (tok := .op .times) (.longer (ext := ['*']) (by decide) (fun d hd => by
      rw [List.singleton_append, next_cons, if_pos (by decide), List.singleton_append, next_cons, if_neg (by decide)] at hd
      cases hd
      decide)) b7
    have b9 := body_blank (coef_item hc _) b8
    refine ⟨.coef c1 :: .op .times :: .openp :: (us ++ .op .minus :: .openp :: (ts ++ [.closep, .openb, .op .minus, .cst (.long 1), .closeb, .closep])), by simpa using b9, ?_⟩
    simp only [group, group_append _ _ ke kbad, group_append _ _ he hbad]
    have g1 := G.bin .minus kg (G.lag (-1) (G.par hg)).up.up.up
    have g2 := G.bin .times ((G.coef (ext := false) c1).down (by decide)) ((G.par (g1.down (Nat.zero_le _))).up.up)
    simpa [partialOf] using g2.down (Nat.zero_le _)

/-- Error correction: `d(L) := c1 * d(R) + c2 * (R - L)[-1]`, for a left side `L` without sums outside parentheses (priority level 6: products). -/
theorem C70_corrected {rnd : Rat → Rat} {eq l r c1 c2 : Text} {L R : Expr} (hs : Sides eq l r) (hl : Side rnd 6 l L) (hr : Side rnd 5 r R)
    (hc : CoefName c1) (hc2 : CoefName c2) :
    ∃ out l' r', adjust 1 eq c1 c2 = .ok out ∧ Sides out l' r' ∧ Side rnd 0 l' (diffOf L) ∧ Side rnd 0 r' (correctionOf c1 c2 L R) := by
  obtain ⟨h0, hsl, l0, h1, h2, h3⟩ := sides_split hs
  refine ⟨"d(".toList ++ l ++ ") := ".toList ++ (c1 ++ " * d(".toList ++ r ++ ") + ".toList ++ c2 ++ " * (".toList ++ r ++ " -".toList ++ l ++ ")[-1]".toList),
    "d(".toList ++ l ++ ")".toList,
    ' ' :: (c1 ++ " * d(".toList ++ r ++ ") + ".toList ++ c2 ++ " * (".toList ++ r ++ " -".toList ++ l ++ ")[-1]".toList), ?_, ?_, left_side hl, ?_⟩
  · unfold adjust
    rw [if_neg (by simp [h0, hc.1, hc2.1])]
    unfold dynadj
    simp only [h1, h2, h3, coef_strip hc, coef_strip hc2, sprintf]
    rw [if_neg (by decide), if_neg (by simp [hc.1, hc2.1]), if_neg]
    · simp [Res.bind]
    · have := hc.2.2.2.1
      have := hc2.2.2.2.1
      have e1 : "d(".toList.length = 2 := rfl
      have e2 : ") := ".toList.length = 5 := rfl
      have e3 : " * d(".toList.length = 5 := rfl
      have e4 : ") + ".toList.length = 4 := rfl
      have e5 : " * (".toList.length = 4 := rfl
      have e6 : " -".toList.length = 2 := rfl
      have e7 : ")[-1]".toList.length = 5 := rfl
      simp only [List.length_append, e1, e2, e3, e4, e5, e6, e7]
      omega
  · exact out_sides hsl (x := ']') (by rw [last_append (by simp)]; rfl) (by decide)
  · obtain ⟨ts, hb, hg, he, hbad, hh, hlast⟩ := side_parts hl
    obtain ⟨us, kb, kg, ke, kbad, kh, klast⟩ := side_parts hr
    have b1 := lag_body (Body.nil (rnd := rnd) .nil)
    have b2 := body_append hb b1 (.inl ⟨rfl, by rw [next_cons, if_neg (by decide)]⟩) hlast
    have b4 := body_blank (txt := ['-']) (tok := .op .minus) (.simple (by decide)) b2
    have b5 := body_append kb b4 (.inr ⟨rfl, by rw [next_cons, if_pos (by decide)]; rw [List.singleton_append, next_cons, if_neg (by decide)]⟩) klast
    have b7 : Body rnd _ _ := .cons blank (txt := ['(']) (body_open b5 (head_append kh kg.ne_nil)) b5
    have b8 := body_blank (txt := ['*']) (tok := .op .times) (.longer (ext := ['*']) (by decide) (fun d hd => by
      rw [List.singleton_append, next_cons, if_pos (by decide), List.singleton_append, next_cons, if_neg (by decide)] at hd
      cases hd
      decide)) b7
    have b9 := body_blank (coef_item hc2 _) b8
    have b10 := body_blank (txt := ['+']) (tok := .op .plus) (.simple (by decide)) b9
    have b11 := diff_body kb kh (ne_of_group kg.ne_nil) klast b10
    have b12 := body_gap blank b11
    have b13 := body_blank (txt := ['*']) (tok := .op .times) (.longer (ext := ['*']) (by decide) (fun d hd => by
      rw [List.singleton_append, next_cons, if_pos (by decide), List.singleton_append, next_cons, if_neg (by decide)] at hd
      cases hd
      decide)) b12
    have b14 := body_blank (coef_item hc _) b13
    refine ⟨.coef c1 :: .op .times :: .fun (.tfn .diff) :: .openp :: (us ++ .closep :: .op .plus :: .coef c2 :: .op .times :: .openp ::
      (us ++ .op .minus :: (ts ++ [.closep, .openb, .op .minus, .cst (.long 1), .closeb]))), by simpa using b14, ?_⟩
    simp only [group, group_append _ _ ke kbad, group_append _ _ he hbad]
    have g1 := G.bin .minus kg hg
    have g2 := G.bin .times ((G.coef (ext := false) c2).down (by decide)) ((G.lag (-1) (G.par (g1.down (Nat.zero_le _)))).up.up)
    have g3 := G.un (.tfn .diff) (by decide) (G.par (kg.down (Nat.zero_le _))).up
    have g4 := G.bin .times ((G.coef (ext := false) c1).down (by decide)) g3.up
    have g5 := G.bin .plus g4.up g2
    simpa [correctionOf, diffOf] using g5.down (Nat.zero_le _)

/-! ## Values -/

section Values
variable {K : Type} [Field K] [LinearOrder K] [IsStrictOrderedRing K] [FloorRing K]

theorem eval_diff {A : Arith (Option K)} (hA : Exact A) (E : Env (Option K)) {L : Expr} {t : Int} {x x1 : K} (hx : eval A E L t = some (some x))
    (hx1 : eval A E L (t - 1) = some (some x1)) : eval A E (diffOf L) t = some (some (x - x1)) := by
  simp [diffOf, eval, evalFs, allSome, tfnVal, TFn.lagged, lagVal, lagVal.two, hx, hx1, hA.isNum, hA.sub]

theorem eval_minus {A : Arith (Option K)} (hA : Exact A) (E : Env (Option K)) {a b : Expr} {t : Int} {x y : K} (hx : eval A E a t = some (some x))
    (hy : eval A E b t = some (some y)) : eval A E (.bin .minus a b) t = some (some (x - y)) := by
  simp [eval, hx, hy, hA.isNum, Arith.bin, hA.sub]

theorem eval_plus {A : Arith (Option K)} (hA : Exact A) (E : Env (Option K)) {a b : Expr} {t : Int} {x y : K} (hx : eval A E a t = some (some x))
    (hy : eval A E b t = some (some y)) : eval A E (.bin .plus a b) t = some (some (x + y)) := by
  simp [eval, hx, hy, hA.isNum, Arith.bin, hA.add]

theorem eval_times {A : Arith (Option K)} (hA : Exact A) (E : Env (Option K)) {a b : Expr} {t : Int} {x y : K} (hx : eval A E a t = some (some x))
    (hy : eval A E b t = some (some y)) : eval A E (.bin .times a b) t = some (some (x * y)) := by
  simp [eval, hx, hy, hA.isNum, Arith.bin, hA.mul]

theorem eval_coef {A : Arith (Option K)} (hA : Exact A) (E : Env (Option K)) {c : Name} {k : K} (hc : E.coef c = some k) (t : Int) :
    eval A E (.coef c) t = some (some k) := by
  simp [eval, hc, hA.isNum]

/-- With partial adjustment the equation holds in a period exactly if the left side is the one of the period before plus the part `k` of the way
    from there to the right side. -/
theorem C70_adjusted_value {A : Arith (Option K)} (hA : Exact A) (E : Env (Option K)) {L R : Expr} (hL : Moves L) {c1 : Name} {k x x1 y : K} {t : Int}
    (hk : E.coef c1 = some k) (hx : eval A E L t = some (some x)) (hx1 : eval A E L (t - 1) = some (some x1)) (hy : eval A E R t = some (some y)) :
    eval A E (diffOf L) t = eval A E (partialOf c1 L R) t ↔ x = x1 + k * (y - x1) := by
  have h1 : eval A E ((Expr.par L).shift (-1)) t = some (some x1) := by
    rw [eval_shift A E _ (.par hL), eval]; exact hx1
  have h2 : eval A E (partialOf c1 L R) t = some (some (k * (y - x1))) := by
    refine eval_times hA E (eval_coef hA E hk t) ?_
    rw [eval]
    exact eval_minus hA E hy h1
  rw [eval_diff hA E hx hx1, h2, Option.some.injEq, Option.some.injEq]
  constructor <;> intro h <;> linear_combination h

/-- With error correction the growth of the left side is `k1` times that of the right side plus `k2` times the gap of the period before. -/
theorem C70_corrected_value {A : Arith (Option K)} (hA : Exact A) (E : Env (Option K)) {L R : Expr} (hL : Moves L) (hR : Moves R) {c1 c2 : Name}
    {k1 k2 x x1 y y1 : K} {t : Int} (hk1 : E.coef c1 = some k1) (hk2 : E.coef c2 = some k2) (hx : eval A E L t = some (some x))
    (hx1 : eval A E L (t - 1) = some (some x1)) (hy : eval A E R t = some (some y)) (hy1 : eval A E R (t - 1) = some (some y1)) :
    eval A E (diffOf L) t = eval A E (correctionOf c1 c2 L R) t ↔ x - x1 = k1 * (y - y1) + k2 * (y1 - x1) := by
  have h1 : eval A E ((Expr.par (.bin .minus R L)).shift (-1)) t = some (some (y1 - x1)) := by
    rw [eval_shift A E _ (.par (.bin _ hR hL)), eval]
    exact eval_minus hA E hy1 hx1
  have h2 : eval A E (correctionOf c1 c2 L R) t = some (some (k1 * (y - y1) + k2 * (y1 - x1))) :=
    eval_plus hA E (eval_times hA E (eval_coef hA E hk1 t) (eval_diff hA E hy hy1)) (eval_times hA E (eval_coef hA E hk2 t) h1)
  rw [eval_diff hA E hx hx1, h2, Option.some.injEq, Option.some.injEq]

end Values

/-! ## What the compiler reads -/

/-- The text of a side is read by the compiler as its tokens, which compile to the tree. -/
theorem C70_read (E : LexEnv) (ls : List (Name × Text)) {n : Nat} {s : Text} {e : Expr} (h : Side E.rnd n s e) (hs : ∀ c ∈ s, c.toNat ≠ 0 ∧ c.toNat ≠ 13 ∧ c.toNat ≠ 26) :
    ∃ m ts, lexText E ls m s = .done ts ls ∧ compile [] (group ts) = .ok (atomsOf e) := by
  obtain ⟨ts, h1, h2⟩ := h
  refine ⟨ts.length + 1, ts, C47_tokens E ls ?_ (fun c hc => (hs c hc).1) (by omega), G.compile (h2.down (Nat.zero_le n))⟩
  have : s.filter kept = s := List.filter_eq_self.mpr fun c hc => by simp [kept, (hs c hc).2]
  rw [this]
  exact body_laid h1

/-! ## Refusals -/

/-- Without `:=` or without the name of a coefficient the request is refused. -/
theorem C70_refused (m : Nat) {eq c1 c2 : Text} (h : ¬ [':', '='] <:+: eq ∨ c1 = [] ∨ (m = 1 ∧ c2 = [])) : adjust m eq c1 c2 = .err := by
  unfold adjust
  rw [if_pos]
  rcases h with h | h | h
  · left
    cases hs : splitEq eq with
    | none => rfl
    | some p => exact absurd (RepFn.firstAt_infix (firstAt_splitEq.mp hs)) h
  · exact .inr (.inl h)
  · exact .inr (.inr h)

/-! ## Examples -/

example : adjust 0 "ln A := B + c ".toList "c1".toList [] = .ok "d(ln A) := c1 * ( B + c -(ln A)[-1])".toList := by decide +kernel

example : adjust 1 "A/B :=C".toList "c1".toList "c2".toList = .ok "d(A/B) := c1 * d(C) + c2 * (C -A/B)[-1]".toList := by decide +kernel

example : Sides "A := B + c ".toList "A".toList " B + c".toList :=
  ⟨[' '], [' '], firstAt_splitEq.mp (by decide +kernel), by decide, by decide, by decide⟩

example : Side id 6 "A".toList (.var ['A'] 0 none) :=
  ⟨[.var ['A']], body_one (txt := ['A']) (.var (by decide) (by decide) (by unfold ScalarName; decide) (by decide) (by intro c h; cases h)) (.nil .nil),
    (G.var _).down (by decide)⟩

example : CoefName "c1".toList := ⟨by decide, by decide, by unfold ScalarName; decide, by decide, by decide +kernel⟩

/-- The theorems applied to `A := B`. -/
theorem example_side (rnd : Rat → Rat) (x : Char) (hx : x = 'A' ∨ x = 'B') : Side rnd 6 [x] (.var [x] 0 none) := by
  rcases hx with rfl | rfl <;>
    exact ⟨[.var _], body_one (.var (by decide) (by decide) (by unfold ScalarName; decide) (by decide) (by intro c h; cases h)) (.nil .nil), (G.var _).down (by decide)⟩

example : ∃ out l' r', adjust 1 "A:=B".toList "c1".toList "c2".toList = .ok out ∧ Sides out l' r' ∧ Side id 0 l' (diffOf (.var ['A'] 0 none)) ∧
    Side id 0 r' (correctionOf "c1".toList "c2".toList (.var ['A'] 0 none) (.var ['B'] 0 none)) := by
  have hb : Side id 5 ['B'] (.var ['B'] 0 none) := by
    obtain ⟨ts, h1, h2⟩ := example_side id 'B' (by decide)
    exact ⟨ts, h1, h2.down (by decide)⟩
  exact C70_corrected (l := ['A']) (r := ['B']) ⟨[], [], firstAt_splitEq.mp (by decide +kernel), by decide, by decide, by decide⟩
    (example_side id 'A' (by decide)) hb
    ⟨by decide, by decide, by unfold ScalarName; decide, by decide, by decide +kernel⟩ ⟨by decide, by decide, by unfold ScalarName; decide, by decide, by decide +kernel⟩

/-! ## Where the result is another equation -/

/-- `A - B := C` with error correction: `C - A - B` takes the place of `C - (A - B)`.  With partial adjustment and a comparison on the right,
    `B < C` becomes `B < C - A[-1]`. -/
theorem C70_priority_counterexample :
    adjust 1 "A - B := C".toList "c1".toList "c2".toList = .ok "d(A - B) := c1 * d( C) + c2 * ( C -A - B)[-1]".toList ∧
    Reads [.var ['C'], .op .minus, .var ['A'], .op .minus, .var ['B']] (.bin .minus (.bin .minus (.var ['C'] 0 none) (.var ['A'] 0 none)) (.var ['B'] 0 none)) ∧
    adjust 0 "A := B < C".toList "c1".toList [] = .ok "d(A) := c1 * ( B < C -(A)[-1])".toList ∧
    Reads [.var ['B'], .op .lt, .var ['C'], .op .minus, .openp, .var ['A'], .closep, .lag (-1)]
      (.bin .lt (.var ['B'] 0 none) (.bin .minus (.var ['C'] 0 none) ((Expr.par (.var ['A'] 0 none)).shift (-1)))) := by
  refine ⟨by decide +kernel, ?_, by decide +kernel, ?_⟩
  · exact (G.bin .minus (G.bin .minus (ts := [.var ['C']]) ((G.var _).down (by decide)) ((G.var _).down (by decide))) ((G.var _).down (by decide))).down (by decide)
  · exact (G.bin .lt (ts := [.var ['B']]) ((G.var _).down (by decide)) (G.bin .minus (ts := [.var ['C']]) ((G.var _).down (by decide))
      ((G.lag (-1) (G.par (ts := [.var ['A']]) ((G.var _).down (by decide)))).down (by decide)))).down (by decide)

/-- A comment `//` or a semicolon at the end of the equation hides the rest of the new one, which is no formula any more; a coefficient of
    blanks only gives a null pointer; the name of a coefficient that is too long is written behind the end of the buffer. -/
theorem C70_text_counterexample :
    adjust 0 "A := B // note".toList "c1".toList [] = .ok "d(A) := c1 * ( B // note -(A)[-1])".toList ∧
    lexText ⟨id, fun _ => none⟩ [] 20 " c1 * ( B // note -(A)[-1])".toList = .done [.coef "c1".toList, .op .times, .openp, .var ['B']] [] ∧
    (∀ as, compile [] (group [.coef "c1".toList, .op .times, .openp, .var ['B']]) ≠ .ok as) ∧
    adjust 0 "A := B;".toList "c1".toList [] = .ok "d(A) := c1 * ( B; -(A)[-1])".toList ∧
    adjust 0 "A := B".toList " ".toList [] = .ub ∧ adjust 0 "A := B".toList (List.replicate 80 'c') [] = .ub := by
  refine ⟨by decide +kernel, by decide +kernel, ?_, by decide +kernel, by decide +kernel, by decide +kernel⟩
  intro as h
  have : (match compile [] (group [.coef "c1".toList, .op .times, .openp, .var ['B']]) with | .ok _ => false | _ => true) = true := by decide +kernel
  rw [h] at this
  cases this

end Iode.DynAdj
