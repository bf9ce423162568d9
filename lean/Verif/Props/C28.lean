import Verif.Spec.LecManual
import Verif.Lemmas.LecNa
import Mathlib.Data.Rat.Floor
import Mathlib.Algebra.Order.Field.Rat

/-!
# C28: built-in functions compute what the manual says

In exact arithmetic (`Exact`), for the functions of `Fn.asWritten`, the time functions with a lag and the time
functions over a range.  `if`, `log` with a base, `div0` and `lcount` do not do what the manual says:
counterexamples at the end, with a theorem saying what they compute.
-/
set_option linter.unusedSectionVars false

namespace Iode.Lec

variable {K : Type} [Field K] [LinearOrder K] [IsStrictOrderedRing K] [FloorRing K]

namespace Exact

variable {A : Arith (Option K)}

theorem foldAdd (h : Exact A) (xs : List K) (z : K) :
    (xs.map some).foldl A.add (some z) = some (z + xs.sum) := by
  induction xs generalizing z with
  | nil => simp
  | cons x xs ih => simp [h.add, ih, add_assoc]

theorem foldMul (h : Exact A) (xs : List K) (z : K) :
    (xs.map some).foldl A.mul (some z) = some (z * xs.prod) := by
  induction xs generalizing z with
  | nil => simp
  | cons x xs ih => simp [h.mul, ih, mul_assoc]

theorem filter_num (h : Exact A) (xs : List K) : (xs.map some).filter A.isNum = xs.map some := by
  induction xs with
  | nil => rfl
  | cons x xs ih => simp [h.isNum, ih]

theorem all_num (h : Exact A) (xs : List K) : (xs.map some).all A.isNum = true := by
  simp [h.isNum]

theorem foldMax (h : Exact A) (xs : List K) (z : K) :
    ∃ y, (xs.map some).foldl (fun m y => if A.lt m y then y else m) (some z) = some y ∧ (y = z ∨ y ∈ xs) ∧ z ≤ y ∧
      ∀ x ∈ xs, x ≤ y := by
  induction xs generalizing z with
  | nil => exact ⟨z, rfl, .inl rfl, le_refl _, by simp⟩
  | cons x xs ih =>
    simp only [List.map_cons, List.foldl_cons, h.lt, decide_eq_true_eq]
    by_cases hlt : z < x
    · rw [if_pos hlt]
      obtain ⟨y, hy, hm, hle, hall⟩ := ih x
      refine ⟨y, hy, ?_, le_trans (le_of_lt hlt) hle, ?_⟩
      · rcases hm with rfl | hm <;> simp [*]
      · intro w hw
        rcases List.mem_cons.1 hw with rfl | hw
        · exact hle
        · exact hall w hw
    · rw [if_neg hlt]
      obtain ⟨y, hy, hm, hle, hall⟩ := ih z
      refine ⟨y, hy, ?_, hle, ?_⟩
      · rcases hm with rfl | hm <;> simp [*]
      · intro w hw
        rcases List.mem_cons.1 hw with rfl | hw
        · exact le_trans (not_lt.1 hlt) hle
        · exact hall w hw

theorem foldMin (h : Exact A) (xs : List K) (z : K) :
    ∃ y, (xs.map some).foldl (fun m y => if A.lt y m then y else m) (some z) = some y ∧ (y = z ∨ y ∈ xs) ∧ y ≤ z ∧
      ∀ x ∈ xs, y ≤ x := by
  induction xs generalizing z with
  | nil => exact ⟨z, rfl, .inl rfl, le_refl _, by simp⟩
  | cons x xs ih =>
    simp only [List.map_cons, List.foldl_cons, h.lt, decide_eq_true_eq]
    by_cases hlt : x < z
    · rw [if_pos hlt]
      obtain ⟨y, hy, hm, hle, hall⟩ := ih x
      refine ⟨y, hy, ?_, le_trans hle (le_of_lt hlt), ?_⟩
      · rcases hm with rfl | hm <;> simp [*]
      · intro w hw
        rcases List.mem_cons.1 hw with rfl | hw
        · exact hle
        · exact hall w hw
    · rw [if_neg hlt]
      obtain ⟨y, hy, hm, hle, hall⟩ := ih z
      refine ⟨y, hy, ?_, hle, ?_⟩
      · rcases hm with rfl | hm <;> simp [*]
      · intro w hw
        rcases List.mem_cons.1 hw with rfl | hw
        · exact le_trans hle (not_lt.1 hlt)
        · exact hall w hw

theorem maxRev (h : Exact A) {xs : List K} (hx : xs ≠ []) :
    ∃ y, A.maxRev (xs.map some) = some y ∧ y ∈ xs ∧ ∀ x ∈ xs, x ≤ y := by
  cases xs with
  | nil => exact absurd rfl hx
  | cons x xs =>
    obtain ⟨y, hy, hm, hle, hall⟩ := h.foldMax (x :: xs) x
    refine ⟨y, hy, ?_, hall⟩
    rcases hm with rfl | hm <;> simp_all

theorem minRev (h : Exact A) {xs : List K} (hx : xs ≠ []) :
    ∃ y, A.minRev (xs.map some) = some y ∧ y ∈ xs ∧ ∀ x ∈ xs, y ≤ x := by
  cases xs with
  | nil => exact absurd rfl hx
  | cons x xs =>
    obtain ⟨y, hy, hm, hle, hall⟩ := h.foldMin (x :: xs) x
    refine ⟨y, hy, ?_, hall⟩
    rcases hm with rfl | hm <;> simp_all

theorem lmean (h : Exact A) {xs : List K} (hx : xs ≠ []) : A.lmean (xs.map some) = some (xs.sum / xs.length) := by
  have hl : 0 < xs.length := List.length_pos_iff.2 hx
  have hne : ((xs.length : Int) : K) ≠ 0 := by
    rw [Int.cast_natCast]
    exact Nat.cast_ne_zero.2 (by omega)
  simp only [Arith.lmean, h.filter_num, List.length_map, h.ofInt, Int.cast_zero]
  rw [if_pos hl, h.foldAdd, h.div _ _ hne, zero_add, Int.cast_natCast]

theorem nearest (x : K) : Nearest x ⌊1 / 2 + x⌋ := by
  constructor
  · linarith [Int.floor_le (1 / 2 + x)]
  · linarith [Int.lt_floor_add_one (1 / 2 + x)]

end Exact

/-- Every function of `asWritten` has the value of the manual. -/
theorem fnVal_manual {A : Arith (Option K)} (h : Exact A) {f : Fn} (hf : f.asWritten = true) {xs : List K}
    (ha : (Fun.fn f).arityOk xs.length = true)
    (hd : ∀ x d, f = .round → xs = [x, d] → ∃ k : Nat, d = k) :
    ∃ y, fnVal A f (xs.map some) = some (some y) ∧ Manual f xs y := by
  have hne : xs ≠ [] := by
    rintro rfl
    rw [List.length_nil] at ha
    cases f <;> first | exact absurd hf (by decide) | exact absurd ha (by decide)
  have key : ∀ y, A.fnRev f (xs.map some).reverse = .ok (some y) → Manual f xs y →
      ∃ y, fnVal A f (xs.map some) = some (some y) ∧ Manual f xs y := by
    intro y hy hm
    refine ⟨y, ?_, hm⟩
    have hl : f ≠ .lcount := by rintro rfl; cases hf
    unfold fnVal
    rw [if_neg hl, h.all_num, Bool.or_true, if_pos rfl, hy]
  have hrev : (xs.map some).reverse = xs.reverse.map some := by simp
  have single : xs.length = 1 → ∃ x, xs = [x] := fun hl => List.length_eq_one_iff.1 hl
  rw [hrev] at key
  have har : f.minArgs ≤ xs.length ∧ xs.length ≤ f.maxArgs := by
    simpa only [Fun.arityOk, Bool.and_eq_true, decide_eq_true_eq] using ha
  cases f
  case uminus =>
    obtain ⟨x, rfl⟩ := single (le_antisymm har.2 har.1)
    exact key (-x) (by simp [Arith.fnRev, h.neg]) rfl
  case uplus =>
    obtain ⟨x, rfl⟩ := single (le_antisymm har.2 har.1)
    exact key x (by simp [Arith.fnRev]) rfl
  case abs =>
    obtain ⟨x, rfl⟩ := single (le_antisymm har.2 har.1)
    exact key |x| (by simp [Arith.fnRev, h.fabs]) rfl
  case sign =>
    obtain ⟨x, rfl⟩ := single (le_antisymm har.2 har.1)
    refine key (if x < 0 then -1 else 1) ?_ ⟨fun hx => if_neg (not_lt.2 hx), fun hx => if_pos hx⟩
    by_cases hx : x < 0 <;> simp [Arith.fnRev, h.ofInt, h.lt, hx]
  case int =>
    obtain ⟨x, rfl⟩ := single (le_antisymm har.2 har.1)
    exact key _ (by simp only [List.reverse_singleton, List.map_cons, List.map_nil, Arith.fnRev, h.half, h.add, h.floor]) ⟨_, rfl, Exact.nearest x⟩
  case floor =>
    obtain ⟨x, rfl⟩ := single (le_antisymm har.2 har.1)
    exact key _ (by simp [Arith.fnRev, h.floor]) ⟨_, rfl, Int.floor_le x, Int.lt_floor_add_one x⟩
  case ceil =>
    obtain ⟨x, rfl⟩ := single (le_antisymm har.2 har.1)
    exact key _ (by simp [Arith.fnRev, h.ofInt, h.floor, h.add])
      ⟨⌊x⌋, add_comm _ _, Int.floor_le x, Int.lt_floor_add_one x⟩
  case fnisan =>
    obtain ⟨x, rfl⟩ := single (le_antisymm har.2 har.1)
    exact key 1 (by simp [Arith.fnRev, Arith.ofBool, h.isNum, h.ofInt]) rfl
  case max =>
    obtain ⟨y, hy, hm, hall⟩ := h.maxRev (xs := xs.reverse) (by simpa using hne)
    exact key y (by simp only [Arith.fnRev, hy]) ⟨by simpa using hm, fun x hx => hall x (by simpa using hx)⟩
  case min =>
    obtain ⟨y, hy, hm, hall⟩ := h.minRev (xs := xs.reverse) (by simpa using hne)
    exact key y (by simp only [Arith.fnRev, hy]) ⟨by simpa using hm, fun x hx => hall x (by simpa using hx)⟩
  case lsum =>
    exact key xs.sum (by simp only [Arith.fnRev, h.ofInt, Int.cast_zero, h.foldAdd]; simp) rfl
  case lprod =>
    exact key xs.prod
      (by simp only [Arith.fnRev, h.ofInt, Int.cast_one, h.filter_num, h.foldMul]; simp [List.prod_reverse]) rfl
  case lmean =>
    exact key (xs.sum / xs.length)
      (by simp only [Arith.fnRev]; rw [h.lmean (by simpa using hne)]; simp) rfl
  case round =>
    have hl : xs.length = 1 ∨ xs.length = 2 := by
      have : 1 ≤ xs.length ∧ xs.length ≤ 2 := har
      omega
    rcases hl with hl | hl
    · obtain ⟨x, rfl⟩ := single hl
      refine key (⌊1 / 2 + x⌋ : K) ?_ ⟨_, rfl, Exact.nearest x⟩
      have h1 := h.div (⌊1 / 2 + x⌋ : K) 1 one_ne_zero
      simp [Arith.fnRev, Arith.round, h.half, h.ofInt, h.mul, h.add, h.floor] at h1 ⊢
      exact h1
    · obtain ⟨x, d, rfl⟩ := List.length_eq_two.1 hl
      obtain ⟨k, rfl⟩ := hd x d rfl rfl
      have h10 : (10 : K) ^ k ≠ 0 := pow_ne_zero _ (by norm_num)
      refine key ((⌊1 / 2 + x * 10 ^ k⌋ : K) / 10 ^ k) ?_ ?_
      · have h1 := h.div (⌊1 / 2 + x * 10 ^ k⌋ : K) _ h10
        simp [Arith.fnRev, Arith.round, h.pow10, h.half, h.mul, h.add, h.floor] at h1 ⊢
        exact h1
      · intro k' hk
        have : k = k' := Nat.cast_injective hk
        subst this
        exact ⟨_, rfl, Exact.nearest _⟩
  all_goals cases hf

theorem allSome_map_some {F : Type} (xs : List F) : allSome (xs.map some) = some xs := by
  induction xs with
  | nil => rfl
  | cons x xs ih => simp [allSome, ih]

/-- A call of a function whose arguments are numbers has the value of the manual. -/
theorem C28_functions_partial (A : Arith (Option K)) (hA : Exact A) (E : Env (Option K)) {rts : List RTok} {f : Fn}
    {args : List Expr} (hr : Reads (group rts) (.app (.fn f) args)) (hs : Simple A E (.app (.fn f) args))
    (hf : f.asWritten = true) (t : Int) {xs : List K}
    (hx : args.map (fun a => eval A E a t) = xs.map fun x => some (some x))
    (hd : ∀ x d, f = .round → xs = [x, d] → ∃ k : Nat, d = k) :
    ∃ y, evalText A E [] rts t = .ok (some y) ∧ Manual f xs y := by
  have hl : args.length = xs.length := by simpa using congrArg List.length hx
  have ha : (Fun.fn f).arityOk xs.length = true := by
    rw [← hl]
    cases G.wf hr _ (List.mem_singleton.2 rfl) with
    | app _ _ h _ => exact h
  obtain ⟨y, hy, hm⟩ := fnVal_manual hA hf ha hd
  refine ⟨y, C24_simple_value A E (by rw [hA.isNum, hA.na]; rfl) hr hs ?_, hm⟩
  simp only [eval, evalFs_eq, List.map_map]
  have : (args.map ((fun x => x t) ∘ eval A E)) = (xs.map some).map some := by
    rw [List.map_map]
    exact hx
  rw [this, allSome_map_some]
  exact hy

/-- `isan` of a missing value is 0. -/
theorem C28_isan_missing (A : Arith (Option K)) (hA : Exact A) (E : Env (Option K)) {rts : List RTok}
    {a : Expr} (hr : Reads (group rts) (.app (.fn .fnisan) [a])) (hs : Simple A E (.app (.fn .fnisan) [a])) (t : Int)
    (hx : eval A E a t = some none) : evalText A E [] rts t = .ok (some 0) := by
  refine C24_simple_value A E (by rw [hA.isNum, hA.na]; rfl) hr hs ?_
  simp [eval, evalFs_eq, hx, allSome, fnVal, Fn.acceptsNa, Arith.fnRev, Arith.ofBool, hA.isNum, hA.ofInt]

/-! ## Time functions -/

theorem Exact.intlag {A : Arith (Option K)} (h : Exact A) (n : Int) : A.intlag (some (n : K)) = some n := by
  unfold Arith.intlag
  rw [h.ofInt, h.lt, h.half, h.sub, h.add, h.toInt, h.toInt]
  by_cases hn : (n : K) < ((0 : Int) : K)
  · have h0 : (n : K) < 0 := by simpa using hn
    have h1 : (n : K) - 1 / 2 < 0 := by linarith
    rw [decide_eq_true hn, if_pos rfl, if_pos h1]
    congr 1
    rw [Int.ceil_eq_iff]
    constructor <;> linarith
  · have h0 : 0 ≤ (n : K) := by simpa using not_lt.1 hn
    have h1 : ¬(1 / 2 + (n : K) < 0) := by linarith
    rw [decide_eq_false hn, if_neg (by simp), if_neg h1]
    congr 1
    rw [Int.floor_eq_iff]
    constructor <;> linarith

theorem foldVals_some {F S : Type} (A : Arith F) (f : S → F → S) (xs : List F) (hx : ∀ x ∈ xs, A.isNum x = true) (z : S) :
    foldVals A f (xs.map some) z = some (some (xs.foldl f z)) := by
  induction xs generalizing z with
  | nil => rfl
  | cons x xs ih =>
    simp only [List.map_cons, foldVals, List.foldl_cons, hx x (by simp), if_true]
    exact ih (fun y hy => hx y (by simp [hy])) _

theorem foldVals_num {S : Type} {A : Arith (Option K)} (h : Exact A) (f : S → Option K → S) {body : Int → Option (Option K)}
    {b : Int → K} (js : List Int) (hb : ∀ j ∈ js, body j = some (some (b j))) (z : S) :
    foldVals A f (js.map body) z = some (some (((js.map b).map some).foldl f z)) := by
  have : js.map body = ((js.map b).map some).map some := by
    simp only [List.map_map]
    exact List.map_congr_left fun j hj => hb j hj
  rw [this]
  refine foldVals_some A f _ ?_ z
  intro x hx
  simp only [List.mem_map] at hx
  obtain ⟨_, _, rfl⟩ := hx
  rw [h.isNum]; rfl

theorem upTo_window (b : Int → K) (lo hi : Int) : (upTo lo hi).map b = window b lo hi := by
  simp [upTo, window, Function.comp_def]

theorem mem_upTo {lo hi j : Int} : j ∈ upTo lo hi ↔ lo ≤ j ∧ j ≤ hi := by
  simp only [upTo, List.mem_map, List.mem_range]
  constructor
  · rintro ⟨i, hi, rfl⟩; omega
  · intro h; exact ⟨(j - lo).toNat, by omega, by omega⟩

/-- The functions with a lag compute what the manual says. -/
theorem lagVal_manual {A : Arith (Option K)} (h : Exact A) (f : TFn) (hf : f = .lag ∨ f = .diff ∨ f = .rapp ∨ f = .grt ∨ f = .mavg)
    {body : Int → Option (Option K)} {b : Int → K} (hb : ∀ j, body j = some (some (b j))) (t k : Int)
    (h0 : f = .rapp ∨ f = .grt → b (t - k) ≠ 0) :
    ∃ y, lagVal A f body t k = some (some y) ∧ ManualLag f b t k y := by
  have two : ∀ g, lagVal.two A body t k g = some (g (some (b t)) (some (b (t - k)))) := by
    intro g
    simp [lagVal.two, hb, h.isNum]
  rcases hf with rfl | rfl | rfl | rfl | rfl
  · exact ⟨_, by simp only [lagVal, hb], rfl⟩
  · exact ⟨b t - b (t - k), by simp only [lagVal, two, h.sub], rfl⟩
  · have hz := h0 (.inl rfl)
    exact ⟨b t / b (t - k), by simp [lagVal, two, Arith.divide, h.isNum, h.ofInt, h.eq, hz, h.div _ _ hz], fun _ => rfl⟩
  · have hz := h0 (.inr rfl)
    refine ⟨(b t / b (t - k) - 1) * 100, ?_, fun _ => mul_comm _ _⟩
    have h1 := h.sub (b t / b (t - k)) 1
    have h2 := h.mul (b t / b (t - k) - 1) 100
    simp [lagVal, two, Arith.divide, Arith.growth, h.isNum, h.ofInt, h.eq, hz, h.div _ _ hz, h1, h2]
  · have hl : (if k < 1 then 1 else k) = max 1 k := by
      by_cases hk : k < 1
      · rw [if_pos hk]; omega
      · rw [if_neg hk]; omega
    have hne : ((max 1 k : Int) : K) ≠ 0 := by
      have : (max 1 k : Int) ≠ 0 := by omega
      exact_mod_cast this
    refine ⟨((List.range (max 1 k).toNat).map fun i : Nat => b (t - i)).sum / ((max 1 k : Int) : K), ?_, rfl⟩
    simp only [lagVal, hl]
    simp only [foldVals_num h _ _ (fun j _ => hb j), h.ofInt, Int.cast_zero, h.foldAdd]
    simp only [Option.map_some, h.ofInt, h.div _ _ hne, zero_add, downFrom, List.map_map, Function.comp_def]

/-- Going on with the best value. -/
theorem best_mem {b : Int → K} {lo hi : Int} (hle : lo ≤ hi) (y : K)
    (hm : y = b lo ∨ y ∈ (upTo (lo + 1) hi).map b) : ∃ j, lo ≤ j ∧ j ≤ hi ∧ y = b j := by
  rcases hm with rfl | hm
  · exact ⟨lo, le_refl _, hle, rfl⟩
  · obtain ⟨j, hj, rfl⟩ := List.mem_map.1 hm
    have := mem_upTo.1 hj
    exact ⟨j, by omega, this.2, rfl⟩

/-- The functions over a range compute what the manual says. -/
theorem rangeVal_manual {A : Arith (Option K)} (h : Exact A) (f : TFn)
    (hf : f = .sum ∨ f = .prod ∨ f = .mean ∨ f = .vmax ∨ f = .vmin ∨ f = .lastobs)
    {body : Int → Option (Option K)} {b : Int → K} (lo hi : Int) (hle : lo ≤ hi)
    (hb : ∀ j, lo ≤ j → j ≤ hi → body j = some (some (b j))) :
    ∃ y, rangeVal A f body lo hi = some (some y) ∧ ManualRange f b lo hi y := by
  have hbu : ∀ j ∈ upTo lo hi, body j = some (some (b j)) := fun j hj => hb j (mem_upTo.1 hj).1 (mem_upTo.1 hj).2
  have hbu1 : ∀ j ∈ upTo (lo + 1) hi, body j = some (some (b j)) :=
    fun j hj => hb j (by have := (mem_upTo.1 hj).1; omega) (mem_upTo.1 hj).2
  rcases hf with rfl | rfl | rfl | rfl | rfl | rfl
  · refine ⟨_, ?_, rfl⟩
    simp only [rangeVal, rangeVal.fold]
    simp only [foldVals_num h _ _ hbu, upTo_window, h.ofInt, Int.cast_zero, h.foldAdd]
    simp
  · refine ⟨_, ?_, rfl⟩
    simp only [rangeVal, rangeVal.fold]
    rw [foldVals_num h _ _ hbu, upTo_window, h.ofInt, Int.cast_one, h.foldMul]
    simp
  · refine ⟨_, ?_, rfl⟩
    have hne : ((1 + hi - lo : Int) : K) ≠ 0 := by
      have : (1 + hi - lo : Int) ≠ 0 := by omega
      exact_mod_cast this
    simp only [rangeVal, rangeVal.fold]
    simp only [foldVals_num h _ _ hbu, upTo_window, h.ofInt, Int.cast_zero, h.foldAdd]
    simp only [Option.map_some, h.isNum, Option.isSome_some, if_true, h.ofInt, h.div _ _ hne, zero_add]
    congr 4
    omega
  · simp only [rangeVal, rangeVal.best, hb lo (le_refl _) hle, h.isNum, Option.isSome_some, if_true]
    rw [foldVals_num h _ _ hbu1]
    obtain ⟨y, hy, hm, hz, hall⟩ := h.foldMax ((upTo (lo + 1) hi).map b) (b lo)
    refine ⟨y, by rw [hy]; rfl, best_mem hle y hm, ?_⟩
    intro j h1 h2
    by_cases hj : j = lo
    · rw [hj]; exact hz
    · exact hall _ (List.mem_map_of_mem (mem_upTo.2 ⟨by omega, h2⟩))
  · simp only [rangeVal, rangeVal.best, hb lo (le_refl _) hle, h.isNum, Option.isSome_some, if_true]
    rw [foldVals_num h _ _ hbu1]
    obtain ⟨y, hy, hm, hz, hall⟩ := h.foldMin ((upTo (lo + 1) hi).map b) (b lo)
    refine ⟨y, by rw [hy]; rfl, best_mem hle y hm, ?_⟩
    intro j h1 h2
    by_cases hj : j = lo
    · rw [hj]; exact hz
    · exact hall _ (List.mem_map_of_mem (mem_upTo.2 ⟨by omega, h2⟩))
  · refine ⟨_, ?_, rfl⟩
    have : (upTo lo hi).reverse = hi :: (upTo lo (hi - 1)).reverse := by
      have : upTo lo hi = upTo lo (hi - 1) ++ [hi] := by
        unfold upTo
        have : (hi - lo + 1).toNat = (hi - 1 - lo + 1).toNat + 1 := by omega
        rw [this, List.range_succ, List.map_append, List.map_singleton]
        congr 2
        omega
      rw [this]; simp
    simp only [rangeVal]
    rw [this, List.map_cons, hb hi hle (le_refl _)]
    simp [rangeVal.last, h.isNum]

/-- A call of `l`, `d`, `r`, `grt` or `ma` on a formula that is a number at all periods has the value of the
manual; the optional argument is an integer. -/
theorem C28_lag_functions (A : Arith (Option K)) (hA : Exact A) (E : Env (Option K)) {rts : List RTok} {f : TFn}
    (hf : f = .lag ∨ f = .diff ∨ f = .rapp ∨ f = .grt ∨ f = .mavg) {opts : List Expr} {e : Expr}
    (hr : Reads (group rts) (.app (.tfn f) (opts ++ [e]))) (hs : Simple A E (.app (.tfn f) (opts ++ [e]))) (t k : Int)
    (ho : (opts = [] ∧ k = 1) ∨ ∃ o, opts = [o] ∧ eval A E o t = some (some (k : K)))
    {b : Int → K} (hb : ∀ j, eval A E e j = some (some (b j))) (h0 : f = .rapp ∨ f = .grt → b (t - k) ≠ 0) :
    ∃ y, evalText A E [] rts t = .ok (some y) ∧ ManualLag f b t k y := by
  obtain ⟨y, hy, hm⟩ := lagVal_manual hA f hf hb t k h0
  have hlag : f.lagged = true := by rcases hf with rfl | rfl | rfl | rfl | rfl <;> rfl
  refine ⟨y, C24_simple_value A E (by rw [hA.isNum, hA.na]; rfl) hr hs ?_, hm⟩
  rcases ho with ⟨rfl, rfl⟩ | ⟨o, rfl, ho⟩
  · simp [eval, evalFs_eq, allSome, tfnVal, hlag, hy]
  · simp [eval, evalFs_eq, allSome, ho, tfnVal, hlag, hA.isNum, hA.intlag, hy]

/-- A call of `sum`, `prod`, `mean`, `vmax`, `vmin` or `lastobs` has the value of the manual over the periods from
the smaller to the larger of the given ones; missing ones are 0 and `t`. -/
theorem C28_range_functions (A : Arith (Option K)) (hA : Exact A) (E : Env (Option K)) {rts : List RTok} {f : TFn}
    (hf : f = .sum ∨ f = .prod ∨ f = .mean ∨ f = .vmax ∨ f = .vmin ∨ f = .lastobs) {opts : List Expr} {e : Expr}
    (hr : Reads (group rts) (.app (.tfn f) (opts ++ [e]))) (hs : Simple A E (.app (.tfn f) (opts ++ [e]))) (t lo hi : Int)
    (ho : (opts = [] ∧ lo = 0 ∧ hi = t ∧ 0 ≤ t) ∨
      (∃ o n, opts = [o] ∧ eval A E o t = some (some ((n : Int) : K)) ∧ lo = min n t ∧ hi = max n t) ∨
      ∃ o1 o2 n1 n2, opts = [o1, o2] ∧ eval A E o1 t = some (some ((n1 : Int) : K)) ∧
        eval A E o2 t = some (some ((n2 : Int) : K)) ∧ lo = min n1 n2 ∧ hi = max n1 n2)
    {b : Int → K} (hb : ∀ j, lo ≤ j → j ≤ hi → eval A E e j = some (some (b j))) :
    ∃ y, evalText A E [] rts t = .ok (some y) ∧ ManualRange f b lo hi y := by
  have hle : lo ≤ hi := by
    rcases ho with ⟨_, rfl, rfl, h⟩ | ⟨_, _, _, _, rfl, rfl⟩ | ⟨_, _, _, _, _, _, _, rfl, rfl⟩ <;> omega
  obtain ⟨y, hy, hm⟩ := rangeVal_manual hA f hf lo hi hle hb
  have hlag : f.lagged = false := by rcases hf with rfl | rfl | rfl | rfl | rfl | rfl <;> rfl
  refine ⟨y, C24_simple_value A E (by rw [hA.isNum, hA.na]; rfl) hr hs ?_, hm⟩
  rcases ho with ⟨rfl, rfl, rfl, _⟩ | ⟨o, n, rfl, ho, rfl, rfl⟩ | ⟨o1, o2, n1, n2, rfl, ho1, ho2, rfl, rfl⟩
  · simp [eval, evalFs_eq, allSome, tfnVal, hlag, hy]
  · simp [eval, evalFs_eq, allSome, ho, tfnVal, hlag, hA.isNum, hA.intlag, hy]
  · simp [eval, evalFs_eq, allSome, ho1, ho2, tfnVal, hlag, hA.isNum, hA.intlag, hy]

/-! ## Standard deviations -/

/-- Sum of squared differences to `m`. -/
def sqDev (m : K) (xs : List K) : K := (xs.map fun x => (x - m) * (x - m)).sum

theorem sqDev_eq (xs : List K) (m : K) :
    sqDev m xs = (xs.map fun x => x * x).sum - 2 * m * xs.sum + xs.length * (m * m) := by
  induction xs with
  | nil => simp [sqDev]
  | cons x xs ih =>
    unfold sqDev at *
    simp only [List.map_cons, List.sum_cons, ih, List.length_cons, Nat.cast_add, Nat.cast_one]
    ring

theorem sqDev_nonneg (xs : List K) (m : K) : 0 ≤ sqDev m xs := by
  induction xs with
  | nil => simp [sqDev]
  | cons x xs ih =>
    unfold sqDev at *
    simp only [List.map_cons, List.sum_cons]
    exact add_nonneg (mul_self_nonneg _) ih

/-- The formula of the code: sum of squares minus the square of the sum over `n`. -/
theorem sqDev_mean (xs : List K) (hx : xs ≠ []) :
    (xs.map fun x => x * x).sum - xs.sum * xs.sum / xs.length = sqDev (xs.sum / xs.length) xs := by
  have hn : (xs.length : K) ≠ 0 := Nat.cast_ne_zero.2 (by simpa using hx)
  rw [sqDev_eq]
  field_simp
  ring

theorem foldStd {A : Arith (Option K)} (h : Exact A) (xs : List K) (u v : K) :
    (xs.map some).foldl (fun (s : Option K × Option K) x => (A.add s.1 x, A.add s.2 (A.mul x x))) (some u, some v)
      = (some (u + xs.sum), some (v + (xs.map fun x => x * x).sum)) := by
  induction xs generalizing u v with
  | nil => simp
  | cons x xs ih =>
    simp only [List.map_cons, List.foldl_cons, h.add, h.mul, ih, List.sum_cons]
    congr 2 <;> ring

/-- `stderr` over the periods `lo` to `hi`: the square root of the sum of squared deviations from the mean over
`n - 1`. -/
theorem C28_stderr (A : Arith (Option K)) (hA : Exact A) (E : Env (Option K)) {rts : List RTok} {o1 o2 e : Expr}
    (hr : Reads (group rts) (.app (.tfn .stderr) ([o1, o2] ++ [e])))
    (hs : Simple A E (.app (.tfn .stderr) ([o1, o2] ++ [e]))) (t lo hi : Int) (hlt : lo < hi)
    (h1 : eval A E o1 t = some (some (lo : K))) (h2 : eval A E o2 t = some (some (hi : K)))
    {b : Int → K} (hb : ∀ j, lo ≤ j → j ≤ hi → eval A E e j = some (some (b j))) :
    evalText A E [] rts t = .ok (A.prim .sqrt (some
      (sqDev ((window b lo hi).sum / (hi - lo + 1 : Int)) (window b lo hi) / (hi - lo : Int)))) := by
  refine C24_simple_value A E (by rw [hA.isNum, hA.na]; rfl) hr hs ?_
  have hbu : ∀ j ∈ upTo lo hi, eval A E e j = some (some (b j)) :=
    fun j hj => hb j (mem_upTo.1 hj).1 (mem_upTo.1 hj).2
  have hmin : min lo hi = lo := by omega
  have hmax : max lo hi = hi := by omega
  have hlen : (((window b lo hi).length : Nat) : K) = ((hi - lo + 1 : Int) : K) := by
    have : ((window b lo hi).length : Int) = hi - lo + 1 := by simp [window]; omega
    exact_mod_cast congrArg (fun n : Int => (n : K)) this
  have hne : window b lo hi ≠ [] := by
    intro h
    have := congrArg List.length h
    simp [window] at this
    omega
  have hsq := sqDev_mean (window b lo hi) hne
  rw [hlen] at hsq
  have hn0 : ((hi - lo + 1 : Int) : K) ≠ 0 := by
    have : (hi - lo + 1 : Int) ≠ 0 := by omega
    exact_mod_cast this
  have hn1 : ((hi - lo : Int) : K) ≠ 0 := by
    have : (hi - lo : Int) ≠ 0 := by omega
    exact_mod_cast this
  have hnn := sqDev_nonneg (window b lo hi) ((window b lo hi).sum / ((hi - lo + 1 : Int) : K))
  have e1 : 1 + hi - lo = hi - lo + 1 := by omega
  have e2 : hi - lo + 1 - 1 = hi - lo := by omega
  have hle1 : ¬(hi - lo + 1 ≤ 1) := by omega
  have hv : rangeVal A .stderr (eval A E e) lo hi = some (A.prim .sqrt (some
      (sqDev ((window b lo hi).sum / (hi - lo + 1 : Int)) (window b lo hi) / (hi - lo : Int)))) := by
    simp only [rangeVal, foldVals_num hA _ _ hbu, upTo_window, hA.ofInt, Int.cast_zero, foldStd hA, zero_add,
      Option.map_some, Arith.stderrEnd, e1, e2, hA.mul, hA.sub, hA.div _ _ hn0, hsq, hA.lt]
    rw [if_neg, hA.div _ _ hn1]
    rintro (h | h)
    · exact hle1 h
    · exact absurd (of_decide_eq_true h) (not_lt.2 hnn)
  rw [← hv]
  simp [eval, evalFs_eq, allSome, h1, h2, tfnVal, TFn.lagged, hA.isNum, hA.intlag, hmin, hmax]

/-- `lstderr(x1, ..., xn)`: the same for the values of the arguments. -/
theorem C28_lstderr (A : Arith (Option K)) (hA : Exact A) (E : Env (Option K)) {rts : List RTok} {args : List Expr}
    (hr : Reads (group rts) (.app (.fn .lstderr) args)) (hs : Simple A E (.app (.fn .lstderr) args)) (t : Int) {xs : List K}
    (hx : args.map (fun a => eval A E a t) = xs.map fun x => some (some x)) (hn : 2 ≤ xs.length) :
    evalText A E [] rts t = .ok (A.prim .sqrt (some
      (sqDev (xs.sum / xs.length) xs / ((xs.length : Int) - 1 : Int)))) := by
  refine C24_simple_value A E (by rw [hA.isNum, hA.na]; rfl) hr hs ?_
  have h1 : (args.map ((fun x => x t) ∘ eval A E)) = (xs.map some).map some := by
    rw [List.map_map]
    exact hx
  simp only [eval, evalFs_eq, List.map_map]
  rw [h1, allSome_map_some]
  have hfold : ∀ (m : K) (ys : List K) (u : K), (ys.map some).foldl
      (fun s y => A.add s (A.mul (A.sub y (some m)) (A.sub y (some m)))) (some u) = some (u + sqDev m ys) := by
    intro m ys
    induction ys with
    | nil => intro u; simp [sqDev]
    | cons y ys ih =>
      intro u
      simp only [List.map_cons, List.foldl_cons, hA.sub, hA.mul, hA.add, ih]
      congr 1
      simp only [sqDev, List.map_cons, List.sum_cons]
      ring
  have hne : xs.reverse ≠ [] := by
    intro h
    have := congrArg List.length h
    simp only [List.length_reverse, List.length_nil] at this
    omega
  have hrev : (xs.map some).reverse = xs.reverse.map some := by simp
  have hm := hA.lmean hne
  have hsq : sqDev (xs.sum / xs.length) xs.reverse = sqDev (xs.sum / xs.length) xs := by
    simp only [sqDev, List.map_reverse, List.sum_reverse]
  have hn1 : (((xs.length : Int) - 1 : Int) : K) ≠ 0 := by
    have : ((xs.length : Int) - 1 : Int) ≠ 0 := by omega
    exact_mod_cast this
  simp only [List.sum_reverse, List.length_reverse] at hm
  simp only [Option.bind_some, fnVal, Fn.acceptsNa, Arith.fnRev, hrev, Arith.lstderr, hm, hA.filter_num, hA.ofInt,
    Int.cast_zero, hfold, List.length_map, List.length_reverse, zero_add, hsq]
  simp only [reduceCtorEq, if_false, Bool.true_or, if_true]
  rw [if_pos (by omega), hA.div _ _ hn1]

/-- Operators on numbers have the value of the manual (for `^` see `C30`). -/
theorem C28_operators_partial (A : Arith (Option K)) (hA : Exact A) (E : Env (Option K)) {rts : List RTok} {o : Op}
    {a b : Expr} (hr : Reads (group rts) (.bin o a b)) (hs : Simple A E (.bin o a b)) (t : Int) {x y : K}
    (ha : eval A E a t = some (some x)) (hb : eval A E b t = some (some y)) :
    ∃ r, evalText A E [] rts t = .ok r ∧ ManualOp o x y r := by
  refine ⟨A.bin o (some x) (some y), C24_simple_value A E (by rw [hA.isNum, hA.na]; rfl) hr hs ?_, ?_⟩
  · simp [eval, ha, hb, hA.isNum]
  · have hle : ∀ u v : K, (A.le (some u) (some v)) = decide (u ≤ v) := by
      intro u v
      simp only [Arith.le, hA.lt, hA.eq]
      rw [← Bool.decide_or]
      exact decide_eq_decide.2 le_iff_lt_or_eq.symm
    cases o <;> simp only [ManualOp, Arith.bin, Arith.ofBool, Arith.truth, hle, hA.lt, hA.eq, hA.ofInt, hA.add, hA.sub,
      hA.mul, truthVal, Int.cast_zero, Int.cast_one]
    case or => by_cases h1 : x = 0 <;> by_cases h2 : y = 0 <;> simp [h1, h2]
    case and => by_cases h1 : x = 0 <;> by_cases h2 : y = 0 <;> simp [h1, h2]
    case ge => by_cases h : y ≤ x <;> simp [h]
    case gt => by_cases h : y < x <;> simp [h]
    case le => by_cases h : x ≤ y <;> simp [h]
    case lt => by_cases h : x < y <;> simp [h]
    case eq => by_cases h : x = y <;> simp [h]
    case ne => by_cases h : x = y <;> simp [h]
    case divide =>
      constructor
      · intro h; simp [Arith.divide, hA.isNum, hA.ofInt, hA.eq, h, hA.div]
      · intro h; simp [Arith.divide, hA.ofInt, hA.eq, h, hA.na]

/-- `ln`, `log` with one argument and `sqrt` are missing outside of their domain, and the functions of `math.h` inside. -/
theorem C28_domains (A : Arith (Option K)) (hA : Exact A) (E : Env (Option K)) {rts : List RTok} {f : Fn} {a : Expr}
    (hr : Reads (group rts) (.app (.fn f) [a])) (hs : Simple A E (.app (.fn f) [a])) (t : Int) {x : K}
    (ha : eval A E a t = some (some x)) :
    (f = .ln ∨ f = .log → evalText A E [] rts t = .ok (if 0 < x then A.prim .log (some x) else none)) ∧
    (f = .sqrt → evalText A E [] rts t = .ok (if 0 ≤ x then A.prim .sqrt (some x) else none)) := by
  have hlog : A.logn (some x) = if 0 < x then A.prim .log (some x) else none := by
    unfold Arith.logn Arith.le
    simp only [hA.isNum, Option.isSome_some, Bool.not_true, Bool.false_or, hA.lt, hA.eq, hA.ofInt, Int.cast_zero, hA.na]
    rcases lt_trichotomy 0 x with h | h | h
    · simp [h, not_lt.2 h.le, ne_of_gt h]
    · subst h; simp
    · simp [h, not_lt.2 h.le]
  constructor
  · rintro (rfl | rfl) <;> refine C24_simple_value A E (by rw [hA.isNum, hA.na]; rfl) hr hs ?_ <;>
      simp [eval, evalFs_eq, allSome, ha, fnVal, Fn.acceptsNa, hA.isNum, Arith.fnRev, Arith.logf, hlog]
  · rintro rfl
    refine C24_simple_value A E (by rw [hA.isNum, hA.na]; rfl) hr hs ?_
    by_cases h : x < 0
    · simp [eval, evalFs_eq, allSome, ha, fnVal, Fn.acceptsNa, hA.isNum, Arith.fnRev, hA.ofInt, hA.lt, hA.na, h]
    · simp [eval, evalFs_eq, allSome, ha, fnVal, Fn.acceptsNa, hA.isNum, Arith.fnRev, hA.ofInt, hA.lt, h, not_lt.1 h]

/-! ## Functions that do something else -/

/-- `if(x, y, c)` chooses by its last argument: `x` if it is a number not near 0, else `y`. -/
theorem C28_if_chooses_by_last {F : Type} (A : Arith F) (E : Env F) (hna : A.isNum A.na = false) {rts : List RTok}
    {x y c : Expr} (hr : Reads (group rts) (.app (.fn .if) [x, y, c])) (hs : Simple A E (.app (.fn .if) [x, y, c]))
    (t : Int) {vx vy vc : F} (hx : eval A E x t = some vx) (hy : eval A E y t = some vy) (hc : eval A E c t = some vc) :
    evalText A E [] rts t = .ok (if A.isNum vc = true ∧ A.tiny vc = false then vx else vy) := by
  refine C24_simple_value A E hna hr hs ?_
  simp [eval, evalFs_eq, hx, hy, hc, allSome, fnVal, Fn.acceptsNa, Arith.fnRev]
  cases A.isNum vc <;> cases A.tiny vc <;> simp

/-- `if(0, 5, 1)`: the condition is false, the manual says 1, the result is 0. -/
theorem C28_if_counterexample :
    evalText exArith exEnv [] [.fun (.fn .if), .openp, .cst (.long 0), .comma, .cst (.long 5), .comma, .cst (.long 1),
      .closep] 3 = .ok (some 0) ∧ ∀ y : ℚ, Manual .if [0, 5, 1] y → y = 1 :=
  ⟨by decide +kernel, fun _ h => h.2 rfl⟩

/-- `div0(x, y)` is `y / x`. -/
theorem C28_div0_is_reversed {F : Type} (A : Arith F) (E : Env F) (hna : A.isNum A.na = false) {rts : List RTok}
    {x y : Expr} (hr : Reads (group rts) (.app (.fn .div0) [x, y])) (hs : Simple A E (.app (.fn .div0) [x, y]))
    (t : Int) {vx vy : F} (hx : eval A E x t = some vx) (hy : eval A E y t = some vy) (hxn : A.isNum vx = true)
    (hyn : A.isNum vy = true) :
    evalText A E [] rts t = .ok (if A.eq vx (A.ofInt 0) = true then A.ofInt 0 else A.div vy vx) := by
  refine C24_simple_value A E hna hr hs ?_
  simp [eval, evalFs_eq, hx, hy, allSome, fnVal, Fn.acceptsNa, Arith.fnRev, hxn, hyn]

/-- `div0(6, 3)` in integers: 0, not 2. -/
theorem C28_div0_counterexample :
    evalText exArith exEnv [] [.fun (.fn .div0), .openp, .cst (.long 6), .comma, .cst (.long 3), .closep] 3
      = .ok (some 0) ∧ ∀ y : ℚ, Manual .div0 [6, 3] y → y = 2 :=
  ⟨by decide +kernel, fun _ h => (h.1 (by decide)).trans (by norm_num)⟩

/-- `log(b, x)` is `ln b / ln x`: the inverse of the logarithm of `x` in base `b`. -/
theorem C28_log_is_inverted {F : Type} (A : Arith F) (E : Env F) (hna : A.isNum A.na = false) {rts : List RTok}
    {b x : Expr} (hr : Reads (group rts) (.app (.fn .log) [b, x])) (hs : Simple A E (.app (.fn .log) [b, x]))
    (t : Int) {vb vx : F} (hb : eval A E b t = some vb) (hx : eval A E x t = some vx) (hbn : A.isNum vb = true)
    (hxn : A.isNum vx = true) :
    evalText A E [] rts t = .ok (A.divide (A.logn vb) (A.logn vx)) := by
  refine C24_simple_value A E hna hr hs ?_
  simp [eval, evalFs_eq, hb, hx, allSome, fnVal, Fn.acceptsNa, Arith.fnRev, Arith.logf, hbn, hxn]

/-- The manual's `log(10, X)` is the base 10 logarithm.  If `ln` is a logarithm then `log(10, 100)` is 1/2 and not
2. -/
theorem C28_log_counterexample (A : Arith (Option K)) (hA : Exact A) (E : Env (Option K)) (l : K) (hl : l ≠ 0)
    (h10 : A.prim .log (some 10) = some l) (h100 : A.prim .log (some 100) = some (2 * l)) (t : Int) :
    evalText A E [] [.fun (.fn .log), .openp, .cst (.long 10), .comma, .cst (.long 100), .closep] t
      = .ok (some (1 / 2)) ∧ (1 / 2 : K) ≠ 2 := by
  have hr : Reads (group [.fun (.fn .log), .openp, .cst (.long 10), .comma, .cst (.long 100), .closep])
      (.app (.fn .log) [.par (.cst (.long 10)), .par (.cst (.long 100))]) := by
    have h2 := G.call (ext := false) (.fn .log) (by decide) (by decide)
      (.argN (.arg1 ((G.cst (.long 10)).down (by omega))) ((G.cst (.long 100)).down (by omega)))
    exact (G.ofCall h2).down (by decide)
  have hs : Simple A E (.app (.fn .log) [.par (.cst (.long 10)), .par (.cst (.long 100))]) := by
    refine .fn rfl ?_
    intro a ha
    simp only [List.mem_cons, List.not_mem_nil, or_false] at ha
    rcases ha with rfl | rfl <;> exact .par (.cst _)
  have hna : A.isNum A.na = false := by rw [hA.isNum, hA.na]; rfl
  refine ⟨?_, by norm_num⟩
  rw [C28_log_is_inverted A E hna hr hs t (vb := some 10) (vx := some 100) (by simp [eval, hA.ofInt])
    (by simp [eval, hA.ofInt]) (by rw [hA.isNum]; rfl) (by rw [hA.isNum]; rfl)]
  have p10 : ¬((10 : K) ≤ 0) := by norm_num
  have p100 : ¬((100 : K) ≤ 0) := by norm_num
  have e10 : A.logn (some 10) = some l := by
    simp [Arith.logn, Arith.le, hA.isNum, hA.ofInt, hA.lt, hA.eq, h10]
  have e100 : A.logn (some 100) = some (2 * l) := by
    simp [Arith.logn, Arith.le, hA.isNum, hA.ofInt, hA.lt, hA.eq, h100]
  have h2l : 2 * l ≠ 0 := mul_ne_zero (by norm_num) hl
  rw [e10, e100]
  simp only [Arith.divide, hA.isNum, hA.ofInt, hA.eq, Int.cast_zero, h2l, Option.isSome_some, Bool.not_true, Bool.or_self,
    decide_false, Bool.false_eq_true, if_false, hA.div _ _ h2l]
  congr 2
  field_simp

/-! ## The hypotheses are met -/

/-- Exact rational arithmetic; the elementary functions that have no rational value are arbitrary. -/
def ratArith : Arith (Option ℚ) where
  na := none
  isNum := Option.isSome
  ofInt n := some n
  ofReal n d := some (n / d)
  half := some (1 / 2)
  add a b := (a.bind fun x => b.map (x + ·))
  sub a b := (a.bind fun x => b.map (x - ·))
  mul a b := (a.bind fun x => b.map (x * ·))
  div a b := (a.bind fun x => b.map (x / ·))
  neg a := a.map (- ·)
  lt a b := match a, b with
    | some x, some y => decide (x < y)
    | none, some _ => true
    | _, none => false
  eq a b := a == b
  tiny a := a == some 0
  pow a _ := a
  expArgOk _ := true
  expResOk _ := true
  prim p a := match p with
    | .fabs => a.map fun x => |x|
    | .floor => a.map fun x => (⌊x⌋ : ℚ)
    | .log => if a = some 100 then some 2 else if a = some 10 then some 1 else a
    | _ => a
  pow10 a := some (a.map fun y => (10 : ℚ) ^ ⌊y⌋.toNat)
  grandom a _ := a
  toInt a := a.map fun x => if x < 0 then ⌈x⌉ else ⌊x⌋
  valPi := some 3
  valE := some 2
  valEuro := some 40
  mfn _ _ _ _ _ _ := .ok (some 0)

theorem ratArith_exact : Exact ratArith where
  na := rfl
  isNum _ := rfl
  ofInt _ := rfl
  half := rfl
  add _ _ := rfl
  sub _ _ := rfl
  mul _ _ := rfl
  div _ _ _ := rfl
  neg _ := rfl
  lt _ _ := rfl
  eq _ _ := rfl
  tiny := rfl
  floor _ := rfl
  fabs _ := rfl
  pow10 n := by simp [ratArith]
  toInt _ := rfl

/-- `A` is `j + 1/2`. -/
def ratEnv : Env (Option ℚ) where
  nb := 10
  posOf p := p.step - 1
  var _ i := some (i + 1 / 2)
  coef _ := some 5
  curt := 4

example : ratArith.prim .log (some 10) = some 1 ∧ ratArith.prim .log (some 100) = some (2 * 1) := by
  constructor <;> decide +kernel

/-- `max(A, 2, A[-1])` at 3: the arguments are 7/2, 2, 5/2. -/
example : let args : List Expr := [.par (.var (nm 'A') 0 none), .par (.cst (.long 2)), .par (.var (nm 'A') (-1) none)]
    Reads (group [.fun (.fn .max), .openp, .var (nm 'A'), .comma, .cst (.long 2), .comma, .var (nm 'A'), .openb,
      .op .minus, .cst (.long 1), .closeb, .closep]) (.app (.fn .max) args) ∧
    Simple ratArith ratEnv (.app (.fn .max) args) ∧
    args.map (fun a => eval ratArith ratEnv a 3) = [7 / 2, 2, 5 / 2].map fun x => some (some x) := by
  refine ⟨?_, ?_, by decide +kernel⟩
  · have hl : G false (.lev 9) [.var (nm 'A'), .lag (-1)] [.var (nm 'A') (-1) none] :=
      G.lag (-1) (G.var (ext := false) (nm 'A'))
    have h2 := G.call (ext := false) (.fn .max) (by decide) (by decide)
      (.argN (.argN (.arg1 ((G.var (nm 'A')).down (by omega))) ((G.cst (.long 2)).down (by omega))) (hl.down (by omega)))
    exact (G.ofCall h2).down (by decide)
  · refine .fn rfl ?_
    intro a ha
    simp only [List.mem_cons, List.not_mem_nil, or_false] at ha
    rcases ha with rfl | rfl | rfl
    · exact .par (.var _ _ _)
    · exact .par (.cst _)
    · exact .par (.var _ _ _)

/-- `mean(1, 3, A)`: the arguments of the theorem about ranges. -/
example : let e : Expr := .app (.tfn .mean) ([.par (.cst (.long 1)), .par (.cst (.long 3))] ++ [.par (.var (nm 'A') 0 none)])
    Reads (group [.fun (.tfn .mean), .openp, .cst (.long 1), .comma, .cst (.long 3), .comma, .var (nm 'A'), .closep]) e ∧
    Simple ratArith ratEnv e ∧ eval ratArith ratEnv e 5 = some (some (5 / 2)) ∧
    (∀ j, 1 ≤ j → j ≤ 3 → eval ratArith ratEnv (.par (.var (nm 'A') 0 none)) j = some (some ((j : ℚ) + 1 / 2))) := by
  refine ⟨?_, ?_, by decide +kernel, ?_⟩
  · have h2 := G.call (ext := false) (.tfn .mean) (by decide) (by decide)
      (.argN (.argN (.arg1 ((G.cst (.long 1)).down (by omega))) ((G.cst (.long 3)).down (by omega)))
        ((G.var (nm 'A')).down (by omega)))
    exact (G.ofCall h2).down (by decide)
  · refine .tfn ?_ ?_ (.par (.var _ _ _)) (.par _)
    · intro a ha
      simp only [List.mem_cons, List.not_mem_nil, or_false] at ha
      rcases ha with rfl | rfl <;> exact .par (.cst _)
    · intro a ha
      simp only [List.mem_cons, List.not_mem_nil, or_false] at ha
      rcases ha with rfl | rfl <;> exact .par (.cst _)
  · intro j h1 h2
    have : 0 ≤ j + 0 ∧ j + 0 < ratEnv.nb := ⟨by omega, by simp only [ratEnv]; omega⟩
    rw [eval, eval, Env.at, if_pos this]
    simp [ratEnv]

/-- `A / 2 >= B`: the operands of `C28_operators_partial`. -/
example : Reads (group [.var (nm 'A'), .op .divide, .cst (.long 2), .op .ge, .var (nm 'B')])
      (.bin .ge (.bin .divide (.var (nm 'A') 0 none) (.cst (.long 2))) (.var (nm 'B') 0 none)) ∧
    eval ratArith ratEnv (.bin .divide (.var (nm 'A') 0 none) (.cst (.long 2))) 3 = some (some (7 / 4)) ∧
    eval ratArith ratEnv (.var (nm 'B') 0 none) 3 = some (some (7 / 2)) := by
  refine ⟨?_, by decide +kernel, by decide +kernel⟩
  exact (G.bin .ge (ts := [.var (nm 'A'), .op .divide, .cst (.long 2)]) (G.down (n := Op.divide.prior) (by decide)
    (G.bin .divide (ts := [.var (nm 'A')]) ((G.var _).down (by decide)) ((G.cst (.long 2)).down (by decide))))
    ((G.var _).down (by decide))).down (by omega)

end Iode.Lec
