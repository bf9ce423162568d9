import Verif.Model.Aggr
import Verif.Spec.Aggr
import Verif.Lemmas.SMap
import Verif.Lemmas.Convert
import Verif.Lemmas.Names
import Mathlib.Data.List.TakeWhile
import Mathlib.Data.List.GetD
import Mathlib.Tactic.Linarith
import Mathlib.Tactic.Ring
import Mathlib.Tactic.NormNum
import Mathlib.Algebra.Order.BigOperators.Group.List

/-!
# C61: aggregation of variables
-/
namespace Iode.Aggr

open Iode.Idt

/-! ## Names -/

theorem fits_nil (ch : Char) (name : Name) : Fits ch [] name ↔ name = [] := by
  unfold Fits
  cases name <;> simp

theorem fits_cons (ch : Char) (i : Bool × Char) (is : List (Bool × Char)) (c : Char) (cs : Name) :
    Fits ch (i :: is) (c :: cs) ↔ (if i.2 = '?' then i.1 = true → c ≠ ch else i.2 = c) ∧ Fits ch is cs := by
  unfold Fits
  simp only [List.length_cons, Nat.add_right_cancel_iff, List.zip_cons_cons, List.mem_cons, forall_eq_or_imp]
  tauto

/-- The characters of one part. -/
theorem loop_part (ch : Char) (agg : Bool) (rest : List Char) : ∀ (cs : List Char) (e : Name), (∀ c ∈ cs, c ≠ '(' ∧ c ≠ ')' ∧ c ≠ '[' ∧ c ≠ ']') →
    aggrLoop ch agg (cs ++ rest) e =
      if Fits ch (cs.map (agg, ·)) (e.take cs.length) then
        (aggrLoop ch agg rest (e.drop cs.length)).map fun r =>
          List.zipWith (fun i c => if i.1 = true ∧ i.2 = '?' then ch else c) (cs.map (agg, ·)) (e.take cs.length) ++ r
      else none := by
  intro cs
  induction cs with
  | nil => intro e _; simp [fits_nil]
  | cons p ps ih =>
    intro e h
    obtain ⟨h1, h2, h3, h4⟩ := h p (by simp)
    cases e with
    | nil =>
      simp only [List.cons_append, aggrLoop]
      rw [if_pos ⟨trivial, h4, h2⟩, if_neg]
      simp [Fits]
    | cons c cs =>
      simp only [List.cons_append, aggrLoop, List.map_cons, List.length_cons, List.take_succ_cons, List.drop_succ_cons, fits_cons,
        List.zipWith_cons_cons]
      rw [if_neg (by simp), if_neg (by tauto), if_neg h3, if_neg h4, ih cs fun c hc => h c (by simp [hc])]
      by_cases hp : p = '?'
      · subst hp
        simp only [if_true, and_true]
        cases agg with
        | false =>
          simp only [Bool.false_and, Bool.false_eq_true, if_false, false_implies, true_and]
          split <;> simp [Option.map_map, Function.comp_def]
        | true =>
          by_cases hc : c = ch
          · subst hc
            simp
          · simp only [Bool.true_and, hc, decide_false, Bool.false_eq_true, if_false, if_true, not_false_eq_true, true_implies, true_and, ne_eq]
            split <;> simp [Option.map_map, Function.comp_def]
      · simp only [hp, if_false, and_false]
        by_cases hc : p = c
        · subst hc
          simp only [if_true, true_and]
          split <;> simp [Option.map_map, Function.comp_def]
        · simp [hc]

theorem fits_append (ch : Char) : ∀ (is js : List (Bool × Char)) (e : Name),
    Fits ch (is ++ js) e ↔ Fits ch is (e.take is.length) ∧ Fits ch js (e.drop is.length) := by
  intro is
  induction is with
  | nil => intro js e; simp [fits_nil]
  | cons i is ih =>
    intro js e
    cases e with
    | nil => simp [Fits]
    | cons c cs =>
      simp only [List.cons_append, fits_cons, List.length_cons, List.take_succ_cons, List.drop_succ_cons, ih]
      tauto

theorem zip_append (ch : Char) : ∀ (is js : List (Bool × Char)) (e : Name),
    List.zipWith (fun i c => if i.1 = true ∧ i.2 = '?' then ch else c) (is ++ js) e =
      List.zipWith (fun (i : Bool × Char) c => if i.1 = true ∧ i.2 = '?' then ch else c) is (e.take is.length) ++
        List.zipWith (fun (i : Bool × Char) c => if i.1 = true ∧ i.2 = '?' then ch else c) js (e.drop is.length) := by
  intro is
  induction is with
  | nil => intro js e; simp
  | cons i is ih =>
    intro js e
    cases e with
    | nil => simp
    | cons c cs =>
      simp only [List.cons_append, List.zipWith_cons_cons, List.length_cons, List.take_succ_cons, List.drop_succ_cons, ih]

theorem loop_render (ch : Char) : ∀ (ps : List Part) (e : Name), GoodParts ps → aggrLoop ch false (render ps) e =
    if Fits ch (items ps) e then some (List.zipWith (fun i c => if i.1 = true ∧ i.2 = '?' then ch else c) (items ps) e) else none := by
  intro ps
  induction ps with
  | nil => intro e _; simp [render, items, aggrLoop, fits_nil]
  | cons p ps ih =>
    intro e h
    obtain ⟨hne, hc⟩ := h p (by simp)
    have ih := fun e => ih e fun q hq => h q (by simp [hq])
    have hit : items (p :: ps) = p.cs.map (p.agg, ·) ++ items ps := by simp [items]
    rw [hit, zip_append]
    simp only [fits_append, List.length_map]
    by_cases he : e = []
    · subst he
      rw [if_neg]
      · cases ha : p.agg <;> simp [render, ha, aggrLoop]
      · rintro ⟨h1, -⟩
        have := h1.1
        simp at this
        exact hne this
    have key : aggrLoop ch false (render (p :: ps)) e =
        aggrLoop ch p.agg (p.cs ++ (if p.agg then ']' else ')') :: render ps) e := by
      cases ha : p.agg <;> simp [render, ha, aggrLoop, he]
    rw [key, loop_part ch p.agg _ p.cs e hc]
    have tail : ∀ e', aggrLoop ch p.agg ((if p.agg then ']' else ')') :: render ps) e' = aggrLoop ch false (render ps) e' := by
      intro e'
      cases ha : p.agg <;> simp [aggrLoop]
    rw [tail, ih]
    by_cases h1 : Fits ch (p.cs.map (p.agg, ·)) (e.take p.cs.length)
    · by_cases h2 : Fits ch (items ps) (e.drop p.cs.length)
      · rw [if_pos h1, if_pos h2, if_pos ⟨h1, h2⟩]
        rfl
      · rw [if_pos h1, if_neg h2, if_neg (fun h => h2 h.2)]
        rfl
    · rw [if_neg h1, if_neg (fun h => h1 h.1)]

/-- The aggregation characters that give names: the blank, or a character of names. -/
def ChOk (ch : Char) : Prop := ch = ' ' ∨ nameTailOk .variables ch = true

theorem tail_of_check {e : Name} (h : checkName .variables e = true) : ∀ c ∈ e, nameTailOk .variables c = true := by
  cases e with
  | nil => simp
  | cons a as =>
    simp only [checkName, Bool.and_eq_true, List.all_eq_true] at h
    obtain ⟨⟨⟨-, h1⟩, h2⟩, -⟩ := h
    intro c hc
    rcases List.mem_cons.mp hc with rfl | hc
    · simp only [nameHeadOk, Bool.or_eq_true] at h1
      simp only [nameTailOk, Bool.or_eq_true]
      tauto
    · exact h2 c hc

theorem tail_plain {c : Char} (h : nameTailOk .variables c = true) : c ≠ ' ' ∧ c ≠ '\x00' ∧ toUpperC c = c ∧ isTrimC c = false := by
  obtain ⟨h1, h2, -⟩ := nameTailOk_facts h
  refine ⟨?_, ?_, h2 rfl, h1⟩
  · rintro rfl; revert h; decide
  · rintro rfl; revert h; decide

theorem key_self {n : Name} (h : ∀ c ∈ n, nameTailOk .variables c = true) : toKey .variables n = n := by
  have ht : trim n = n := by
    unfold trim
    have : ∀ l : Name, (∀ c ∈ l, nameTailOk .variables c = true) → l.dropWhile isTrimC = l := by
      intro l hl
      cases l with
      | nil => rfl
      | cons c cs => rw [List.dropWhile_cons_of_neg]; simp [(tail_plain (hl c (by simp))).2.2.2]
    rw [this n h, this _ (by simpa using h), List.reverse_reverse]
  simp only [toKey, ObjType.mode, ht, toUpper]
  conv_rhs => rw [← List.map_id n]
  exact List.map_congr_left fun c hc => (tail_plain (h c hc)).2.2.1

/-- The name of the aggregate of a variable. -/
def target (ch : Char) (pattern e : Name) : Option Name := (aggrName ch pattern e).map (toKey .variables)

theorem zip_chars {ch : Char} {is : List (Bool × Char)} {e : Name} :
    ∀ c ∈ List.zipWith (fun (i : Bool × Char) c => if i.1 = true ∧ i.2 = '?' then ch else c) is e, c ∈ e ∨ c = ch := by
  induction is generalizing e with
  | nil => simp
  | cons i is ih =>
    cases e with
    | nil => simp
    | cons a as =>
      intro c hc
      rw [List.zipWith_cons_cons, List.mem_cons] at hc
      rcases hc with rfl | hc
      · split
        · exact .inr rfl
        · exact .inl (by simp)
      · rcases ih c hc with h | h
        · exact .inl (by simp [h])
        · exact .inr h

theorem newName_chars {ch : Char} (hch : ChOk ch) {is : List (Bool × Char)} {e : Name} (he : checkName .variables e = true) :
    ∀ c ∈ newName ch is e, nameTailOk .variables c = true := by
  intro c hc
  simp only [newName, List.mem_filter, decide_not, Bool.not_eq_true', decide_eq_false_iff_not] at hc
  rcases zip_chars c hc.1 with h | rfl
  · exact tail_of_check he c h
  · rcases hch with h | h
    · exact absurd h hc.2
    · exact h

theorem target_render {ch : Char} (hch : ChOk ch) {ps : List Part} (hp : GoodParts ps) {e : Name} (he : checkName .variables e = true) :
    target ch (render ps) e = if Fits ch (items ps) e then some (newName ch (items ps) e) else none := by
  unfold target aggrName
  rw [loop_render ch ps e hp]
  split
  · simp only [Option.map_some, Option.some.injEq]
    have h0 : ch ≠ '\x00' := by
      rintro rfl
      rcases hch with h | h
      · revert h; decide
      · revert h; decide
    have : (List.zipWith (fun (i : Bool × Char) c => if i.1 = true ∧ i.2 = '?' then ch else c) (items ps) e).takeWhile (· ≠ '\x00') =
        List.zipWith (fun (i : Bool × Char) c => if i.1 = true ∧ i.2 = '?' then ch else c) (items ps) e := by
      rw [List.takeWhile_eq_self_iff]
      intro c hc
      rcases zip_chars c hc with h | rfl
      · simpa using (tail_plain (tail_of_check he c h)).2.1
      · simpa using h0
    rw [this]
    exact key_self (newName_chars hch he)
  · rfl

/-! ## The loop -/

/-- The values of the variables that go into `n`, in order. -/
def members (ch : Char) (pattern : Name) (es : List (Name × List Rat)) (n : Name) : List (List Rat) :=
  (es.filter fun e => decide (target ch pattern e.1 = some n)).map (·.2)

/-- Adding series one by one. -/
def fold (method : Int) (o : Option (List Rat)) (vs : List (List Rat)) : Option (List Rat) :=
  vs.foldl (fun o v => some (match o with | none => v | some old => List.zipWith (combine method) old v)) o

theorem loop_find {ch : Char} {method : Int} {pattern : Name} : ∀ (es : List (Name × List Rat)) (st st' : St), SMap.Sorted st.m →
    loop ch method pattern st es = .ok st' →
    SMap.Sorted st'.m ∧ ∀ n, st'.m.find n = fold method (st.m.find n) (members ch pattern es n) := by
  intro es
  induction es with
  | nil =>
    intro st st' hs h
    simp only [loop, Res.ok.injEq] at h
    subst h
    exact ⟨hs, fun n => rfl⟩
  | cons e es ih =>
    intro st st' hs h
    simp only [loop] at h
    cases hst : step ch method pattern st e with
    | err => rw [hst] at h; cases h
    | ub => rw [hst] at h; cases h
    | ok s1 =>
      rw [hst] at h
      have h : loop ch method pattern s1 es = .ok st' := h
      unfold step at hst
      cases ht : aggrName ch pattern e.1 with
      | none =>
        rw [ht] at hst
        simp only [Res.ok.injEq] at hst
        subst hst
        obtain ⟨i1, i2⟩ := ih st st' hs h
        refine ⟨i1, fun n => ?_⟩
        rw [i2 n]
        simp [members, target, ht]
      | some r =>
        rw [ht] at hst
        simp only at hst
        have htar : target ch pattern e.1 = some (toKey .variables r) := by simp [target, ht]
        cases hf : st.m.find (toKey .variables r) with
        | none =>
          rw [hf] at hst
          simp only at hst
          split at hst
          · simp only [Res.ok.injEq] at hst
            subst hst
            obtain ⟨i1, i2⟩ := ih _ st' (SMap.sorted_insert _ _ _ hs) h
            refine ⟨i1, fun n => ?_⟩
            rw [i2 n]
            simp only [SMap.find_insert, members, List.filter_cons, htar]
            by_cases hn : n = toKey .variables r
            · subst hn
              simp [fold, hf]
            · rw [if_neg hn]
              simp [Ne.symm hn]
          · cases hst
        | some old =>
          rw [hf] at hst
          simp only [Res.ok.injEq] at hst
          subst hst
          obtain ⟨i1, i2⟩ := ih _ st' (SMap.sorted_insert _ _ _ hs) h
          refine ⟨i1, fun n => ?_⟩
          rw [i2 n]
          simp only [SMap.find_insert, members, List.filter_cons, htar]
          by_cases hn : n = toKey .variables r
          · subst hn
            simp [fold, hf]
          · rw [if_neg hn]
            simp [Ne.symm hn]

/-! ## The values -/

theorem fold_some (method : Int) (nb : Nat) : ∀ (ws : List (List Rat)) (v : List Rat), v.length = nb → (∀ w ∈ ws, w.length = nb) →
    ∃ r, fold method (some v) ws = some r ∧ r.length = nb ∧
      ∀ t, t < nb → r.getD t 0 = (ws.map fun w => w.getD t 0).foldl (combine method) (v.getD t 0) := by
  intro ws
  induction ws with
  | nil => intro v hv _; exact ⟨v, rfl, hv, fun t _ => rfl⟩
  | cons w ws ih =>
    intro v hv hw
    have h1 := hw w (by simp)
    have hl : (List.zipWith (combine method) v w).length = nb := by simp [hv, h1]
    obtain ⟨r, r1, r2, r3⟩ := ih (List.zipWith (combine method) v w) hl fun x hx => hw x (by simp [hx])
    refine ⟨r, r1, r2, fun t ht => ?_⟩
    rw [r3 t ht]
    simp only [List.map_cons, List.foldl_cons]
    congr 1
    simp [List.getD_eq_getElem?_getD, List.getElem?_zipWith, hv, h1, ht]

theorem members_parts {ch : Char} (hch : ChOk ch) {ps : List Part} (hp : GoodParts ps) {src : List (Name × List Rat)}
    (hn : ∀ e ∈ src, checkName .variables e.1 = true) (n : Name) (t : Nat) :
    (members ch (render ps) src n).map (fun w => w.getD t 0) = parts ch (items ps) src n t := by
  unfold members parts
  rw [List.map_map]
  have : src.filter (fun e => decide (target ch (render ps) e.1 = some n)) =
      src.filter (fun e => decide (Fits ch (items ps) e.1 ∧ newName ch (items ps) e.1 = n)) := by
    refine List.filter_congr fun e he => ?_
    rw [target_render hch hp (hn e he)]
    split <;> simp_all
  rw [this]
  rfl

theorem members_mem {ch : Char} (hch : ChOk ch) {ps : List Part} (hp : GoodParts ps) {src : List (Name × List Rat)}
    (hn : ∀ e ∈ src, checkName .variables e.1 = true) (n : Name) :
    members ch (render ps) src n = [] ↔ ∀ e ∈ src, Fits ch (items ps) e.1 → newName ch (items ps) e.1 ≠ n := by
  unfold members
  rw [List.map_eq_nil_iff, List.filter_eq_nil_iff]
  refine forall₂_congr fun e he => ?_
  rw [target_render hch hp (hn e he)]
  split <;> simp_all

theorem members_len {ch : Char} {pattern : Name} {src : List (Name × List Rat)} {nb : Nat} (hl : ∀ e ∈ src, e.2.length = nb) (n : Name) :
    ∀ w ∈ members ch pattern src n, w.length = nb := by
  intro w hw
  simp only [members, List.mem_map, List.mem_filter] at hw
  obtain ⟨e, ⟨he, -⟩, rfl⟩ := hw
  exact hl e he

/-- What the aggregates are, for every method. -/
theorem loop_values {ch : Char} (hch : ChOk ch) {ps : List Part} (hp : GoodParts ps) {method : Int} {nb : Nat} {src : List (Name × List Rat)}
    (hn : ∀ e ∈ src, checkName .variables e.1 = true) (hl : ∀ e ∈ src, e.2.length = nb) {st : St}
    (h : loop ch method (render ps) ⟨[], fun _ => none, 0⟩ src = .ok st) (n : Name) :
    (st.m.find n = none ↔ ∀ e ∈ src, Fits ch (items ps) e.1 → newName ch (items ps) e.1 ≠ n) ∧
    ∀ y, st.m.find n = some y → y.length = nb ∧ ∀ t, t < nb → ∃ x xs, parts ch (items ps) src n t = x :: xs ∧
      y.getD t 0 = xs.foldl (combine method) x := by
  obtain ⟨-, h2⟩ := loop_find src _ _ (by trivial) h
  have h2 := h2 n
  rw [← members_mem hch hp hn n]
  simp only [SMap.find_nil] at h2
  have hpt := members_parts hch hp hn n
  have hml := members_len (ch := ch) (pattern := render ps) hl n
  cases hm : members ch (render ps) src n with
  | nil =>
    rw [hm] at h2
    have h2 : st.m.find n = none := h2
    simp [h2]
  | cons v ws =>
    rw [hm] at h2 hpt hml
    obtain ⟨r, r1, r2, r3⟩ := fold_some method nb ws v (hml v (by simp)) fun w hw => hml w (by simp [hw])
    have h2 : st.m.find n = some r := h2.trans r1
    rw [h2]
    refine ⟨by simp, fun y hy => ?_⟩
    cases hy
    exact ⟨r2, fun t ht => ⟨_, _, (hpt t).symm, r3 t ht⟩⟩

/-- The sum of the absolute values of the numbers of a list. -/
def absSum (xs : List Rat) : Rat := ((xs.filter isNum).map fun x => |x|).sum

theorem absSum_cons (x : Rat) (xs : List Rat) : absSum (x :: xs) = (if isNum x then |x| else 0) + absSum xs := by
  unfold absSum
  by_cases h : isNum x = true
  · simp [h]
  · simp [h]

theorem absSum_nonneg (xs : List Rat) : 0 ≤ absSum xs := by
  unfold absSum
  refine List.sum_nonneg ?_
  intro y hy
  simp only [List.mem_map] at hy
  obtain ⟨x, -, rfl⟩ := hy
  exact abs_nonneg x

theorem absSum_sublist {xs ys : List Rat} (h : xs.Sublist ys) : absSum xs ≤ absSum ys := by
  induction h with
  | slnil => exact le_refl _
  | cons y _ ih =>
    rw [absSum_cons]
    have : 0 ≤ if isNum y then |y| else 0 := by split <;> [exact abs_nonneg y; exact le_refl _]
    linarith
  | cons_cons y _ ih =>
    rw [absSum_cons, absSum_cons]
    linarith

theorem sum_low {method : Int} (hm : method ≠ 1) : ∀ (xs : List Rat) (s b : Rat), 0 ≤ b → s ≤ na + b →
    xs.foldl (combine method) s ≤ na + (b + absSum xs) := by
  intro xs
  induction xs with
  | nil => intro s b _ h; simpa [absSum] using h
  | cons x xs ih =>
    intro s b hb h
    rw [List.foldl_cons, absSum_cons]
    by_cases hx : isNum x = true
    · have := ih (combine method s x) (b + |x|) (by positivity) (by
        simp only [combine, hx, hm, if_true, if_false]
        have := le_abs_self x
        linarith)
      rw [if_pos hx]
      linarith
    · have := ih (combine method s x) b hb (by
        simp only [combine, hx]
        simpa using hb)
      rw [if_neg hx]
      linarith

theorem sum_missing {method : Int} (hm : method ≠ 1) : ∀ (xs : List Rat) (s : Rat), (∃ x ∈ xs, isNum x = false) →
    xs.foldl (combine method) s ≤ na + absSum xs := by
  intro xs
  induction xs with
  | nil => intro s h; simp at h
  | cons x xs ih =>
    intro s h
    rw [List.foldl_cons, absSum_cons]
    by_cases hx : isNum x = true
    · obtain ⟨y, hy, hyn⟩ := h
      rcases List.mem_cons.mp hy with rfl | hy
      · rw [hx] at hyn; cases hyn
      · have := ih (combine method s x) ⟨y, hy, hyn⟩
        rw [if_pos hx]
        have := abs_nonneg x
        linarith
    · have := sum_low hm xs (combine method s x) 0 (le_refl _) (by simp [combine, hx])
      rw [if_neg hx]
      linarith

theorem sum_all {method : Int} (hm : method ≠ 1) : ∀ (xs : List Rat) (s : Rat), (∀ x ∈ xs, isNum x = true) →
    xs.foldl (combine method) s = s + xs.sum := by
  intro xs
  induction xs with
  | nil => intro s _; simp
  | cons x xs ih =>
    intro s h
    rw [List.foldl_cons, ih _ fun y hy => h y (by simp [hy]), List.sum_cons]
    simp only [combine, h x (by simp), hm, if_true, if_false]
    ring

theorem prod_all : ∀ (xs : List Rat) (s : Rat), (∀ x ∈ xs, isNum x = true) → xs.foldl (combine 1) s = s * xs.prod := by
  intro xs
  induction xs with
  | nil => intro s _; simp
  | cons x xs ih =>
    intro s h
    rw [List.foldl_cons, ih _ fun y hy => h y (by simp [hy]), List.prod_cons]
    simp only [combine, h x (by simp), if_true]
    ring

/-- Sums, with values missing. -/
theorem sum_fold {method : Int} (hm : method ≠ 1) {x : Rat} {xs : List Rat} (hv : ∀ y ∈ x :: xs, isNum y = true ∨ y = na)
    (hb : absSum (x :: xs) < 10 ^ 37) :
    (if ∀ y ∈ x :: xs, isNum y = true then xs.foldl (combine method) x = (x :: xs).sum else isNum (xs.foldl (combine method) x) = false) := by
  split
  · rename_i h
    rw [sum_all hm xs x fun y hy => h y (by simp [hy]), List.sum_cons]
  · rename_i h
    have low : xs.foldl (combine method) x ≤ na + absSum (x :: xs) := by
      by_cases hx : isNum x = true
      · have : ∃ y ∈ xs, isNum y = false := by
          by_contra hc
          refine h fun y hy => ?_
          rcases List.mem_cons.mp hy with rfl | hy
          · exact hx
          · by_contra hyn
            exact hc ⟨y, hy, by simpa using hyn⟩
        have := sum_missing hm xs x this
        have h0 := absSum_cons x xs
        rw [if_pos hx] at h0
        have := abs_nonneg x
        linarith
      · have hxn := (hv x (by simp)).resolve_left hx
        have := sum_low hm xs x 0 (le_refl _) (by simp [hxn])
        have h0 := absSum_cons x xs
        rw [if_neg hx] at h0
        linarith
    unfold isNum
    rw [decide_eq_false_iff_not]
    unfold na at low
    intro hc
    linarith

/-- The source of an aggregation: valid names, series as long as the sample, with numbers or missing values, and the numbers of a period are so
    small that they cannot add up to the missing value. -/
structure Source (nb : Int) (src : List (Name × List Rat)) : Prop where
  pos : 0 < nb
  names : ∀ e ∈ src, checkName .variables e.1 = true
  len : ∀ e ∈ src, e.2.length = nb.toNat
  vals : ∀ e ∈ src, ∀ x ∈ e.2, isNum x = true ∨ x = na
  small : ∀ t, absSum (src.map fun e => e.2.getD t 0) < 10 ^ 37

theorem parts_sub (ch : Char) (is : List (Bool × Char)) (src : List (Name × List Rat)) (n : Name) (t : Nat) :
    (parts ch is src n t).Sublist (src.map fun e => e.2.getD t 0) :=
  (List.filter_sublist).map _

theorem parts_vals {nb : Int} {src : List (Name × List Rat)} (hs : Source nb src) (ch : Char) (is : List (Bool × Char)) (n : Name) {t : Nat}
    (ht : t < nb.toNat) : ∀ x ∈ parts ch is src n t, isNum x = true ∨ x = na := by
  intro x hx
  have := (parts_sub ch is src n t).subset hx
  simp only [List.mem_map] at this
  obtain ⟨e, he, rfl⟩ := this
  have hl := hs.len e he
  rw [List.getD_eq_getElem _ _ (by omega)]
  exact hs.vals e he _ (List.getElem_mem _)

theorem aggregate_loop {ch : Char} {method : Int} (hm : method ≠ 2) {pattern : Name} {nb : Int} (hnb : 0 < nb) {src m : SMap (List Rat)}
    (h : aggregate ch method pattern nb src = .ok m) :
    ∃ st, loop ch method pattern ⟨[], fun _ => none, 0⟩ src = .ok st ∧ st.m = m := by
  unfold aggregate at h
  rw [if_neg (by omega)] at h
  cases hl : loop ch method pattern ⟨[], fun _ => none, 0⟩ src with
  | err => rw [hl] at h; cases h
  | ub => rw [hl] at h; cases h
  | ok st =>
    rw [hl] at h
    refine ⟨st, rfl, ?_⟩
    have h : finish method st = .ok m := h
    unfold finish at h
    rw [if_neg hm] at h
    simpa using h

/-- `C61`: the sums.  There is one aggregate for each name given by the pattern; its values are the sums of the values of the variables whose name
    gives this name, and are missing where one of them is missing. -/
theorem C61_sum {ch : Char} (hch : ChOk ch) {ps : List Part} (hp : GoodParts ps) {nb : Int} {src m : SMap (List Rat)} (hs : Source nb src)
    (h : aggregate ch 0 (render ps) nb src = .ok m) (n : Name) :
    (m.find n = none ↔ ∀ e ∈ src, Fits ch (items ps) e.1 → newName ch (items ps) e.1 ≠ n) ∧
    ∀ y, m.find n = some y → y.length = nb.toNat ∧ ∀ t, t < nb.toNat →
      if ∀ x ∈ parts ch (items ps) src n t, isNum x = true then y.getD t 0 = (parts ch (items ps) src n t).sum
      else isNum (y.getD t 0) = false := by
  obtain ⟨st, h1, rfl⟩ := aggregate_loop (by decide) hs.pos h
  obtain ⟨h2, h3⟩ := loop_values hch hp hs.names hs.len h1 n
  refine ⟨h2, fun y hy => ?_⟩
  obtain ⟨h4, h5⟩ := h3 y hy
  refine ⟨h4, fun t ht => ?_⟩
  obtain ⟨x, xs, h6, h7⟩ := h5 t ht
  have hv := parts_vals hs ch (items ps) n ht
  have hb := lt_of_le_of_lt (absSum_sublist (parts_sub ch (items ps) src n t)) (hs.small t)
  rw [h6] at hv hb ⊢
  rw [h7]
  exact sum_fold (by decide) hv hb

/-- `C61`: the products, where nothing is missing.  Partial: with missing values see `C61_product_missing_counterexample`. -/
theorem C61_product_partial {ch : Char} (hch : ChOk ch) {ps : List Part} (hp : GoodParts ps) {nb : Int} {src m : SMap (List Rat)} (hs : Source nb src)
    (h : aggregate ch 1 (render ps) nb src = .ok m) (n : Name) :
    (m.find n = none ↔ ∀ e ∈ src, Fits ch (items ps) e.1 → newName ch (items ps) e.1 ≠ n) ∧
    ∀ y, m.find n = some y → y.length = nb.toNat ∧ ∀ t, t < nb.toNat →
      (∀ x ∈ parts ch (items ps) src n t, isNum x = true) → y.getD t 0 = (parts ch (items ps) src n t).prod := by
  obtain ⟨st, h1, rfl⟩ := aggregate_loop (by decide) hs.pos h
  obtain ⟨h2, h3⟩ := loop_values hch hp hs.names hs.len h1 n
  refine ⟨h2, fun y hy => ?_⟩
  obtain ⟨h4, h5⟩ := h3 y hy
  refine ⟨h4, fun t ht hnum => ?_⟩
  obtain ⟨x, xs, h6, h7⟩ := h5 t ht
  rw [h6] at hnum ⊢
  rw [h7, prod_all xs x fun y hy => hnum y (by simp [hy]), List.prod_cons]

/-! ## Means -/

theorem loop_one {ch : Char} {method : Int} {pattern n : Name} : ∀ (es : List (Name × List Rat)) (st st' : St) (k : Nat),
    (∀ e ∈ es, ∀ r, target ch pattern e.1 = some r → r = n) →
    (st.m = [] ∧ k = 0 ∨ ∃ v, st.m = [(n, v)] ∧ st.npos = 0 ∧ st.times 0 = some k) → loop ch method pattern st es = .ok st' →
    (st'.m = [] ∧ k + (members ch pattern es n).length = 0 ∨
      ∃ v, st'.m = [(n, v)] ∧ st'.npos = 0 ∧ st'.times 0 = some (k + (members ch pattern es n).length)) := by
  intro es
  induction es with
  | nil =>
    intro st st' k _ hst h
    simp only [loop, Res.ok.injEq] at h
    subst h
    simpa [members] using hst
  | cons e es ih =>
    intro st st' k hes hst h
    simp only [loop] at h
    cases hs1 : step ch method pattern st e with
    | err => rw [hs1] at h; cases h
    | ub => rw [hs1] at h; cases h
    | ok s1 =>
      rw [hs1] at h
      have h : loop ch method pattern s1 es = .ok st' := h
      unfold step at hs1
      have hes' : ∀ e ∈ es, ∀ r, target ch pattern e.1 = some r → r = n := fun e' he' => hes e' (by simp [he'])
      cases ht : aggrName ch pattern e.1 with
      | none =>
        rw [ht] at hs1
        simp only [Res.ok.injEq] at hs1
        subst hs1
        have := ih st st' k hes' hst h
        have hmem : members ch pattern (e :: es) n = members ch pattern es n := by simp [members, target, ht]
        rw [hmem]
        exact this
      | some r =>
        have htar : target ch pattern e.1 = some (toKey .variables r) := by simp [target, ht]
        have hr := hes e (by simp) _ htar
        rw [ht] at hs1
        simp only [hr] at hs1
        have hmem : (members ch pattern (e :: es) n).length = (members ch pattern es n).length + 1 := by
          simp [members, List.filter_cons, htar, hr]
        rw [hmem]
        rcases hst with ⟨hm, rfl⟩ | ⟨v, hm, hp, htm⟩
        · rw [hm] at hs1
          simp only [SMap.find_nil] at hs1
          split at hs1
          · simp only [Res.ok.injEq] at hs1
            subst hs1
            have := ih _ st' 1 hes' (.inr ⟨e.2, rfl, by simp [SMap.insert, SMap.keys], by simp [SMap.insert, SMap.keys]⟩) h
            rw [Nat.add_comm _ 1, ← Nat.add_assoc]
            exact this
          · cases hs1
        · rw [hm] at hs1
          simp only [SMap.find, if_true, Res.ok.injEq] at hs1
          subst hs1
          have := ih _ st' (k + 1) hes' (.inr ⟨_, by simp [SMap.insert]; rfl, by simp [SMap.keys], by simp [SMap.keys, htm]⟩) h
          rw [Nat.add_comm _ 1, ← Nat.add_assoc]
          exact this

/-- `C61`: the means, when the pattern gives only one name.  Partial: with several names see `C61_mean_counterexample`. -/
theorem C61_mean_partial {ch : Char} (hch : ChOk ch) {ps : List Part} (hp : GoodParts ps) {nb : Int} {src m : SMap (List Rat)} (hs : Source nb src)
    (h : aggregate ch 2 (render ps) nb src = .ok m) (n : Name) (hone : ∀ e ∈ src, Fits ch (items ps) e.1 → newName ch (items ps) e.1 = n) :
    (m.find n = none ↔ ∀ e ∈ src, ¬ Fits ch (items ps) e.1) ∧
    ∀ y, m.find n = some y → y.length = nb.toNat ∧ ∀ t, t < nb.toNat →
      if ∀ x ∈ parts ch (items ps) src n t, isNum x = true then
        y.getD t 0 = (parts ch (items ps) src n t).sum / (parts ch (items ps) src n t).length
      else isNum (y.getD t 0) = false := by
  unfold aggregate at h
  rw [if_neg (by have := hs.pos; omega)] at h
  cases hl : loop ch 2 (render ps) ⟨[], fun _ => none, 0⟩ src with
  | err => rw [hl] at h; cases h
  | ub => rw [hl] at h; cases h
  | ok st =>
    rw [hl] at h
    have h : finish 2 st = .ok m := h
    obtain ⟨h2, h3⟩ := loop_values hch hp hs.names hs.len hl n
    have hfit : (∀ e ∈ src, Fits ch (items ps) e.1 → newName ch (items ps) e.1 ≠ n) ↔ ∀ e ∈ src, ¬ Fits ch (items ps) e.1 :=
      ⟨fun h e he hf => h e he hf (hone e he hf), fun h e he hf => absurd hf (h e he)⟩
    rw [hfit] at h2
    have htar : ∀ e ∈ src, ∀ r, target ch (render ps) e.1 = some r → r = n := by
      intro e he r hr
      rw [target_render hch hp (hs.names e he)] at hr
      split at hr
      · rename_i hf
        rw [← hone e he hf]
        simpa using hr.symm
      · cases hr
    unfold finish at h
    rw [if_pos rfl] at h
    rcases loop_one src _ st 0 htar (.inl ⟨rfl, rfl⟩) hl with ⟨e1, e2⟩ | ⟨v, e1, e2, e3⟩
    · rw [e1] at h h2
      simp only [Res.ok.injEq] at h
      subst h
      exact ⟨h2, by simp⟩
    · rw [e1, e2, e3] at h
      simp only [Res.ok.injEq, List.map_cons, List.map_nil] at h
      subst h
      rw [e1] at h2 h3
      simp only [SMap.find, if_true] at h2 h3 ⊢
      refine ⟨by rw [← h2]; simp, fun y hy => ?_⟩
      cases hy
      obtain ⟨h4, h5⟩ := h3 v rfl
      refine ⟨by simpa using h4, fun t ht => ?_⟩
      obtain ⟨x, xs, h6, h7⟩ := h5 t ht
      have hv := parts_vals hs ch (items ps) n ht
      have hb := lt_of_le_of_lt (absSum_sublist (parts_sub ch (items ps) src n t)) (hs.small t)
      have hlen : (members ch (render ps) src n).length = (parts ch (items ps) src n t).length := by
        rw [← members_parts hch hp hs.names n t, List.length_map]
      have hget : (v.map fun x => if isNum x = true then x / ((0 + (members ch (render ps) src n).length : Nat) : Rat) else x).getD t 0 =
          if isNum (v.getD t 0) = true then v.getD t 0 / ((parts ch (items ps) src n t).length : Rat) else v.getD t 0 := by
        rw [List.getD_eq_getElem _ _ (by simpa [h4] using ht), List.getElem_map, List.getD_eq_getElem _ _ (by simpa [h4] using ht), hlen]
        simp only [Nat.zero_add]
      rw [hget]
      rw [h6] at hv hb ⊢
      have key := sum_fold (method := 2) (by decide) hv hb
      rw [← h7] at key
      split
      · rename_i hall
        rw [if_pos hall] at key
        rw [key]
        split
        · rfl
        · rename_i hnn
          exfalso
          refine hnn ?_
          have : -absSum (x :: xs) ≤ (x :: xs).sum := by
            have : ∀ l : List Rat, (∀ y ∈ l, isNum y = true) → -absSum l ≤ l.sum := by
              intro l
              induction l with
              | nil => intro _; simp [absSum]
              | cons a l ih =>
                intro hl
                have := ih fun y hy => hl y (by simp [hy])
                rw [absSum_cons, if_pos (hl a (by simp)), List.sum_cons]
                have := neg_abs_le a
                linarith
            exact this _ hall
          unfold isNum
          rw [decide_eq_true_eq]
          linarith
      · rename_i hall
        rw [if_neg hall] at key
        simp only [key, Bool.false_eq_true, if_false]

/-! ## When names are valid -/

theorem loop_runs {ch : Char} {method : Int} {pattern : Name} : ∀ (es : List (Name × List Rat)) (st : St),
    loop ch method pattern st es ≠ .ub ∧
    ((∃ st', loop ch method pattern st es = .ok st') ↔
      ∀ e ∈ es, ∀ r, target ch pattern e.1 = some r → st.m.has r = true ∨ checkName .variables r = true) := by
  intro es
  induction es with
  | nil => intro st; simp [loop]
  | cons e es ih =>
    intro st
    simp only [loop]
    cases ht : aggrName ch pattern e.1 with
    | none =>
      have hs : step ch method pattern st e = .ok st := by simp [step, ht]
      rw [hs]
      obtain ⟨i1, i2⟩ := ih st
      refine ⟨i1, i2.trans ?_⟩
      simp [target, ht]
    | some r =>
      have htar : target ch pattern e.1 = some (toKey .variables r) := by simp [target, ht]
      cases hf : st.m.find (toKey .variables r) with
      | none =>
        have hh : st.m.has (toKey .variables r) = false := by rw [SMap.has_false_iff]; exact hf
        by_cases hc : checkName .variables (toKey .variables r) = true
        · simp only [step, ht, hf, hc, if_true, Res.bind]
          obtain ⟨i1, i2⟩ := ih ⟨st.m.insert (toKey .variables r) e.2, fun i => if i = (st.m.insert (toKey .variables r) e.2).keys.idxOf (toKey .variables r)
            then some 1 else st.times i, (st.m.insert (toKey .variables r) e.2).keys.idxOf (toKey .variables r)⟩
          refine ⟨i1, i2.trans ?_⟩
          simp only [List.mem_cons, forall_eq_or_imp, htar, Option.some.injEq, forall_eq', SMap.has_insert]
          constructor
          · intro h
            refine ⟨.inr hc, fun e' he' r' hr' => ?_⟩
            rcases h e' he' r' hr' with h | h
            · simp only [Bool.or_eq_true, decide_eq_true_eq] at h
              rcases h with rfl | h
              · exact .inr hc
              · exact .inl h
            · exact .inr h
          · rintro ⟨-, h⟩ e' he' r' hr'
            rcases h e' he' r' hr' with h | h
            · exact .inl (by simp [h])
            · exact .inr h
        · simp only [step, ht, hf, hc]
          refine ⟨by simp [Res.bind], ?_⟩
          simp only [Bool.false_eq_true, if_false, Res.bind]
          constructor
          · rintro ⟨_, h⟩; cases h
          · intro h
            have := h e (by simp) _ htar
            rw [hh] at this
            simp [hc] at this
      | some old =>
        have hh : st.m.has (toKey .variables r) = true := by rw [SMap.has_iff]; exact ⟨old, hf⟩
        simp only [step, ht, hf, Res.bind]
        obtain ⟨i1, i2⟩ := ih ⟨st.m.insert (toKey .variables r) (List.zipWith (combine method) old e.2), fun i => if i = st.m.keys.idxOf (toKey .variables r)
          then (st.times (st.m.keys.idxOf (toKey .variables r))).map (· + 1) else st.times i, st.m.keys.idxOf (toKey .variables r)⟩
        refine ⟨i1, i2.trans ?_⟩
        simp only [List.mem_cons, forall_eq_or_imp, htar, Option.some.injEq, forall_eq', SMap.has_insert, hh, true_or, true_and]
        refine forall₄_congr fun e' he' r' hr' => ?_
        by_cases hr : r' = toKey .variables r
        · subst hr; simp [hh]
        · simp [hr]

/-- `C61`: sums and products are refused when one of the names given by the pattern is not a name, and only then. -/
theorem C61_refused {ch : Char} (hch : ChOk ch) {ps : List Part} (hp : GoodParts ps) {method : Int} (hm : method ≠ 2) {nb : Int} {src : SMap (List Rat)}
    (hs : Source nb src) : aggregate ch method (render ps) nb src ≠ .ub ∧
    ((∃ m, aggregate ch method (render ps) nb src = .ok m) ↔
      ∀ e ∈ src, Fits ch (items ps) e.1 → checkName .variables (newName ch (items ps) e.1) = true) := by
  obtain ⟨h1, h2⟩ := loop_runs (ch := ch) (method := method) (pattern := render ps) src ⟨[], fun _ => none, 0⟩
  have hag : aggregate ch method (render ps) nb src = (loop ch method (render ps) ⟨[], fun _ => none, 0⟩ src).bind (fun st => .ok st.m) := by
    unfold aggregate
    rw [if_neg (by have := hs.pos; omega)]
    congr 1
    funext st
    rw [finish, if_neg hm]
  have h3 : (∃ m, aggregate ch method (render ps) nb src = .ok m) ↔ ∃ st, loop ch method (render ps) ⟨[], fun _ => none, 0⟩ src = .ok st := by
    rw [hag]
    cases loop ch method (render ps) ⟨[], fun _ => none, 0⟩ src <;> simp [Res.bind]
  refine ⟨?_, h3.trans (h2.trans ?_)⟩
  · rw [hag]
    cases hl : loop ch method (render ps) ⟨[], fun _ => none, 0⟩ src with
    | ub => exact absurd hl h1
    | _ => simp [Res.bind]
  · refine forall₂_congr fun e he => ?_
    rw [target_render hch hp (hs.names e he)]
    split <;> simp_all [SMap.has]

/-- `C61`: with the underscore, or a letter, as aggregation character every pattern gives names. -/
theorem C61_underscore {ch : Char} (hch : nameHeadOk .variables ch = true) {is : List (Bool × Char)} {e : Name} (he : checkName .variables e = true)
    (hf : Fits ch is e) : checkName .variables (newName ch is e) = true := by
  have ht : nameTailOk .variables ch = true := by
    simp only [nameHeadOk, Bool.or_eq_true] at hch
    simp only [nameTailOk, Bool.or_eq_true]
    tauto
  have hte := tail_of_check he
  have hz : ∀ c ∈ List.zipWith (fun (i : Bool × Char) c => if i.1 = true ∧ i.2 = '?' then ch else c) is e, nameTailOk .variables c = true := by
    intro c hc
    rcases zip_chars c hc with h | rfl
    · exact hte c h
    · exact ht
  have hn : newName ch is e = List.zipWith (fun (i : Bool × Char) c => if i.1 = true ∧ i.2 = '?' then ch else c) is e := by
    unfold newName
    rw [List.filter_eq_self]
    intro c hc
    simpa using (tail_plain (hz c hc)).1
  rw [hn]
  cases e with
  | nil => cases he
  | cons a as =>
    cases is with
    | nil => have := hf.1; simp at this
    | cons i is =>
      rw [List.zipWith_cons_cons] at hz ⊢
      simp only [checkName, Bool.and_eq_true, decide_eq_true_eq, List.all_eq_true] at he ⊢
      obtain ⟨⟨⟨l1, l2⟩, -⟩, l4⟩ := he
      have hl := hf.1
      simp only [List.length_cons] at hl l1
      refine ⟨⟨⟨?_, ?_⟩, fun c hc => hz c (by simp [hc])⟩, ?_⟩
      · simp only [List.length_cons, List.length_zipWith]; omega
      · split
        · exact hch
        · exact l2
      · simp only [List.length_zipWith]; omega

/-! ## The workspace -/

/-- `C61`: in a workspace with variables, only the variables with the names given by the pattern change; they take the values of the aggregates
    in the periods of the source, and keep their values (or are missing) in the others. -/
theorem C61_workspace {ch : Char} (hch : ChOk ch) {ps : List Part} (hp : GoodParts ps) {ws ws' : VarDb Rat} {vs es : Sample} (hv : vs.Fair) (he : es.Fair)
    (hne : ws.vars ≠ []) (hlen : ∀ k x, ws.vars.find k = some x → x.length = vs.nb.toNat) {src m : SMap (List Rat)} (hs : Source es.nb src)
    (hm : aggregate ch 0 (render ps) es.nb src = .ok m) (h : wsAggr ch 0 (render ps) ws vs es src = .ok ws') :
    (∀ k, (∀ e ∈ src, Fits ch (items ps) e.1 → newName ch (items ps) e.1 ≠ k) → ws'.vars.find k = ws.vars.find k) ∧
    ∀ k y, m.find k = some y → ∃ z, ws'.vars.find k = some z ∧ Convert.MergedBy na vs es (ws.vars.find k) y z := by
  unfold wsAggr at h
  rw [hm] at h
  have h : mergeDel na ws vs es m = .ok ws' := h
  have hval := fun n => C61_sum hch hp hs hm n
  obtain ⟨st, hl, rfl⟩ := aggregate_loop (by decide) hs.pos hm
  obtain ⟨hsort, -⟩ := loop_find src _ _ (by trivial) hl
  unfold mergeDel at h
  by_cases hmn : st.m = []
  · rw [if_pos hmn] at h
    cases h
    exact ⟨fun _ _ => rfl, by simp [hmn, SMap.find]⟩
  · rw [if_neg hmn, if_neg hne] at h
    have h : Convert.merge na ws vs es st.m = .ok ws' := h
    rcases Convert.merge_spec (na := na) hv he hlen hsort (fun k y hy => ((hval k).2 y hy).1) with ⟨g, -⟩ | ⟨w, g1, -, g2, g3⟩
    · rw [g] at h; cases h
    · rw [g1] at h
      cases h
      exact ⟨fun k hk => g2 k (by rw [SMap.has_false_iff]; exact (hval k).1.2 hk), g3⟩

/-! ## The theorems on a concrete source, and what the code does not do -/

/-- `(?)[?]` -/
def exParts : List Part := [⟨false, ['?']⟩, ⟨true, ['?']⟩]

def exSrc : SMap (List Rat) := [("A1".toList, [1, 2]), ("A2".toList, [10, na]), ("B1".toList, [5, 7])]

example : render exParts = "(?)[?]".toList := by decide +kernel

example : GoodParts exParts := by unfold GoodParts; decide +kernel

example : ChOk '_' := .inr (by decide +kernel)

example : nameHeadOk .variables '_' = true := by decide +kernel

theorem exSource : Source 2 exSrc := by
  refine ⟨by decide, by decide +kernel, by decide +kernel, by decide +kernel, fun t => ?_⟩
  match t with
  | 0 => decide +kernel
  | 1 => decide +kernel
  | t + 2 =>
    have : (exSrc.map fun e => e.2.getD (t + 2) 0) = [0, 0, 0] := rfl
    rw [this]
    decide +kernel

example : aggregate '_' 0 (render exParts) 2 exSrc = .ok [("A_".toList, [11, na]), ("B_".toList, [5, 7])] := by decide +kernel

example : aggregate '_' 1 (render exParts) 2 exSrc = .ok [("A_".toList, [10, na]), ("B_".toList, [5, 7])] := by decide +kernel

example : (exSrc.filter fun e => decide (Fits '_' (items exParts) e.1)).map (fun e => newName '_' (items exParts) e.1) =
    ["A_".toList, "A_".toList, "B_".toList] := by decide +kernel

/-- one aggregate only -/
example : aggregate '_' 2 "(A)[?]".toList 2 exSrc = .ok [("A_".toList, [11 / 2, na])] := by decide +kernel

example : render [⟨false, ['A']⟩, ⟨true, ['?']⟩] = "(A)[?]".toList ∧
    ∀ e ∈ exSrc, Fits '_' (items [⟨false, ['A']⟩, ⟨true, ['?']⟩]) e.1 → newName '_' (items [⟨false, ['A']⟩, ⟨true, ['?']⟩]) e.1 = "A_".toList := by
  decide +kernel

def exVs : Sample := ⟨⟨2000, 1, 'Y'⟩, ⟨2003, 1, 'Y'⟩, 4⟩
def exEs : Sample := ⟨⟨2001, 1, 'Y'⟩, ⟨2002, 1, 'Y'⟩, 2⟩

/-- a workspace over 2000-2003 and a file over 2001-2002 -/
example : exVs.Fair ∧ exEs.Fair := ⟨⟨3, ⟨⟨1, rfl, by decide, by decide⟩, ⟨1, rfl, by decide, by decide⟩, rfl, rfl⟩, by decide, rfl⟩,
  ⟨1, ⟨⟨1, rfl, by decide, by decide⟩, ⟨1, rfl, by decide, by decide⟩, rfl, rfl⟩, by decide, rfl⟩⟩

example : (match wsAggr '_' 0 (render exParts) ⟨none, [("B_".toList, [1, 2, 3, 4]), ("C".toList, [9, 9, 9, 9])]⟩ exVs exEs exSrc with
    | .ok w => w.vars
    | _ => []) = [("A_".toList, [na, 11, na, na]), ("B_".toList, [1, 5, 7, 4]), ("C".toList, [9, 9, 9, 9])] := by decide +kernel

/-- `C61` fails for means of more than one aggregate: all of them are divided by the number of variables of the one that the last variable belongs
    to, here 1. -/
theorem C61_mean_counterexample : aggregate '_' 2 "(?)[?]".toList 1 [("A1".toList, [1]), ("A2".toList, [10]), ("B1".toList, [5])] =
    .ok [("A_".toList, [11]), ("B_".toList, [5])] := by decide +kernel

/-- `C61` fails: the positions of the counters are not those of the aggregates any more after an insertion before them, and a counter that was
    never set is read. -/
theorem C61_mean_counter_counterexample : aggregate '_' 2 "[?](?)".toList 1 [("A2".toList, [1]), ("B1".toList, [10]), ("C2".toList, [5])] = .ub := by
  decide +kernel

/-- `C61` fails for products: a missing value times a number can be a number. -/
theorem C61_product_missing_counterexample : aggregate '_' 1 "(?)[?]".toList 1 [("A1".toList, [na]), ("A2".toList, [1 / 10])] =
    .ok [("A_".toList, [-2 * 10 ^ 36])] ∧ isNum (-2 * 10 ^ 36) = true := by decide +kernel

/-- `C61` fails before a character is chosen: it is the null character, which ends the name; two different aggregates become one, and the
    aggregation of the first characters is refused. -/
theorem C61_nochar_counterexample :
    aggregate '\x00' 0 "(?)[?](?)".toList 1 [("A1B".toList, [1]), ("A1C".toList, [10])] = .ok [("A".toList, [11])] ∧
    aggregate '\x00' 0 "[?](?)".toList 1 [("A1".toList, [1])] = .err := by decide +kernel

/-- `C61`: with a blank as aggregation character the names can be refused. -/
theorem C61_blank_counterexample : aggregate ' ' 0 "[?](?)".toList 1 [("A1".toList, [1])] = .err := by decide +kernel

/-- `C61` fails without a sample. -/
theorem C61_nosample_counterexample (ch : Char) (method : Int) (pattern : Name) (src : SMap (List Rat)) : aggregate ch method pattern 0 src = .ub := by
  rw [aggregate, if_pos rfl]

end Iode.Aggr
