import Verif.Model.DataCmd
import Verif.Spec.DataCmd
import Verif.Lemmas.LecLex
import Verif.Lemmas.RepFn
import Verif.Lemmas.Names
import Verif.Lemmas.SMap
import Verif.Lemmas.Overlap
import Mathlib.Data.List.GetD
import Mathlib.Tactic.FieldSimp
import Mathlib.Tactic.Ring

/-!
# Lemmas on the commands on data
-/
namespace Iode.DataCmd

open Iode.Args (Text)
open Iode.DataCmd.Written
open Iode.Lec.Written (Digits Expo number Digit dec)

/-! ## Values entered in a variable -/

section
variable {F : Type} [Field F]

theorem set_next {m : VarMode} {lag t : Nat} (hl : m = .level ∧ lag = 0 ∨ 0 < lag ∧ m ≠ .level) {x : List (Option F)} (ht : t < x.length) (v : Option F) :
    modeSet m lag x t v = .ok (if lag ≤ t then x.set t (next m (x.getD (t - lag) none) v) else x) := by
  have hd : ((t : Int) - (lag : Int)).toNat = t - lag := by omega
  have hx : x[t - lag]? = some (x.getD (t - lag) none) := by
    rw [List.getD_eq_getElem _ _ (by omega), List.getElem?_eq_getElem (by omega)]
  have hgr : ∀ r v : Option F, (match v, r with | some a, some b => some ((a / 100 + 1) * b) | _, _ => none) = next .growth r v ∧ next .yoyGrowth r v = next .growth r v := by
    intro r v
    cases r <;> cases v <;> simp [next]
    ring
  have hdf : ∀ r v : Option F, (match v, r with | some a, some b => some (b + a) | _, _ => none) = next .diff r v ∧ next .yoyDiff r v = next .diff r v := by
    intro r v
    cases r <;> cases v <;> simp [next]
  rcases hl with ⟨rfl, rfl⟩ | ⟨hl, hm⟩
  · simp [modeSet, ht, next]
  · by_cases h : lag ≤ t
    · cases m with
      | level => exact absurd rfl hm
      | diff => simp only [modeSet]; rw [if_neg (by omega), hd, hx]; simp only []; rw [if_pos ht, if_pos h]; exact congrArg (fun a => Res.ok (x.set t a)) (hdf _ _).1
      | yoyDiff => simp only [modeSet]; rw [if_neg (by omega), hd, hx]; simp only []; rw [if_pos ht, if_pos h]; exact congrArg (fun a => Res.ok (x.set t a)) ((hdf _ _).1.trans (hdf _ _).2.symm)
      | growth => simp only [modeSet]; rw [if_neg (by omega), hd, hx]; simp only []; rw [if_pos ht, if_pos h]; exact congrArg (fun a => Res.ok (x.set t a)) (hgr _ _).1
      | yoyGrowth => simp only [modeSet]; rw [if_neg (by omega), hd, hx]; simp only []; rw [if_pos ht, if_pos h]; exact congrArg (fun a => Res.ok (x.set t a)) ((hgr _ _).1.trans (hgr _ _).2.symm)
    · cases m with
      | level => exact absurd rfl hm
      | diff => simp only [modeSet]; rw [if_pos (by omega), if_neg h]
      | yoyDiff => simp only [modeSet]; rw [if_pos (by omega), if_neg h]
      | growth => simp only [modeSet]; rw [if_pos (by omega), if_neg h]
      | yoyGrowth => simp only [modeSet]; rw [if_pos (by omega), if_neg h]

omit [Field F] in
theorem getD_set {x : List (Option F)} {t j : Nat} (a : Option F) (ht : t < x.length) : (x.set t a).getD j none = if j = t then a else x.getD j none := by
  simp only [List.getD_eq_getElem?_getD, List.getElem?_set]
  by_cases h : t = j
  · subst h; simp [ht]
  · rw [if_neg h, if_neg (Ne.symm h)]

theorem next_level (r s : Option F) (v : Option F) : next .level r v = next .level s v := rfl

theorem enter_spec {m : VarMode} {lag nb : Nat} (hl : m = .level ∧ lag = 0 ∨ 0 < lag ∧ m ≠ .level) : ∀ (vs : List (Option F)) (t : Nat) (x : List (Option F)),
    x.length = nb → ∃ y, enter m lag nb x t vs = .ok y ∧ Entered m lag t vs x y
  | [], t, x, _ => ⟨x, rfl, rfl, fun j _ => by rw [if_neg (by simp only [List.length_nil]; omega)]⟩
  | v :: vs, t, x, hx => by
    unfold enter
    by_cases hb : (t : Int) ≥ (nb : Int)
    · rw [if_pos hb]
      obtain ⟨y, e, h1, h2⟩ := enter_spec hl vs (t + 1) x hx
      refine ⟨y, e, h1, fun j hj => ?_⟩
      rw [h2 j hj, if_neg (by omega), if_neg (by omega)]
    · rw [if_neg hb]
      have ht : t < x.length := by omega
      rw [set_next hl ht]
      obtain ⟨y, e, h1, h2⟩ := enter_spec (nb := nb) hl vs (t + 1) (if lag ≤ t then x.set t (next m (x.getD (t - lag) none) v) else x) (by split <;> simp [hx])
      have hlen : (if lag ≤ t then x.set t (next m (x.getD (t - lag) none) v) else x).length = x.length := by split <;> simp
      rw [hlen] at h1 h2
      have hget : ∀ j, (if lag ≤ t then x.set t (next m (x.getD (t - lag) none) v) else x).getD j none =
          if j = t ∧ lag ≤ t then next m (x.getD (t - lag) none) v else x.getD j none := by
        intro j
        by_cases h : lag ≤ t
        · rw [if_pos h, getD_set _ ht]; simp [h]
        · rw [if_neg h, if_neg (by omega)]
      refine ⟨y, e, h1, fun j hj => ?_⟩
      rw [h2 j hj, hget]
      by_cases hjt : j = t
      · subst hjt
        rw [if_neg (by omega)]
        by_cases h : lag ≤ j
        · rw [if_pos ⟨rfl, h⟩, if_pos ⟨by omega, by simp, h⟩, Nat.sub_self, List.getD_cons_zero]
          rcases hl with ⟨rfl, rfl⟩ | ⟨hl, hm⟩
          · rfl
          · rw [h2 (j - lag) (by omega), if_neg (by omega), hget, if_neg (by omega)]
        · rw [if_neg (by omega), if_neg (by omega)]
      · rw [if_neg (show ¬ (j = t ∧ lag ≤ t) from fun h => hjt h.1)]
        by_cases h : t + 1 ≤ j ∧ j < t + 1 + vs.length ∧ lag ≤ j
        · rw [if_pos h, if_pos ⟨by omega, by simp only [List.length_cons]; omega, h.2.2⟩]
          have : j - t = (j - (t + 1)) + 1 := by omega
          rw [this, List.getD_cons_succ]
        · rw [if_neg h, if_neg (by simp only [List.length_cons]; omega)]

end

/-! ## Numbers -/

theorem digit_iff (c : Char) : isDigitC c = true ↔ Digit c := by
  simp [isDigitC, Digit]

theorem take_digits {i r : Text} (h : Digits i) (hr : ∀ c ∈ r.head?, ¬ Digit c) : (i ++ r).takeWhile isDigitC = i ∧ (i ++ r).dropWhile isDigitC = r := by
  induction i with
  | nil =>
    cases r with
    | nil => exact ⟨rfl, rfl⟩
    | cons c r =>
      have hc : isDigitC c = false := by
        have := hr c (by simp)
        rw [← digit_iff] at this
        simpa using this
      simp [hc]
  | cons c i ih =>
    have hc : isDigitC c = true := (digit_iff c).mpr (h c (by simp))
    have := ih (fun d hd => h d (by simp [hd]))
    simp [hc, this.1, this.2]

theorem expo_head {x : Text} {e : Int} (h : Expo x e) : ∀ c ∈ x.head?, ¬ Digit c ∧ c ≠ '.' := by
  intro c hc
  cases h with
  | none => simp at hc
  | plain h | plus h | minus h =>
    simp only [List.head?_cons, Option.mem_def, Option.some.injEq] at hc
    subst hc
    rcases h with rfl | rfl <;> exact ⟨by unfold Digit; decide, by decide⟩

theorem expo_val {x : Text} {e : Int} (h : Expo x e) : expPart x = e := by
  cases h with
  | none => rfl
  | plain hc hd h0 =>
    rename_i c d
    cases d with
    | nil => exact absurd rfl h0
    | cons a d =>
      have ha := hd a (by simp)
      have h1 : a ≠ '-' := by rintro rfl; revert ha; unfold Digit; decide
      have h2 : a ≠ '+' := by rintro rfl; revert ha; unfold Digit; decide
      have := (take_digits (r := []) hd (by simp)).1
      rw [List.append_nil] at this
      unfold expPart
      simp only []
      rw [if_pos hc]
      split
      · rename_i e; simp only [List.cons.injEq] at e; exact absurd e.1 h1
      · rename_i e; simp only [List.cons.injEq] at e; exact absurd e.1 h2
      · rw [this, Lec.natOf_eq]
  | plus hc hd h0 =>
    have := (take_digits (r := []) hd (by simp)).1
    rw [List.append_nil] at this
    unfold expPart
    simp only []
    rw [if_pos hc]
    rw [this, Lec.natOf_eq]
  | minus hc hd h0 =>
    have := (take_digits (r := []) hd (by simp)).1
    rw [List.append_nil] at this
    unfold expPart
    simp only []
    rw [if_pos hc]
    rw [this, Lec.natOf_eq]

theorem number_pow (i f : Text) (e : Int) : ((dec i * 10 ^ f.length + dec f : Nat) : Rat) * (10 : Rat) ^ (e - (f.length : Int)) = number i f e := by
  unfold number
  have h10 : (10 : Rat) ≠ 0 := by norm_num
  have hp : (10 : Rat) ^ e = 10 ^ e.toNat / 10 ^ (-e).toNat := by
    rcases Int.le_total 0 e with h | h
    · obtain ⟨n, rfl⟩ := Int.eq_ofNat_of_zero_le h
      simp
    · obtain ⟨n, hn⟩ := Int.eq_ofNat_of_zero_le (show 0 ≤ -e by omega)
      have : e = -(n : Int) := by omega
      subst this
      simp
  rw [zpow_sub₀ h10, hp, zpow_natCast]
  have hf : (10 : Rat) ^ f.length ≠ 0 := pow_ne_zero _ h10
  have he : (10 : Rat) ^ (-e).toNat ≠ 0 := pow_ne_zero _ h10
  push_cast
  field_simp

theorem frac_other {t : Text} (h : ∀ c ∈ t.head?, c ≠ '.') : fracPart t = ([], t) := by
  unfold fracPart
  split
  · exact absurd rfl (h '.' (by simp))
  · rfl

theorem unsigned_val {t : Text} {q : Rat} (h : Unsigned t q) : unsignedOf t = q := by
  cases h with
  | whole hi h0 hx =>
    rename_i i x e
    obtain ⟨h1, h2⟩ := take_digits hi (fun c hc => (expo_head hx c hc).1)
    unfold unsignedOf
    simp only [h1, h2]
    rw [frac_other fun c hc => (expo_head hx c hc).2]
    simp only [List.append_nil]
    rw [if_neg h0, expo_val hx, Lec.natOf_eq, ← number_pow]
    simp [dec]
  | point hi hf h0 hx =>
    rename_i i f x e
    obtain ⟨h1, h2⟩ := take_digits (r := '.' :: (f ++ x)) hi (fun c hc => by
      simp only [List.head?_cons, Option.mem_def, Option.some.injEq] at hc
      subst hc
      unfold Digit; decide)
    obtain ⟨h3, h4⟩ := take_digits hf (fun c hc => (expo_head hx c hc).1)
    unfold unsignedOf
    simp only [h1, h2, fracPart, h3, h4]
    rw [if_neg (by simp only [List.append_eq_nil_iff, not_and_or]; exact h0), expo_val hx, Lec.natOf_append, number_pow]

theorem unsigned_head {t : Text} {q : Rat} (h : Unsigned t q) : ∃ c r, t = c :: r ∧ (Digit c ∨ c = '.') := by
  cases h with
  | whole hi h0 hx =>
    rename_i i x e
    cases i with
    | nil => exact absurd rfl h0
    | cons c i => exact ⟨c, i ++ x, rfl, .inl (hi c (by simp))⟩
  | point hi hf h0 hx =>
    rename_i i f x e
    cases i with
    | nil => exact ⟨'.', f ++ x, rfl, .inr rfl⟩
    | cons c i => exact ⟨c, i ++ '.' :: (f ++ x), rfl, .inl (hi c (by simp))⟩

theorem number_val {w : Text} {q : Rat} (h : Number w q) : atof w = q := by
  cases h with
  | plain h =>
    obtain ⟨c, r, rfl, hc⟩ := unsigned_head h
    have h1 : c ≠ '-' := by rintro rfl; unfold Digit at hc; revert hc; decide
    have h2 : c ≠ '+' := by rintro rfl; unfold Digit at hc; revert hc; decide
    unfold atof
    split
    · rename_i e; simp only [List.cons.injEq] at e; exact absurd e.1 h1
    · rename_i e; simp only [List.cons.injEq] at e; exact absurd e.1 h2
    · exact unsigned_val h
  | plus h => exact unsigned_val h
  | minus h => unfold atof; simp only []; rw [unsigned_val h]

theorem dec_pos {d : Text} {c : Char} (hc : Digit c) (h0 : c ≠ '0') : 0 < dec (c :: d) := by
  unfold dec
  have : 0 < c.toNat - 48 := by
    have h1 : c.toNat ≠ '0'.toNat := fun h => h0 (SMap.char_eq_of_toNat h)
    have h2 : '0'.toNat = 48 := rfl
    unfold Digit at hc
    omega
  positivity

theorem number_ne {i f : Text} {e : Int} {c : Char} {d : Text} (h : i = c :: d) (hc : Digit c) (h0 : c ≠ '0') : number i f e ≠ 0 := by
  subst h
  have := dec_pos (d := d) hc h0
  unfold number
  have h1 : (0 : Rat) < (dec (c :: d) : Rat) := by exact_mod_cast this
  have h2 : (0 : Rat) ≤ (dec f : Rat) / 10 ^ f.length := by positivity
  have h3 : (0 : Rat) < (dec (c :: d) : Rat) + (dec f : Rat) / 10 ^ f.length := by linarith
  exact ne_of_gt (by positivity)

theorem zero_head {t : Text} {q : Rat} (h : Unsigned t q) (hq : q = 0) : ∃ c r, t = c :: r ∧ (c = '0' ∨ c = '.') := by
  cases h with
  | whole hi h0 hx =>
    rename_i i x e
    cases i with
    | nil => exact absurd rfl h0
    | cons c i =>
      refine ⟨c, i ++ x, rfl, ?_⟩
      by_contra hn
      exact number_ne rfl (hi c (by simp)) (fun e => hn (.inl e)) hq
  | point hi hf h0 hx =>
    rename_i i f x e
    cases i with
    | nil => exact ⟨'.', f ++ x, rfl, .inr rfl⟩
    | cons c i =>
      refine ⟨c, i ++ '.' :: (f ++ x), rfl, ?_⟩
      by_contra hn
      exact number_ne rfl (hi c (by simp)) (fun e => hn (.inl e)) hq

section
variable {F : Type} [Field F] [DecidableEq F]

theorem reading_says {rnd : Rat → F} (hz : rnd 0 = 0) (hn : ∀ q, rnd q = 0 → q = 0) {w : Text} {v : Option F} (h : Says rnd w v) : reading rnd w = v := by
  cases h with
  | number h =>
    rename_i q
    unfold reading
    rw [number_val h, if_neg]
    rintro ⟨h1, h2⟩
    have hq := hn q h1
    cases h with
    | plain h =>
      obtain ⟨c, r, rfl, hc⟩ := zero_head h hq
      have := h2 c (by simp)
      rcases hc with rfl | rfl <;> simp at this
    | plus h => have := h2 '+' (by simp); simp at this
    | minus h => have := h2 '-' (by simp); simp at this
  | absent h =>
    obtain ⟨c, r, rfl, h1, h2⟩ := h
    simp only [List.mem_cons, List.not_mem_nil, or_false, not_or] at h2
    have hd : isDigitC c = false := by
      cases hh : isDigitC c
      · rfl
      · exact absurd ((digit_iff c).mp hh) h1
    have hv : atof (c :: r) = 0 := by
      unfold atof
      split
      · rename_i e; simp only [List.cons.injEq] at e; exact absurd e.1 h2.1
      · rename_i e; simp only [List.cons.injEq] at e; exact absurd e.1 h2.2.1
      · unfold unsignedOf
        simp only [List.takeWhile_cons, hd, List.dropWhile_cons, Bool.false_eq_true, if_false]
        rw [frac_other (t := c :: r) (by simpa using h2.2.2)]
        simp
    unfold reading
    rw [hv, if_pos]
    refine ⟨hz, ?_⟩
    intro d hd'
    simp only [List.head?_cons, Option.mem_def, Option.some.injEq] at hd'
    subst hd'
    simp only [List.mem_cons, List.not_mem_nil, or_false, not_or]
    refine ⟨h2.1, ?_, h2.2.2, h2.2.1⟩
    rintro rfl
    exact h1 (by unfold Digit; decide)

end

/-! ## Names and words -/

/-- The characters that separate or quote words, or have another meaning in front of one. -/
def special : List Char := [' ', ',', ';', '\n', '\t', '\r', '"', '$', '@', Char.ofNat 11, Char.ofNat 12]

theorem toUpperC_other {c : Char} (h : c.toNat < 97) : toUpperC c = c := by unfold toUpperC; rw [if_neg (by omega)]
theorem toLowerC_other {c : Char} (h : c.toNat < 65) : toLowerC c = c := by unfold toLowerC; rw [if_neg (by omega)]

theorem name_length {ty : ObjType} {w : Text} (h : Typed ty w) : w.length ≤ 20 ∧ w ≠ [] := by
  obtain ⟨ht, hc⟩ := h
  obtain ⟨h1, h2, -⟩ := checkName_chars hc
  have hl : (toKey ty w).length = w.length := by
    unfold toKey
    rw [ht]
    split <;> simp [toUpper, toLower]
  refine ⟨by omega, ?_⟩
  rintro rfl
  simp only [List.length_nil, List.length_eq_zero_iff] at hl
  exact h1 hl

theorem name_chars {ty : ObjType} {w : Text} (h : Typed ty w) : ∀ c ∈ w, c ∉ special := by
  obtain ⟨ht, hc⟩ := h
  obtain ⟨-, -, h3⟩ := checkName_chars hc
  intro c hm hs
  have hk : c ∈ toKey ty w := by
    have hu : toUpperC c = c ∧ toLowerC c = c := by
      revert hs
      unfold special
      simp only [List.mem_cons, List.not_mem_nil, or_false]
      rintro (h | h | h | h | h | h | h | h | h | h | h) <;> subst h <;> decide
    unfold toKey
    rw [ht]
    split
    · exact List.mem_map.mpr ⟨c, hm, hu.1⟩
    · exact List.mem_map.mpr ⟨c, hm, hu.2⟩
    · exact hm
  have := h3 c hk
  revert this
  have bad : ∀ c : Char, c ∈ special → nameTailOk ty c = false := by cases ty <;> decide
  rw [bad c hs]
  simp

theorem words_tabs (f : Char → Char) {seps : List Char} (h : ∀ c, (c ∉ seps → f c = c) ∧ (c ∈ seps → f c ∈ seps)) (t : Text) :
    Expand.words seps (t.map f) = Expand.words seps t := by
  have key : ∀ t : Text, ∃ l, (t.map f).splitOnP (· ∈ seps) = l ∧ t.splitOnP (· ∈ seps) = l := by
    intro t
    induction t with
    | nil => exact ⟨_, rfl, rfl⟩
    | cons c t ih =>
      obtain ⟨l, h1, h2⟩ := ih
      rw [List.map_cons, List.splitOnP_cons_eq_if_modifyHead, List.splitOnP_cons_eq_if_modifyHead, h1, h2]
      by_cases hc : c ∈ seps
      · exact ⟨_, by rw [if_pos (by simpa using (h c).2 hc)], by rw [if_pos (by simpa using hc)]⟩
      · refine ⟨_, by rw [if_neg (by simpa [(h c).1 hc] using hc)], by rw [if_neg (by simpa using hc), (h c).1 hc]⟩
  obtain ⟨l, h1, h2⟩ := key t
  unfold Expand.words
  rw [h1, h2]

/-- Tabs are read as blanks. -/
def tabs (t : Text) : Text := t.map fun c => if c = '\t' then ' ' else c

theorem left_name {ty : ObjType} {w : Text} (h : Typed ty w) (r : Text) : left (w ++ r) = w ++ tabs r := by
  have hs := name_chars h
  have hm : (w ++ r).map (fun c => if c = '\t' then ' ' else c) = w ++ tabs r := by
    rw [List.map_append]
    congr 1
    conv => rhs; rw [← List.map_id w]
    refine List.map_congr_left fun c hc => ?_
    rw [if_neg]
    · rfl
    · rintro rfl
      exact hs _ hc (by decide)
  have hd : (w ++ tabs r).dropWhile isSpaceC = w ++ tabs r := by
    cases w with
    | nil => exact absurd rfl (name_length h).2
    | cons c w =>
      rw [List.cons_append, List.dropWhile_cons_of_neg]
      intro hsp
      refine hs c (by simp) ?_
      have h1 : c.toNat = 32 ∨ c.toNat = 9 ∨ c.toNat = 10 ∨ c.toNat = 11 ∨ c.toNat = 12 ∨ c.toNat = 13 := by
        simp only [isSpaceC, Bool.or_eq_true, decide_eq_true_eq, Bool.and_eq_true] at hsp
        omega
      rcases h1 with h1 | h1 | h1 | h1 | h1 | h1
      · rw [SMap.char_eq_of_toNat (b := ' ') h1]; decide
      · rw [SMap.char_eq_of_toNat (b := '\t') h1]; decide
      · rw [SMap.char_eq_of_toNat (b := '\n') h1]; decide
      · rw [SMap.char_eq_of_toNat (b := Char.ofNat 11) h1]; decide
      · rw [SMap.char_eq_of_toNat (b := Char.ofNat 12) h1]; decide
      · rw [SMap.char_eq_of_toNat (b := '\r') h1]; decide
  unfold left
  simp only [hm, hd]
  rw [if_neg]
  intro e
  exact (name_length h).2 (List.append_eq_nil_iff.mp e).1

theorem bseps_special {c : Char} (h : c ∈ bseps) : c ∈ special := by
  unfold bseps at h
  simp only [List.mem_cons, List.not_mem_nil, or_false] at h
  rcases h with rfl | rfl | rfl | rfl <;> decide

theorem arg0_name {ty : ObjType} {w : Text} (h : Typed ty w) {r : Text} (hr : r = [] ∨ ∃ c ∈ bseps, ∃ u, r = c :: u) : arg0 (w ++ r) = w := by
  have hs : ∀ c ∈ w, c ∉ bseps := fun c hc hb => name_chars h c hc (bseps_special hb)
  unfold arg0
  rcases hr with rfl | ⟨c, hc, u, rfl⟩
  · rw [List.append_nil, List.take_of_length_le (show w.length ≤ maxName from (name_length h).1), List.takeWhile_eq_self_iff]
    simpa using hs
  · rw [List.take_append, List.take_of_length_le (show w.length ≤ maxName from (name_length h).1), List.takeWhile_append_of_pos (by simpa using hs)]
    cases hk : maxName - w.length with
    | zero => simp
    | succ k => simp [List.takeWhile_cons, hc]

theorem tabs_cons {c : Char} (hc : c ∈ bseps) (u : Text) : ∃ d ∈ bseps, tabs (c :: u) = d :: tabs u := by
  refine ⟨if c = '\t' then ' ' else c, ?_, rfl⟩
  split
  · decide
  · exact hc

theorem words_left {ty : ObjType} {w : Text} (h : Typed ty w) {c : Char} (hc : c ∈ bseps) (r : Text) :
    RepFn.vtoms bseps ((w ++ tabs (c :: r)).length + 1) (w ++ tabs (c :: r)) = .ok (w :: Expand.words bseps r) := by
  rw [RepFn.vtoms_words _ _ _ (by omega)]
  obtain ⟨d, hd, e⟩ := tabs_cons hc r
  rw [e, RepFn.words_word (name_length h).2 (fun c hc hb => name_chars h c hc (bseps_special hb)) hd]
  congr 2
  refine words_tabs _ (fun c => ⟨fun hn => if_neg ?_, fun hn => ?_⟩) r
  · rintro rfl
    exact hn (by decide)
  · split
    · decide
    · exact hn

end Iode.DataCmd
