import Verif.Lemmas.Ascii
import Verif.Lemmas.YyLen
import Verif.Lemmas.File
import Verif.Lemmas.SMap

/-!
# C48  Variables are restored from their text form

See `properties.jsonl`.  Texts, values and rounding are those of Spec/Ascii.lean and Spec/Decimals.lean.
-/
namespace Iode
namespace Asc
open Yy Written Printf Decimals
open Lec (kept Clean)
open Lec.Written (Gap NameEnd NumEnd Digits NameCh Digit White)

/-! ## Loading -/

theorem puts_find {nb : Nat} {vars : List (Yy.Text × List Dbl)} (h : ∀ e ∈ vars, VarName e.1) (k : Yy.Text) :
    SMap.find k (puts nb vars []) = (lookLast vars k).map (fit na nb) := by
  rw [puts_names h]
  clear h
  induction vars using List.reverseRecOn with
  | nil => rfl
  | append_singleton l e ih =>
    rw [List.foldl_append, List.foldl_cons, List.foldl_nil, lookLast, List.filter_append]
    by_cases hk : e.1.map toUpperC = k
    · rw [hk, SMap.find_insert_self]
      simp [hk]
    · rw [SMap.find_insert_ne _ _ (Ne.symm hk), ih, lookLast]
      simp [hk]

theorem puts_sorted {nb : Nat} {vars : List (Yy.Text × List Dbl)} (h : ∀ e ∈ vars, VarName e.1) :
    SMap.Sorted (puts nb vars []) := by
  rw [puts_names h]
  clear h
  induction vars using List.reverseRecOn with
  | nil => trivial
  | append_singleton l e ih =>
    rw [List.foldl_append, List.foldl_cons, List.foldl_nil]
    exact SMap.sorted_insert _ _ _ ih

/-- Every text of variables is read as it is meant: the sample, and for each name the values of its last definition, completed
    with missing values or cut to the number of periods. -/
theorem C48_load {smp : Sample} (h1 : PerOk smp.start) (h2 : PerOk smp.stop) (hs : Sample.ofPeriods smp.start smp.stop = .ok smp)
    (hnb : 0 < smp.nb) {vars : List (Yy.Text × List Dbl)} {t : Yy.Text}
    (h : SLaid na ieee smp.start.toChars smp.stop.toChars vars (t.filter kept)) (h0 : ∀ c ∈ t, c.toNat ≠ 0) :
    ∃ db, loadVars t = .ok (some ⟨some smp, db⟩) ∧ SMap.Sorted db ∧
      ∀ k, SMap.find k db = (lookLast vars k).map (fit na smp.nb.toNat) := by
  have hc : Clean (t.filter kept) := by
    intro c hc
    obtain ⟨h1, h2⟩ := List.mem_filter.1 hc
    simp only [kept, decide_eq_true_eq] at h2
    exact ⟨h0 c h1, h2⟩
  have hv : ∀ e ∈ vars, VarName e.1 := by
    generalize t.filter kept = x at h
    cases h with
    | mk _ _ _ _ _ _ h => exact vlaid_names h
  refine ⟨puts smp.nb.toNat vars [], ?_, puts_sorted hv, puts_find hv⟩
  rw [loadVars, Lec.expand_kept]
  exact loadYy_laid h1 h2 hs hnb (slaid_expand h1.plain h2.plain h hc 0)

/-! ## Saving and loading -/

set_option exponentiation.threshold 2000 in
theorem double_sized {q : Rat} (h : Double q) : Sized q := by
  obtain ⟨⟨m, e, _, h2, h3⟩, h4⟩ := h
  by_cases h0 : q = 0
  · exact .inl h0
  · have hm : m ≠ 0 := by
      rintro rfl
      exact h0 (by rw [h3]; simp)
    have hm1 : (1 : Rat) ≤ |(m : Rat)| := by
      have : (1 : Int) ≤ |m| := Int.one_le_abs hm
      exact_mod_cast this
    refine .inr ⟨?_, ?_⟩
    · have a1 : (10 : Rat) ^ (-400 : Int) ≤ (2 : Rat) ^ (-1074 : Int) := by
        rw [zpow_neg, zpow_neg]
        refine inv_anti₀ (by positivity) ?_
        exact_mod_cast (by norm_num : (2 : Nat) ^ 1074 ≤ 10 ^ 400)
      have a2 : (2 : Rat) ^ (-1074 : Int) ≤ (2 : Rat) ^ e := zpow_le_zpow_right₀ (by norm_num) h2
      have a3 : (0 : Rat) < (2 : Rat) ^ e := by positivity
      rw [h3, abs_mul, abs_of_pos a3]
      nlinarith
    · refine lt_of_lt_of_le h4 ?_
      exact_mod_cast (by norm_num : (2 : Nat) ^ 1024 ≤ 10 ^ 400)

/-- What `load` makes of a value written by `save`. -/
def back (v : Dbl) : Dbl :=
  if isNumber v then
    match v with
    | .num q => ieee (sig 10 15 q)
    | v => v
  else na

/-- The values that are written as a number or as `na`. -/
def Writable (v : Dbl) : Prop := isNumber v = false ∨ ∃ q, v = .num q ∧ Double q

theorem print_num {q : Rat} (h : isNumber (.num q) = true) : printVal (.num q) = fmtG 15 q ++ [' '] := by
  unfold printVal
  rw [if_pos h]

theorem print_na {v : Dbl} (h : ¬ isNumber v = true) : printVal v = ['n', 'a', ' '] := by
  unfold printVal
  rw [if_neg h]
  rfl

theorem back_num {q : Rat} (h : isNumber (.num q) = true) : back (.num q) = ieee (sig 10 15 q) := by
  unfold back
  rw [if_pos h]

theorem back_na {v : Dbl} (h : ¬ isNumber v = true) : back v = na := by
  unfold back
  rw [if_neg h]

theorem gap_space : Gap [' '] := .white (by decide) .nil

theorem sign_sig {P : Nat} (q : Rat) : (if q < 0 then -|sig 10 P q| else |sig 10 P q|) = sig 10 P q := by
  by_cases h0 : q = 0
  · subst h0; simp [sig]
  · have hn : 0 ≤ (mant 10 P q : Rat) * ((10 : Nat) : Rat) ^ unit 10 P q :=
      mul_nonneg (Nat.cast_nonneg _) (zpow_nonneg (by norm_num) _)
    rw [sig, if_neg h0]
    split
    · rw [abs_neg, abs_of_nonneg hn]
    · rw [abs_of_nonneg hn]

theorem vals_print {vs : List Dbl} (h : ∀ v ∈ vs, Writable v) (s : Yy.Text) :
    Vals na ieee (vs.map back) (' ' :: (vs.flatMap printVal ++ s)) (' ' :: s) := by
  induction vs with
  | nil => exact .nil
  | cons v vs ih =>
    have ih := ih fun v hv => h v (by simp [hv])
    rw [List.map_cons, List.flatMap_cons]
    by_cases hn : isNumber v = true
    · rcases h v (by simp) with h1 | ⟨q, rfl, hq⟩
      · rw [h1] at hn; cases hn
      · obtain ⟨t, ht, e⟩ := fmtG_numeral (P := 15) (by omega) q
        have hl := fmtG_length (P := 15) (by omega) (by omega) (double_sized hq)
        have hend : ∀ x, NumEnd (' ' :: x) := by
          intro x c hc
          cases hc
          decide
        rw [back_num hn, print_num hn, e]
        rw [e] at hl
        have hs := sign_sig (P := 15) q
        split at hl
        · rename_i hq0
          rw [if_pos hq0] at hs ⊢
          rw [← hs]
          have := Vals.neg (missing := na) (rnd := ieee) gap_space Gap.nil ht (by simp at hl; omega) (hend _) ih
          simpa using this
        · rename_i hq0
          rw [if_neg hq0] at hs ⊢
          rw [← hs]
          have := Vals.num (missing := na) (rnd := ieee) gap_space ht (by omega) (hend _) ih
          simpa using this
    · rw [back_na hn, print_na hn]
      have := Vals.na (missing := na) (rnd := ieee) gap_space (s := ' ' :: (vs.flatMap printVal ++ s))
        (by intro c hc; cases hc; decide) ih
      simpa using this

/-- A database whose names can be read again. -/
structure Saved (smp : Sample) (db : SMap (List Dbl)) : Prop where
  start : PerOk smp.start
  stop : PerOk smp.stop
  whole : Sample.ofPeriods smp.start smp.stop = .ok smp
  nb : 0 < smp.nb
  sorted : SMap.Sorted db
  names : ∀ e ∈ db, VarName e.1 ∧ e.1.map toUpperC = e.1
  len : ∀ e ∈ db, e.2.length = smp.nb.toNat
  vals : ∀ e ∈ db, ∀ v ∈ e.2, Writable v

theorem vlaid_lines {db : SMap (List Dbl)} (hn : ∀ e ∈ db, VarName e.1) (hv : ∀ e ∈ db, ∀ v ∈ e.2, Writable v) {g : Yy.Text}
    (hg : Gap g) : VLaid na ieee (db.map fun e => (e.1, e.2.map back)) (g ++ db.flatMap varLine) := by
  induction db generalizing g with
  | nil => simpa using VLaid.nil hg
  | cons e r ih =>
    have h1 := vals_print (hv e (by simp)) ('\n' :: r.flatMap varLine)
    have h2 := ih (fun e he => hn e (by simp [he])) (fun e he => hv e (by simp [he])) (g := [' ', '\n'])
      (.white (by decide) (.white (by decide) .nil))
    have := VLaid.var (missing := na) (rnd := ieee) hg (hn e (by simp)) (by intro c hc; cases hc; decide) h1 h2
    simpa [varLine] using this

theorem slaid_save {smp : Sample} {db : SMap (List Dbl)} (h : Saved smp db) :
    SLaid na ieee smp.start.toChars smp.stop.toChars (db.map fun e => (e.1, e.2.map back)) (saveVars smp db) := by
  have h1 := vlaid_lines (fun e he => (h.names e he).1) h.vals (g := ['\n']) (.white (by decide) .nil)
  have := SLaid.mk (missing := na) (rnd := ieee) (start := smp.start.toChars) (stop := smp.stop.toChars) .nil gap_space (by simp)
    gap_space (by simp) (s := ['\n'] ++ db.flatMap varLine) (by intro c hc; cases hc; decide) h1
  rw [show "sample".toList = ['s', 'a', 'm', 'p', 'l', 'e'] by decide] at this
  simpa only [saveVars, List.nil_append, List.cons_append] using this

theorem clean_of_plain {s : Yy.Text} (h : ∀ c ∈ s, Lec.PlainCh c) : Clean s := fun c hc => ⟨(h c hc).1, (h c hc).2.2⟩

theorem print_plain {v : Dbl} : ∀ c ∈ printVal v, Lec.PlainCh c := by
  by_cases hn : isNumber v = true
  · cases v with
    | num q =>
      obtain ⟨t, ht, e⟩ := fmtG_numeral (P := 15) (by omega) q
      rw [print_num hn, e]
      intro c hc
      rcases List.mem_append.1 hc with hc | hc
      · split at hc
        · rcases List.mem_cons.1 hc with rfl | hc
          · decide
          · exact numeral_plain ht c hc
        · exact numeral_plain ht c hc
      · rw [List.mem_singleton.1 hc]; decide
    | inf => decide
    | ninf => cases hn
    | nan => cases hn
  · rw [print_na hn]
    decide

theorem save_plain {smp : Sample} {db : SMap (List Dbl)} (h : Saved smp db) : ∀ c ∈ saveVars smp db, Lec.PlainCh c := by
  intro c hc
  have hw : ∀ c ∈ ['s', 'a', 'm', 'p', 'l', 'e', ' '], Lec.PlainCh c := by decide
  rw [saveVars] at hc
  generalize ['s', 'a', 'm', 'p', 'l', 'e', ' '] = w at hw hc
  simp only [List.mem_append, List.mem_cons, List.mem_flatMap, varLine, List.not_mem_nil, or_false] at hc
  rcases hc with hc | hc | rfl | hc | rfl | ⟨e, he, hc | rfl | ⟨v, _, hc⟩ | rfl⟩
  · exact hw c hc
  · exact h.start.plain c hc
  · decide
  · exact h.stop.plain c hc
  · decide
  · exact Lec.nameCh_plain ((h.names e he).1.all c hc)
  · decide
  · exact print_plain c hc
  · decide

theorem fit_eq {nb : Nat} {vs : List Dbl} (h : vs.length = nb) : fit na nb vs = vs := by
  rw [fit, List.take_append_of_le_length (by omega), List.take_of_length_le (by omega)]

theorem puts_saved {nb : Nat} {db : SMap (List Dbl)} (hs : SMap.Sorted db) (hn : ∀ e ∈ db, VarName e.1 ∧ e.1.map toUpperC = e.1)
    (hl : ∀ e ∈ db, e.2.length = nb) : puts nb db [] = db := by
  rw [puts_names fun e he => (hn e he).1]
  have : ∀ (l acc : SMap (List Dbl)), (∀ e ∈ l, e ∈ db) →
      l.foldl (fun db e => SMap.insert (e.1.map toUpperC) (fit na nb e.2) db) acc = l.foldl (fun a e => SMap.insert e.1 e.2 a) acc := by
    intro l
    induction l with
    | nil => intro acc _; rfl
    | cons e l ih =>
      intro acc h
      rw [List.foldl_cons, List.foldl_cons, (hn e (h e (by simp))).2, fit_eq (hl e (h e (by simp)))]
      exact ih _ fun e he => h e (by simp [he])
  rw [this db [] fun _ h => h, BinFile.foldl_insert_sorted db [] hs (by intro k hk; cases hk)]
  rfl

theorem sorted_map (f : Dbl → Dbl) {db : SMap (List Dbl)} (h : SMap.Sorted db) :
    SMap.Sorted (db.map fun e => (e.1, e.2.map f) : SMap (List Dbl)) := by
  induction db with
  | nil => trivial
  | cons e r ih =>
    refine ⟨fun k hk => h.1 k ?_, ih h.2⟩
    simpa [SMap.keys, Function.comp_def] using hk

theorem load_save {smp : Sample} {db : SMap (List Dbl)} (h : Saved smp db) :
    loadVars (saveVars smp db) = .ok (some ⟨some smp, db.map fun e => (e.1, e.2.map back)⟩) := by
  have h1 := slaid_expand h.start.plain h.stop.plain (slaid_save h) (clean_of_plain (save_plain h)) 0
  rw [loadVars, loadYy_laid h.start h.stop h.whole h.nb h1, puts_saved]
  · exact sorted_map back h.sorted
  · intro e he
    obtain ⟨x, hx, rfl⟩ := List.mem_map.1 he
    exact h.names x hx
  · intro e he
    obtain ⟨x, hx, rfl⟩ := List.mem_map.1 he
    simpa using h.len x hx

/-! ## Values -/

theorem near_le {S : Rat → Prop} {q r b : Rat} (h : ∀ s, S s → |q - r| ≤ |q - s|) (hb : S b) (hq : q ≤ b) : r ≤ b := by
  by_contra hc
  have h1 := h b hb
  rw [abs_of_nonpos (by linarith : q - b ≤ 0), abs_of_nonpos (by linarith : q - r ≤ 0)] at h1
  linarith

theorem near_ge {S : Rat → Prop} {q r b : Rat} (h : ∀ s, S s → |q - r| ≤ |q - s|) (hb : S b) (hq : b ≤ q) : b ≤ r := by
  by_contra hc
  have h1 := h b hb
  rw [abs_of_nonneg (by linarith : 0 ≤ q - b), abs_of_nonneg (by linarith : 0 ≤ q - r)] at h1
  linarith

theorem near15 (q : Rat) : Nearest 10 15 q (sig 10 15 q) := sig_nearest (by omega) (by omega) q

theorem short_ten (e : Int) : Short 10 15 ((10 : Rat) ^ e) := ⟨1, e, by norm_num, by simp⟩

theorem sig_upper {q : Rat} {e : Int} (h : |q| ≤ (10 : Rat) ^ e) : |sig 10 15 q| ≤ (10 : Rat) ^ e := by
  obtain ⟨h1, h2⟩ := abs_le.1 h
  exact abs_le.2 ⟨near_ge (near15 q).2 (short_neg (short_ten e)) h1, near_le (near15 q).2 (short_ten e) h2⟩

theorem sig_lower {q : Rat} {e : Int} (h : (10 : Rat) ^ e ≤ |q|) : (10 : Rat) ^ e ≤ |sig 10 15 q| := by
  rcases le_abs.1 h with h | h
  · exact le_trans (near_ge (near15 q).2 (short_ten e) h) (le_abs_self _)
  · have := near_le (near15 q).2 (short_neg (short_ten e)) (by linarith : q ≤ -(10 : Rat) ^ e)
    exact le_trans (by linarith) (neg_le_abs _)

set_option exponentiation.threshold 2000 in
/-- Numbers of at most `10 ^ 308` do not overflow. -/
theorem ieee_bounded {r : Rat} (h : |r| ≤ (10 : Rat) ^ (308 : Int)) : ieee r = .num (roundD r) := by
  have hb : Binary (3 * (2 : Rat) ^ (1022 : Int)) := ⟨3, 1022, by norm_num, by norm_num, by norm_cast⟩
  have h1 : (10 : Rat) ^ (308 : Int) ≤ 3 * (2 : Rat) ^ (1022 : Int) := by
    exact_mod_cast (by norm_num : (10 : Nat) ^ 308 ≤ 3 * 2 ^ 1022)
  have h2 : 3 * (2 : Rat) ^ (1022 : Int) < (2 : Rat) ^ 1024 := by
    exact_mod_cast (by norm_num : (3 : Nat) * 2 ^ 1022 < 2 ^ 1024)
  obtain ⟨h3, h4⟩ := abs_le.1 (le_trans h h1)
  have hn := (roundD_nearest r).2
  refine ieee_finite (lt_of_le_of_lt (abs_le.2 ⟨near_ge hn (binary_neg hb) h3, near_le hn hb h4⟩) h2)

/-- Values that are not numbers, and numbers that are not too large. -/
def Bounded (v : Dbl) : Prop := isNumber v = false ∨ ∃ q, v = .num q ∧ Double q ∧ |q| ≤ (10 : Rat) ^ (308 : Int)

theorem Bounded.writable {v : Dbl} (h : Bounded v) : Writable v := by
  rcases h with h | ⟨q, h1, h2, _⟩
  · exact .inl h
  · exact .inr ⟨q, h1, h2⟩

theorem back_restored {v : Dbl} (h : Bounded v) : Restored na isNumber v (back v) := by
  by_cases hn : isNumber v = true
  · rcases h with h | ⟨q, rfl, hq, hb⟩
    · rw [h] at hn; cases hn
    · refine .inr ⟨hn, q, sig 10 15 q, roundD (sig 10 15 q), rfl, ?_, near15 q, roundD_nearest _⟩
      rw [back_num hn, ieee_bounded (sig_upper hb)]
  · exact .inl ⟨by simpa using hn, back_na hn⟩

/-- A file that is saved and loaded has the same sample, the same names, and values rounded to 15 digits. -/
theorem C48_roundtrip {smp : Sample} {db : SMap (List Dbl)} (h : Saved smp db) (hb : ∀ e ∈ db, ∀ v ∈ e.2, Bounded v) :
    ∃ db', loadVars (saveVars smp db) = .ok (some ⟨some smp, db'⟩) ∧
      List.Forall₂ (fun e e' => e'.1 = e.1 ∧ List.Forall₂ (Restored na isNumber) e.2 e'.2) db db' := by
  refine ⟨_, load_save h, ?_⟩
  rw [List.forall₂_map_right_iff, List.forall₂_same]
  intro e he
  refine ⟨rfl, ?_⟩
  rw [List.forall₂_map_right_iff, List.forall₂_same]
  exact fun v hv => back_restored (hb e he v hv)

/-- The value is missing, or the `double` next to a decimal number of at most 15 digits. -/
def Decimal15 (v : Dbl) : Prop :=
  v = na ∨ ∃ s, v = ieee s ∧ isNumber v = true ∧ Short 10 15 s ∧ (s = 0 ∨ (2 : Rat) ^ (-1022 : Int) ≤ |s|) ∧
    |s| ≤ (10 : Rat) ^ (308 : Int)

theorem double_roundD {s : Rat} (h : |s| ≤ (10 : Rat) ^ (308 : Int)) : Double (roundD s) := by
  have hi := ieee_bounded h
  refine ⟨(roundD_nearest s).1, ?_⟩
  by_cases h0 : s = 0
  · subst h0
    rw [roundD_zero, abs_zero]
    exact pow_pos (by norm_num) _
  · rw [ieee, if_neg h0] at hi
    split at hi
    · cases hi
    · split at hi
      · cases hi
      · rename_i h1 h2
        exact abs_lt.2 ⟨lt_of_not_ge h2, lt_of_not_ge h1⟩

theorem na_not : isNumber na = false := by decide +kernel

theorem Decimal15.writable {v : Dbl} (h : Decimal15 v) : Writable v := by
  rcases h with rfl | ⟨s, rfl, _, _, _, hb⟩
  · exact .inl na_not
  · exact .inr ⟨roundD s, ieee_bounded hb, double_roundD hb⟩

theorem sig_roundD {s : Rat} (hs : Short 10 15 s) (h0 : s = 0 ∨ (2 : Rat) ^ (-1022 : Int) ≤ |s|) : sig 10 15 (roundD s) = s := by
  rcases h0 with rfl | h0
  · rw [roundD_zero]; simp [sig]
  · rw [roundD_eq h0, sig_double hs]

theorem back_exact {v : Dbl} (h : Decimal15 v) : back v = v := by
  rcases h with rfl | ⟨s, rfl, hn, hs, h0, hb⟩
  · exact back_na (by rw [na_not]; simp)
  · rw [ieee_bounded hb] at hn ⊢
    rw [back_num hn, sig_roundD hs h0, ieee_bounded hb]

theorem map_back {db : SMap (List Dbl)} (h : ∀ e ∈ db, ∀ v ∈ e.2, back v = v) : (db.map fun e => (e.1, e.2.map back)) = db := by
  conv_rhs => rw [← List.map_id db]
  refine List.map_congr_left fun e he => ?_
  have : e.2.map back = e.2 := by
    conv_rhs => rw [← List.map_id e.2]
    exact List.map_congr_left fun v hv => h e he v hv
  rw [this]
  rfl

/-- Missing values and numbers of at most 15 digits are restored exactly. -/
theorem C48_exact {smp : Sample} {db : SMap (List Dbl)} (h : Saved smp db) (hb : ∀ e ∈ db, ∀ v ∈ e.2, Decimal15 v) :
    loadVars (saveVars smp db) = .ok (some ⟨some smp, db⟩) := by
  rw [load_save h, map_back fun e he v hv => back_exact (hb e he v hv)]

theorem limit : roundD (-(10 ^ 37)) = -9999999999999999538762658202121142272 := by decide +kernel

/-- A number is not read back as a missing value. -/
theorem number_kept {q : Rat} (h : isNumber (.num q) = true) (hb : |q| ≤ (10 : Rat) ^ (308 : Int)) :
    isNumber (ieee (sig 10 15 q)) = true := by
  rw [ieee_bounded (sig_upper hb)]
  simp only [isNumber, decide_eq_true_eq] at h ⊢
  have hd : Binary (roundD (-(10 ^ 37))) := (roundD_nearest _).1
  have h1 : -(10 : Rat) ^ (37 : Int) ≤ sig 10 15 q := by
    refine near_ge (near15 q).2 (short_neg (short_ten 37)) (le_trans ?_ h)
    rw [limit]; norm_num
  by_cases h2 : roundD (-(10 ^ 37)) ≤ sig 10 15 q
  · exact near_ge (roundD_nearest _).2 hd h2
  · by_contra hc
    generalize hr : sig 10 15 q = r at *
    have n1 := (roundD_nearest r).2 _ hd
    have n2 := (roundD_nearest (-(10 ^ 37))).2 _ (roundD_nearest r).1
    by_cases he : r = -(10 ^ 37)
    · rw [he] at hc
      exact hc (le_refl _)
    · have h1' : -(10 : Rat) ^ 37 < r := lt_of_le_of_ne (by exact_mod_cast h1) (Ne.symm he)
      rw [limit] at *
      generalize roundD r = x at *
      norm_num at *
      rw [abs_of_nonpos (by linarith : r + 9999999999999999538762658202121142272 ≤ 0)] at n1
      by_cases hx : x ≤ -10000000000000000000000000000000000000
      · rw [abs_of_nonneg (by linarith)] at n1 n2
        linarith
      · rw [abs_of_nonpos (by linarith : -10000000000000000000000000000000000000 - x ≤ 0)] at n2
        linarith

/-- Values that are not numbers, and numbers that are neither too large nor too small. -/
def Normal (v : Dbl) : Prop :=
  isNumber v = false ∨
    ∃ q, v = .num q ∧ Double q ∧ |q| ≤ (10 : Rat) ^ (308 : Int) ∧ (q = 0 ∨ (10 : Rat) ^ (-307 : Int) ≤ |q|)

set_option exponentiation.threshold 2000 in
theorem back_decimal {v : Dbl} (h : Normal v) : Decimal15 (back v) := by
  by_cases hn : isNumber v = true
  · rcases h with h | ⟨q, rfl, hq, hb, h0⟩
    · rw [h] at hn; cases hn
    · refine .inr ⟨sig 10 15 q, back_num hn, ?_, (near15 q).1, ?_, sig_upper hb⟩
      · rw [back_num hn]
        exact number_kept hn hb
      · rcases h0 with rfl | h0
        · exact .inl (by simp [sig])
        · refine .inr (le_trans ?_ (sig_lower h0))
          rw [zpow_neg, zpow_neg]
          refine inv_anti₀ (by positivity) ?_
          exact_mod_cast (by norm_num : (10 : Nat) ^ 307 ≤ 2 ^ 1022)
  · exact .inl (back_na hn)

/-- What was loaded from a saved file is restored exactly when it is saved and loaded again: values are rounded once. -/
theorem C48_stable {smp : Sample} {db : SMap (List Dbl)} (h : Saved smp db) (hb : ∀ e ∈ db, ∀ v ∈ e.2, Normal v) :
    ∃ db', loadVars (saveVars smp db) = .ok (some ⟨some smp, db'⟩) ∧
      loadVars (saveVars smp db') = .ok (some ⟨some smp, db'⟩) := by
  have hd : ∀ e ∈ (db.map fun e => (e.1, e.2.map back) : SMap (List Dbl)), ∀ v ∈ e.2, Decimal15 v := by
    intro e he v hv
    obtain ⟨x, hx, rfl⟩ := List.mem_map.1 he
    obtain ⟨y, hy, rfl⟩ := List.mem_map.1 hv
    exact back_decimal (hb x hx y hy)
  refine ⟨_, load_save h, C48_exact ⟨h.start, h.stop, h.whole, h.nb, sorted_map back h.sorted, ?_, ?_, ?_⟩ hd⟩
  · intro e he
    obtain ⟨x, hx, rfl⟩ := List.mem_map.1 he
    exact h.names x hx
  · intro e he
    obtain ⟨x, hx, rfl⟩ := List.mem_map.1 he
    simpa using h.len x hx
  · exact fun e he v hv => (hd e he v hv).writable

/-! ## Texts of numbers -/

theorem layout_e {P : Nat} {ds : Yy.Text} (hd : Digits ds) (x : Int) : 'e' ∈ layout P ds x ↔ (x < -4 ∨ (P : Int) ≤ x) := by
  have hno : ∀ t : Yy.Text, Digits t → 'e' ∉ t := fun t ht h => absurd (ht _ h) (by decide)
  have hpt : ∀ t : Yy.Text, Digits t → 'e' ∉ point t := by
    intro t ht h
    rw [point] at h
    split at h
    · cases h
    · rcases List.mem_cons.1 h with h | h
      · exact absurd h (by decide)
      · exact hno t ht h
  have hz : ∀ n, Digits (List.replicate n '0') := digits_zeros
  rw [layout]
  split
  · rename_i h
    simp [h]
  · rename_i h
    simp only [h, iff_false]
    split
    · intro hm
      rcases List.mem_append.1 hm with hm | hm
      · exact hno _ (Digits.take (Digits.append hd (hz _)) _) hm
      · exact hpt _ (Digits.drop hd _) hm
    · intro hm
      rcases List.mem_cons.1 hm with hm | hm
      · exact absurd hm (by decide)
      · rcases List.mem_cons.1 hm with hm | hm
        · exact absurd hm (by decide)
        · exact hno _ (Digits.append (hz _) hd) hm

theorem chars_bounds {m : Nat} (h : 0 < m) : 10 ^ ((natToChars m).length - 1) ≤ m ∧ m < 10 ^ (natToChars m).length := by
  constructor
  · by_contra hc
    have hl : 2 ≤ (natToChars m).length := by
      by_contra h2
      rw [show (natToChars m).length - 1 = 0 by omega] at hc
      omega
    have := natToChars_length (n := m) (k := (natToChars m).length - 1) (by omega) (by omega)
    omega
  · by_contra hc
    have := le_natToChars_length (n := m) (k := (natToChars m).length) (by omega)
    omega

theorem abs_sig {P : Nat} {q : Rat} (hq : q ≠ 0) : |sig 10 P q| = (mant 10 P q : Rat) * (10 : Rat) ^ unit 10 P q := by
  have hp : 0 ≤ (mant 10 P q : Rat) * (10 : Rat) ^ unit 10 P q :=
    mul_nonneg (Nat.cast_nonneg _) (zpow_nonneg (by norm_num) _)
  rw [sig, if_neg hq]
  push_cast
  split
  · rw [abs_neg, abs_of_nonneg hp]
  · rw [abs_of_nonneg hp]

/-- Exponents are written only for numbers below `0.0001` and from `10 ^ 15` on. -/
theorem C48_exponent (q : Rat) : 'e' ∈ fmtG 15 q ↔
    q ≠ 0 ∧ (|sig 10 15 q| < (10 : Rat) ^ (-4 : Int) ∨ (10 : Rat) ^ (15 : Int) ≤ |sig 10 15 q|) := by
  by_cases hq : q = 0
  · subst hq
    simp [fmtG]
  · have hm := (mant_bounds (b := 10) (P := 15) (by omega) (by omega) hq).1
    have hpos : 0 < mant 10 15 q := lt_of_lt_of_le (by positivity) hm
    have hstrip : Digits (stripZeros (natToChars (mant 10 15 q))) := by
      obtain ⟨k, hk⟩ := strip_split (natToChars (mant 10 15 q))
      intro c hc
      exact natToChars_digits (mant 10 15 q) c (by rw [hk]; simp [hc])
    have e1 : 'e' ∈ fmtG 15 q ↔ 'e' ∈ layout 15 (stripZeros (natToChars (mant 10 15 q)))
        (((natToChars (mant 10 15 q)).length : Int) - 1 + unit 10 15 q) := by
      rw [fmtG, if_neg hq]
      simp only
      split
      · simp
      · rfl
    obtain ⟨b1, b2⟩ := chars_bounds hpos
    have hl : 1 ≤ (natToChars (mant 10 15 q)).length := by
      by_contra h
      rw [show (natToChars (mant 10 15 q)).length = 0 by omega] at b2
      omega
    have hs := abs_sig (P := 15) hq
    rw [e1, layout_e hstrip, hs]
    generalize hL : (natToChars (mant 10 15 q)).length = L at *
    generalize mant 10 15 q = m at *
    generalize unit 10 15 q = u at *
    have h10 : (10 : Rat) ≠ 0 := by norm_num
    have hu : (0 : Rat) < (10 : Rat) ^ u := zpow_pos (by norm_num) _
    have c1 : (10 : Rat) ^ ((L : Int) - 1 + u) ≤ m * (10 : Rat) ^ u := by
      rw [zpow_add₀ h10]
      refine mul_le_mul_of_nonneg_right ?_ (le_of_lt hu)
      rw [show (L : Int) - 1 = ((L - 1 : Nat) : Int) by omega, zpow_natCast]
      exact_mod_cast b1
    have c2 : m * (10 : Rat) ^ u < (10 : Rat) ^ ((L : Int) - 1 + u + 1) := by
      rw [show (L : Int) - 1 + u + 1 = (L : Int) + u by omega, zpow_add₀ h10]
      refine mul_lt_mul_of_pos_right ?_ hu
      rw [zpow_natCast]
      exact_mod_cast b2
    generalize (L : Int) - 1 + u = x at *
    generalize (m : Rat) * (10 : Rat) ^ u = y at *
    have h1 : (1 : Rat) < 10 := by norm_num
    have k : ∀ a : Int, y < (10 : Rat) ^ a ↔ x < a := by
      intro a
      constructor
      · intro h
        exact (zpow_lt_zpow_iff_right₀ h1).1 (lt_of_le_of_lt c1 h)
      · intro h
        exact lt_of_lt_of_le c2 ((zpow_le_zpow_iff_right₀ h1).2 (by omega))
    have k15 : (10 : Rat) ^ (15 : Int) ≤ y ↔ 15 ≤ x := by rw [← not_lt, k 15, not_lt]
    rw [k (-4), k15]
    simp only [ne_eq, hq, not_false_eq_true, true_and]
    rfl

/-- Numbers half-way between two numbers of 15 digits are rounded to the even one. -/
theorem C48_ties {m : Nat} (h1 : 10 ^ 14 ≤ m) (h2 : m < 10 ^ 15) (e : Int) :
    sig 10 15 (((m : Rat) + 1 / 2) * (10 : Rat) ^ e) = ((if m % 2 = 0 then m else m + 1 : Nat) : Rat) * (10 : Rat) ^ e := by
  have h10 : (10 : Rat) ≠ 0 := by norm_num
  have he : (0 : Rat) < (10 : Rat) ^ e := zpow_pos (by norm_num) _
  have hm1 : ((10 : Rat) ^ 14) ≤ m := by exact_mod_cast h1
  have hm2 : (m : Rat) + 1 ≤ (10 : Rat) ^ 15 := by exact_mod_cast h2
  have hq : 0 < ((m : Rat) + 1 / 2) * (10 : Rat) ^ e := mul_pos (by linarith [(Nat.cast_nonneg m : (0 : Rat) ≤ m)]) he
  have hl : ilog 10 (((m : Rat) + 1 / 2) * (10 : Rat) ^ e) = 14 + e := by
    obtain ⟨a, b⟩ := ilog_bounds hq (a := 14 + e) (c := 15 + e)
      (by rw [zpow_add₀ h10]; exact mul_le_mul_of_nonneg_right (by rw [show (10 : Rat) ^ (14 : Int) = 10 ^ 14 from rfl]; linarith) (le_of_lt he))
      (by rw [zpow_add₀ h10]; exact mul_lt_mul_of_pos_right (by rw [show (10 : Rat) ^ (15 : Int) = 10 ^ 15 from rfl]; linarith) he)
    omega
  have hu : unit 10 15 (((m : Rat) + 1 / 2) * (10 : Rat) ^ e) = e := by
    rw [unit, abs_of_pos hq, hl]
    omega
  have hf : ((m : Rat) + 1 / 2).floor = (m : Int) := by
    have : ((m : Rat) + 1 / 2).floor = ⌊(m : Rat) + 1 / 2⌋ := rfl
    rw [this, Int.floor_eq_iff]
    constructor <;> push_cast <;> linarith
  have hr : roundEven ((m : Rat) + 1 / 2) = if m % 2 = 0 then m else m + 1 := by
    simp only [roundEven, hf, Int.toNat_natCast]
    rw [if_neg (by linarith), if_neg (by linarith)]
  have hma : mant 10 15 (((m : Rat) + 1 / 2) * (10 : Rat) ^ e) = if m % 2 = 0 then m else m + 1 := by
    rw [mant, hu, abs_of_pos hq]
    push_cast
    rw [mul_div_assoc, div_self (ne_of_gt he), mul_one, hr]
  rw [sig, if_neg (ne_of_gt hq), if_neg (not_lt.2 (le_of_lt hq)), hu, hma]
  norm_cast

example : fmtG 15 (1234567890123456 / 10) = "123456789012346".toList ∧ fmtG 15 (1234567890123445 / 10) = "123456789012344".toList ∧
    fmtG 15 (10 ^ 15) = "1e+15".toList ∧ fmtG 15 (1 / 10000) = "0.0001".toList := by decide +kernel

/-! ## The end -/

/-- Whatever the file is, loading comes to an end (`.err` is also the result of a loop that is not at its end when all the
    characters are used): an exception can only come from the sample. -/
theorem C48_ends {t : Yy.Text} (h : loadVars t = .err) :
    ∃ st, lxs tblKeys ⟨.err, false, expand 0 t⟩ = .ok (.key 1, st) ∧
      (readSmpl tblKeys st = .err ∨ ∃ smp st', readSmpl tblKeys st = .ok (some smp, st') ∧ smp.nb < 0) := by
  rw [loadVars, loadYy] at h
  have ho : St.Ok ⟨.err, false, expand 0 t⟩ := by intro h; cases h
  cases hl : lxs tblKeys ⟨.err, false, expand 0 t⟩ with
  | err => exact absurd hl (lxs_ne_err ho)
  | ub => rw [hl] at h; cases h
  | ok p =>
    obtain ⟨l, st⟩ := p
    obtain ⟨a1, _, _, _⟩ := lxs_size ho hl
    rw [hl] at h
    simp only [Res.bind] at h
    split at h
    · rename_i hk
      refine ⟨st, by rw [hk], ?_⟩
      cases hs : readSmpl tblKeys st with
      | err => exact .inl rfl
      | ub => rw [hs] at h; cases h
      | ok q =>
        obtain ⟨o, st'⟩ := q
        have b1 := (readSmpl_size a1 hs).1
        rw [hs] at h
        cases o with
        | none => cases h
        | some smp =>
          refine .inr ⟨smp, st', rfl, ?_⟩
          by_contra hc
          have := varLoop_ends (nb := smp.nb) (by omega) (n := st'.text.length + 2) b1 (by have := size_le st'; omega) []
          simp only at h
          revert h this
          cases varLoop smp.nb (st'.text.length + 2) st' [] <;> simp
    · cases h

/-! ## Examples -/

/-- Two years. -/
def years : Sample := ⟨⟨2000, 1, 'Y'⟩, ⟨2001, 1, 'Y'⟩, 2⟩

theorem perOk_2000 : PerOk ⟨2000, 1, 'Y'⟩ := ⟨⟨1, by decide, by decide, by decide⟩, by simp [IsPeriodicity], by decide, by decide⟩
theorem perOk_2001 : PerOk ⟨2001, 1, 'Y'⟩ := ⟨⟨1, by decide, by decide, by decide⟩, by simp [IsPeriodicity], by decide, by decide⟩

/-- 0.1 and a missing value. -/
def tenths : SMap (List Dbl) := [(['A'], [ieee (1 / 10), na]), (['B', '_', '1'], [.num 3, ieee (-25 / 10)])]

theorem short_of (m : Int) (e : Int) (h : |m| < 10 ^ 15) {q : Rat} (hq : q = m * (10 : Rat) ^ e) : Short 10 15 q :=
  ⟨m, e, by simpa using h, by simpa using hq⟩

theorem decimal_of {s : Rat} (m e : Int) (h : |m| < 10 ^ 15) (hq : s = m * (10 : Rat) ^ e) (h0 : s = 0 ∨ (1 : Rat) / 100 ≤ |s|)
    (h1 : |s| ≤ 100) (hn : isNumber (ieee s) = true) : Decimal15 (ieee s) := by
  refine .inr ⟨s, rfl, hn, short_of m e h hq, ?_, le_trans h1 ?_⟩
  · rcases h0 with h0 | h0
    · exact .inl h0
    · refine .inr (le_trans ?_ h0)
      have : (2 : Rat) ^ (-1022 : Int) ≤ (2 : Rat) ^ (-7 : Int) := zpow_le_zpow_right₀ (by norm_num) (by norm_num)
      exact le_trans this (by norm_num)
  · have : (10 : Rat) ^ (2 : Int) ≤ (10 : Rat) ^ (308 : Int) := zpow_le_zpow_right₀ (by norm_num) (by norm_num)
    exact le_trans (by norm_num) this

theorem tenths_decimal : ∀ e ∈ tenths, ∀ v ∈ e.2, Decimal15 v := by
  have h3 : (Dbl.num 3) = ieee 3 := by decide +kernel
  simp only [tenths, List.mem_cons, List.not_mem_nil, or_false, forall_eq_or_imp, forall_eq]
  refine ⟨⟨?_, .inl rfl⟩, ?_, ?_⟩
  · exact decimal_of 1 (-1) (by norm_num) (by norm_num) (.inr (by norm_num)) (by norm_num [abs_of_pos]) (by decide +kernel)
  · rw [h3]
    exact decimal_of 3 0 (by norm_num) (by norm_num) (.inr (by norm_num)) (by norm_num) (by decide +kernel)
  · exact decimal_of (-25) (-1) (by norm_num) (by norm_num) (.inr (by norm_num [abs_of_neg])) (by norm_num [abs_of_neg]) (by decide +kernel)

theorem tenths_saved : Saved years tenths := by
  have hA : VarName ['A'] := ⟨by decide, by decide, by decide, by decide, by decide, by decide +kernel⟩
  have hB : VarName ['B', '_', '1'] := ⟨by decide, by decide, by decide, by decide, by decide, by decide +kernel⟩
  refine ⟨perOk_2000, perOk_2001, by decide +kernel, by decide, ?_, ?_, ?_, fun e he v hv => (tenths_decimal e he v hv).writable⟩
  · exact ⟨by decide, ⟨(by intro k hk; cases hk), trivial⟩⟩
  · simp only [tenths, List.mem_cons, List.not_mem_nil, or_false, forall_eq_or_imp, forall_eq]
    exact ⟨⟨hA, by decide⟩, hB, by decide⟩
  · simp only [tenths, List.mem_cons, List.not_mem_nil, or_false, forall_eq_or_imp, forall_eq]
    exact ⟨rfl, rfl⟩

/-- The hypotheses of `C48_exact` hold for a database with decimals and a missing value. -/
example : loadVars (saveVars years tenths) = .ok (some ⟨some years, tenths⟩) := C48_exact tenths_saved tenths_decimal

theorem tenths_normal : ∀ e ∈ tenths, ∀ v ∈ e.2, Normal v := by
  have key : ∀ {s : Rat}, |s| ≤ (10 : Rat) ^ (308 : Int) → 1 / 100 ≤ |roundD s| → |roundD s| ≤ 100 → Normal (ieee s) := by
    intro s h1 h2 h3
    refine .inr ⟨roundD s, ieee_bounded h1, double_roundD h1, le_trans h3 ?_, .inr (le_trans ?_ h2)⟩
    · have : (10 : Rat) ^ (2 : Int) ≤ (10 : Rat) ^ (308 : Int) := zpow_le_zpow_right₀ (by norm_num) (by norm_num)
      exact le_trans (by norm_num) this
    · have : (10 : Rat) ^ (-307 : Int) ≤ (10 : Rat) ^ (-2 : Int) := zpow_le_zpow_right₀ (by norm_num) (by norm_num)
      exact le_trans this (by norm_num)
  have hb : ∀ {s : Rat}, |s| ≤ 100 → |s| ≤ (10 : Rat) ^ (308 : Int) := by
    intro s h
    have : (10 : Rat) ^ (2 : Int) ≤ (10 : Rat) ^ (308 : Int) := zpow_le_zpow_right₀ (by norm_num) (by norm_num)
    exact le_trans (le_trans h (by norm_num)) this
  have h3 : (Dbl.num 3) = ieee 3 := by decide +kernel
  simp only [tenths, List.mem_cons, List.not_mem_nil, or_false, forall_eq_or_imp, forall_eq]
  refine ⟨⟨?_, .inl na_not⟩, ?_, ?_⟩
  · exact key (hb (by decide +kernel)) (by decide +kernel) (by decide +kernel)
  · rw [h3]
    exact key (hb (by decide +kernel)) (by decide +kernel) (by decide +kernel)
  · exact key (hb (by decide +kernel)) (by decide +kernel) (by decide +kernel)

/-- The hypotheses of `C48_stable` and of `C48_roundtrip` hold for the same database. -/
example : ∃ db', loadVars (saveVars years tenths) = .ok (some ⟨some years, db'⟩) ∧
    loadVars (saveVars years db') = .ok (some ⟨some years, db'⟩) := C48_stable tenths_saved tenths_normal

example : ∀ e ∈ tenths, ∀ v ∈ e.2, Bounded v := by
  intro e he v hv
  rcases tenths_normal e he v hv with h | ⟨q, h1, h2, h3, _⟩
  · exact .inl h
  · exact .inr ⟨q, h1, h2, h3⟩

/-- `sample 2000Y1 2001Y1 a 1 /* c */ 2.5 3 b - 1 a na` with a tab: a second definition of `a`, one value more, one value less. -/
example : ∃ db, loadVars ("sample 2000Y1 2001Y1 a 1 /* c */ 2.5 3 b -\t 1 A na".toList) = .ok (some ⟨some years, db⟩) ∧
    SMap.find ['A'] db = some [na, na] ∧ SMap.find ['B'] db = some [.num (-1), na] ∧ SMap.find ['C'] db = none := by
  have hA : VarName ['A'] := ⟨by decide, by decide, by decide, by decide, by decide, by decide +kernel⟩
  have ha : VarName ['a'] := ⟨by decide, by decide, by decide, by decide, by decide, by decide +kernel⟩
  have hb : VarName ['b'] := ⟨by decide, by decide, by decide, by decide, by decide, by decide +kernel⟩
  have hl : SLaid na ieee years.start.toChars years.stop.toChars
      [(['a'], [ieee 1, ieee (25 / 10), ieee 3]), (['b'], [ieee (-1)]), (['A'], [na])]
      ("sample 2000Y1 2001Y1 a 1 /* c */ 2.5 3 b -\t 1 A na".toList.filter kept) := by
    have e : "sample 2000Y1 2001Y1 a 1 /* c */ 2.5 3 b -\t 1 A na".toList.filter kept =
        [] ++ ("sample".toList ++ ([' '] ++ (years.start.toChars ++ ([' '] ++ (years.stop.toChars ++
          ([' '] ++ (['a'] ++ ([' '] ++ (['1'] ++ ((' ' :: '/' :: '*' :: ([' ', 'c', ' '] ++ '*' :: '/' :: [' '])) ++ (['2', '.', '5'] ++
            ([' '] ++ (['3'] ++ ([' '] ++ (['b'] ++ ([' '] ++ '-' :: (['\t', ' '] ++ (['1'] ++ ([' '] ++ (['A'] ++
              ([' '] ++ ('n' :: 'a' :: [])))))))))))))))))))))) := by decide +kernel
    rw [e]
    have hne : ∀ (x : Yy.Text), NumEnd (' ' :: x) ∧ NameEnd (' ' :: x) := by
      intro x
      constructor <;> intro c hc <;> cases hc <;> decide
    have hg := gap_space
    have hcom : Gap (' ' :: '/' :: '*' :: ([' ', 'c', ' '] ++ '*' :: '/' :: [' '])) :=
      .white (by decide) (.block (by simp only [Lec.Written.NoEnd]; decide) hg)
    have n1 : Numeral ['1'] 1 := .inl ⟨by simp only [Digits]; decide, by decide, by decide, by simp [Lec.Written.dec]⟩
    have n3 : Numeral ['3'] 3 := .inl ⟨by simp only [Digits]; decide, by decide, by decide, by simp [Lec.Written.dec]⟩
    have n25 : Numeral ['2', '.', '5'] (25 / 10) := by
      refine .inr ?_
      have := Lec.Written.Decimal.point (i := ['2']) (f := ['5']) (x := []) (e := 0) (by simp only [Digits]; decide)
        (by simp only [Digits]; decide) (by decide) .none
      rw [show Lec.Written.number ['2'] ['5'] 0 = 25 / 10 by decide +kernel] at this
      simpa using this
    refine .mk .nil hg (by simp) hg (by simp) (hne _).1 ?_
    refine .var hg ha (hne _).2 (.num hg n1 (by decide) (hne _).1 (.num hcom n25 (by decide) (hne _).1
      (.num hg n3 (by decide) (hne _).1 .nil))) ?_
    refine .var hg hb (hne _).2 (.neg hg (.white (by decide) hg) n1 (by decide) (hne _).1 .nil) ?_
    exact .var (s' := []) hg hA (hne _).2 (.na hg (by intro c hc; cases hc) .nil) (.nil .nil)
  obtain ⟨db, h1, _, h2⟩ := C48_load (smp := years) perOk_2000 perOk_2001 (by decide +kernel) (by decide) hl (by decide +kernel)
  refine ⟨db, h1, ?_, ?_, ?_⟩ <;> rw [h2] <;> decide +kernel

/-! ## Where names and values are lost -/

/-- The name `A#` is valid; in the file `#` is an error for the reader, and `A` is defined again. -/
theorem C48_hash_counterexample : checkName .variables ['A', '#'] = true ∧
    loadVars (saveVars years [(['A'], [.num 1, .num 2]), (['A', '#'], [.num 3, .num 4])]) =
      .ok (some ⟨some years, [(['A'], [na, na])]⟩) := by decide +kernel

/-- Variables with the name of a key word of tables are lost. -/
theorem C48_reserved_counterexample : ∀ k ∈ reserved, checkName .variables k.toList = true →
    loadVars (saveVars years [(['A'], [.num 1, .num 2]), (k.toList, [.num 3, .num 4])]) =
      .ok (some ⟨some years, [(['A'], [.num 1, .num 2])]⟩) := by decide +kernel

example : (reserved.filter fun k => checkName .variables k.toList).length = 33 := by decide +kernel

/-- Infinity is written `inf`, which is read as a name. -/
theorem C48_infinity_counterexample : loadVars (saveVars years [(['A'], [.inf, .num 2])]) =
    .ok (some ⟨some years, [(['A'], [na, na]), (['I', 'N', 'F'], [.num 2, na])]⟩) := by decide +kernel

/-- A third is not restored: 15 digits are not enough. -/
theorem C48_digits_counterexample : Double (6004799503160661 / 2 ^ 54) ∧
    loadVars (saveVars years [(['A'], [.num (6004799503160661 / 2 ^ 54), .num 2])]) =
      .ok (some ⟨some years, [(['A'], [.num (6004799503160655 / 2 ^ 54), .num 2])]⟩) := by
  refine ⟨⟨⟨6004799503160661, -54, by norm_num, by norm_num, by norm_num⟩, ?_⟩, by decide +kernel⟩
  exact lt_of_lt_of_le (b := 1) (by norm_num [abs_of_pos]) (one_le_pow₀ (by norm_num))

/-- The largest `double` is read as infinity. -/
theorem C48_largest_counterexample : loadVars (saveVars years [(['A'], [.num (2 ^ 1024 - 2 ^ 971), .num 2])]) =
    .ok (some ⟨some years, [(['A'], [.inf, .num 2])]⟩) := by decide +kernel

/-- A number of 255 characters does not fit into the array of `SCR_atof`. -/
theorem C48_long_number_counterexample :
    loadVars ("sample 2000Y1 2001Y1 A ".toList ++ List.replicate 255 '1') = .ub := by decide +kernel

/-- `BOLD` and `sample` are the same for `load_yy`. -/
theorem C48_bold_counterexample : loadVars "BOLD 2000Y1 2001Y1 A 1 2".toList =
    .ok (some ⟨some years, [(['A'], [.num 1, .num 2])]⟩) := by decide +kernel

/-- A sample of more than 32767 periods throws at the first variable. -/
theorem C48_periods_counterexample : loadVars "sample 1000M1 9999M12 A 1 2".toList = .err := by decide +kernel

end Asc
end Iode

