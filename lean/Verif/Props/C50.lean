import Verif.Lemmas.AscScl
import Verif.Lemmas.File
import Verif.Lemmas.SMap

/-!
# C50  Scalars are restored from their text form

See `properties.jsonl`.  Texts are those of Spec/AscScl.lean.
-/
namespace Iode
namespace Asc
namespace Scalars
open Yy Written Printf Decimals
open Lec (kept Clean)
open Lec.Written (Gap NameEnd NumEnd NameCh Digit White Digits)

/-! ## Loading -/

theorem putScls_names {defs : List (Yy.Text × List Dbl)} (h : ∀ e ∈ defs, ObjName e.1) (db : SMap Scl) :
    putScls defs db = defs.foldl (fun db e => SMap.insert (e.1.map toLowerC) (sclOf e.2) db) db := by
  induction defs generalizing db with
  | nil => rfl
  | cons e r ih =>
    rw [putScls, List.foldl_cons, List.foldl_cons, putScl_name (h e (by simp))]
    exact ih (fun e he => h e (by simp [he])) _

/-- Every text of scalars is read as it is meant: each name stands for its last definition; a value that is missing or left out is
    0.9, a relaxation parameter 1. -/
theorem C50_load {defs : List (Yy.Text × List Dbl)} {t : Yy.Text} (h : CLaid na ieee defs (t.filter kept))
    (h0 : ∀ c ∈ t, c.toNat ≠ 0) :
    ∃ db, loadScls t = .ok db ∧ SMap.Sorted db ∧ ∀ k, SMap.find k db = (lastLow defs k).map fun vs =>
      ⟨orElse isNumber (ieee (9 / 10)) vs[0]?, orElse isNumber (.num 1) vs[1]?, vs[2]?.getD na⟩ := by
  have hc : Clean (t.filter kept) := by
    intro c hc
    obtain ⟨h1, h2⟩ := List.mem_filter.1 hc
    simp only [kept, decide_eq_true_eq] at h2
    exact ⟨h0 c h1, h2⟩
  have hl := claid_expand h hc 0
  rw [← Lec.expand_kept] at hl
  refine ⟨_, loadScls_laid hl, ?_⟩
  rw [putScls_names (claid_names h)]
  clear h hl
  induction defs using List.reverseRecOn with
  | nil => exact ⟨trivial, fun _ => rfl⟩
  | append_singleton l e ih =>
    obtain ⟨i1, i2⟩ := ih
    rw [List.foldl_append, List.foldl_cons, List.foldl_nil]
    refine ⟨SMap.sorted_insert _ _ _ i1, fun k => ?_⟩
    rw [lastLow, List.filter_append]
    by_cases hk : e.1.map toLowerC = k
    · rw [hk, SMap.find_insert_self]
      simp [hk, sclOf]
    · rw [SMap.find_insert_ne _ _ (Ne.symm hk), i2, lastLow]
      simp [hk]

/-! ## Saving and loading -/

/-- The values that can be written and read again: missing values and finite numbers. -/
def Writable (v : Dbl) : Prop := isNumber v = false ∨ ∃ q, v = .num q ∧ Double q

theorem print_num {q : Rat} (h : isNumber (.num q) = true) : printScl1 (.num q) = fmtG 14 q ++ [' '] := by
  unfold printScl1
  rw [if_pos h]

theorem print_na {v : Dbl} (h : ¬ isNumber v = true) : printScl1 v = ['n', 'a', ' '] := by
  unfold printScl1
  rw [if_neg h]
  rfl

theorem gap_space : Gap [' '] := .white (by decide) .nil

theorem vals_print {vs : List Dbl} (h : ∀ v ∈ vs, Writable v) (s : Yy.Text) :
    Vals na ieee (vs.map (backP 14)) (' ' :: (vs.flatMap printScl1 ++ s)) (' ' :: s) := by
  induction vs with
  | nil => exact .nil
  | cons v vs ih =>
    have ih := ih fun v hv => h v (by simp [hv])
    rw [List.map_cons, List.flatMap_cons]
    by_cases hn : isNumber v = true
    · rcases h v (by simp) with h1 | ⟨q, rfl, hq⟩
      · rw [h1] at hn; cases hn
      · obtain ⟨t, ht, e⟩ := fmtG_numeral (P := 14) (by omega) q
        have hl := fmtG_length (P := 14) (by omega) (by omega) (double_size hq)
        have hend : ∀ x, NumEnd (' ' :: x) := by
          intro x c hc
          cases hc
          decide
        rw [backP_num hn, print_num hn, e]
        rw [e] at hl
        have hs := sign_sigP (P := 14) q
        split at hl
        · rename_i hq0
          rw [if_pos hq0] at hs ⊢
          rw [← hs]
          have := Vals.neg (missing := na) (rnd := ieee) gap_space Gap.nil ht (by simp at hl; omega) (hend _) ih
          simpa using this
        · rename_i hq0
          rw [if_neg hq0] at hs ⊢
          rw [← hs]
          have := Vals.num (missing := na) (rnd := ieee) gap_space ht (by omega) (hend _) ih
          simpa using this
    · rw [backP_na hn, print_na hn]
      have := Vals.na (missing := na) (rnd := ieee) gap_space (s := ' ' :: (vs.flatMap printScl1 ++ s))
        (by intro c hc; cases hc; decide) ih
      simpa using this

/-- The three numbers of a scalar. -/
def fields (v : Scl) : List Dbl := [v.value, v.relax, v.std]

/-- A database whose names and values can be read again: names without `#`, no infinite numbers. -/
structure Saved (db : SMap Scl) : Prop where
  sorted : SMap.Sorted db
  names : ∀ e ∈ db, ObjName e.1 ∧ e.1.map toLowerC = e.1
  vals : ∀ e ∈ db, ∀ v ∈ fields e.2, Writable v

theorem claid_lines {db : SMap Scl} (hn : ∀ e ∈ db, ObjName e.1) (hv : ∀ e ∈ db, ∀ v ∈ fields e.2, Writable v) {g : Yy.Text}
    (hg : Gap g) : CLaid na ieee (db.map fun e => (e.1, (fields e.2).map (backP 14))) (g ++ db.flatMap sclLine) := by
  induction db generalizing g with
  | nil => simpa using CLaid.nil hg
  | cons e r ih =>
    have h1 := vals_print (hv e (by simp)) ('\n' :: r.flatMap sclLine)
    have h2 := ih (fun e he => hn e (by simp [he])) (fun e he => hv e (by simp [he])) (g := [' ', '\n'])
      (.white (by decide) (.white (by decide) .nil))
    have := CLaid.scl (missing := na) (rnd := ieee) hg (hn e (by simp)) (by intro c hc; cases hc; decide) h1 (by simp [fields])
      (.inl (by simp [fields])) h2
    simpa [sclLine, printScl, fields] using this

theorem print_plain {v : Dbl} : ∀ c ∈ printScl1 v, Lec.PlainCh c := by
  by_cases hn : isNumber v = true
  · cases v with
    | num q =>
      obtain ⟨t, ht, e⟩ := fmtG_numeral (P := 14) (by omega) q
      rw [print_num hn, e]
      intro c hc
      rcases List.mem_append.1 hc with hc | hc
      · split at hc
        · rcases List.mem_cons.1 hc with rfl | hc
          · decide
          · exact numeral_plain ht c hc
        · exact numeral_plain ht c hc
      · rw [List.mem_singleton.1 hc]; decide
    | inf => decide
    | ninf => cases hn
    | nan => cases hn
  · rw [print_na hn]
    decide

theorem save_plain {db : SMap Scl} (h : ∀ e ∈ db, ObjName e.1) : ∀ c ∈ saveScls db, Lec.PlainCh c := by
  intro c hc
  simp only [saveScls, List.mem_append, List.mem_cons, List.mem_flatMap, sclLine, printScl, List.not_mem_nil, or_false] at hc
  rcases hc with ⟨e, he, hc | rfl | ⟨v, _, hc⟩ | rfl⟩
  · exact Lec.nameCh_plain ((h e he).all c hc)
  · decide
  · exact print_plain c hc
  · decide

/-- What is left of a scalar. -/
def back (v : Scl) : Scl := sclOf ((fields v).map (backP 14))

theorem sorted_map {f : Scl → Scl} {db : SMap Scl} (h : SMap.Sorted db) : SMap.Sorted (db.map fun e => (e.1, f e.2) : SMap Scl) := by
  induction db with
  | nil => trivial
  | cons e r ih =>
    refine ⟨fun k hk => h.1 k ?_, ih h.2⟩
    simpa [SMap.keys, Function.comp_def] using hk

theorem load_save {db : SMap Scl} (h : Saved db) : loadScls (saveScls db) = .ok (db.map fun e => (e.1, back e.2)) := by
  have hn := fun e he => (h.names e he).1
  have h1 := claid_lines hn h.vals (g := []) .nil
  rw [List.nil_append] at h1
  have hcl : Clean (saveScls db) := fun c hc => ⟨(save_plain hn c hc).1, (save_plain hn c hc).2.2⟩
  have h2 := claid_expand h1 hcl 0
  rw [saveScls, loadScls_laid h2, putScls_names (claid_names h1), List.foldl_map]
  have : ∀ (l acc : SMap Scl), (∀ e ∈ l, e ∈ db) →
      l.foldl (fun db e => SMap.insert (e.1.map toLowerC) (sclOf ((fields e.2).map (backP 14))) db) acc =
        (l.map fun e => (e.1, back e.2)).foldl (fun a e => SMap.insert e.1 e.2 a) acc := by
    intro l
    induction l with
    | nil => intro acc _; rfl
    | cons e l ih =>
      intro acc hl
      rw [List.foldl_cons, List.map_cons, List.foldl_cons, (h.names e (hl e (by simp))).2]
      exact ih _ fun e he => hl e (by simp [he])
  rw [this db [] fun _ h => h, BinFile.foldl_insert_sorted _ [] (sorted_map h.sorted) (by intro k hk; cases hk)]
  rfl

/-! ## Values -/

/-- Values that are not numbers, and numbers that are not too large. -/
def Bounded (v : Dbl) : Prop := isNumber v = false ∨ ∃ q, v = .num q ∧ Double q ∧ |q| ≤ (10 : Rat) ^ (308 : Int)

theorem Bounded.writable {v : Dbl} (h : Bounded v) : Writable v := by
  rcases h with h | ⟨q, h1, h2, _⟩
  · exact .inl h
  · exact .inr ⟨q, h1, h2⟩

theorem back_number {v : Dbl} (h : Bounded v) : isNumber (backP 14 v) = isNumber v := by
  by_cases hn : isNumber v = true
  · rcases h with h | ⟨q, rfl, hq, hb⟩
    · rw [h] at hn; cases hn
    · rw [backP_num hn, hn, number_keptP (by omega) hn hb]
  · rw [backP_na hn, na_number]
    simpa using hn

theorem back_restored {v : Dbl} (h : Bounded v) (d : Dbl) :
    RestoredP 14 d isNumber v (if isNumber (backP 14 v) then backP 14 v else d) := by
  rw [back_number h]
  by_cases hn : isNumber v = true
  · rcases h with h | ⟨q, rfl, hq, hb⟩
    · rw [h] at hn; cases hn
    · refine .inr ⟨hn, q, sig 10 14 q, roundD (sig 10 14 q), rfl, ?_, nearP (by omega) q, roundD_nearest _⟩
      rw [if_pos hn, backP_num hn, ieee_small (sig_upperP (by omega) hb)]
  · rw [if_neg hn]
    exact .inl ⟨by simpa using hn, rfl⟩

theorem std_restored {v : Dbl} (h : Bounded v) : RestoredP 14 na isNumber v (backP 14 v) := by
  have := back_restored h na
  rw [back_number h] at this
  split at this
  · exact this
  · rename_i hn
    rwa [backP_na hn]

/-- All names come back; numbers are rounded to 14 digits; a missing value becomes 0.9, a missing relaxation parameter 1. -/
theorem C50_roundtrip {db : SMap Scl} (hs : SMap.Sorted db) (hn : ∀ e ∈ db, ObjName e.1 ∧ e.1.map toLowerC = e.1)
    (hb : ∀ e ∈ db, Bounded e.2.value ∧ Bounded e.2.relax ∧ Bounded e.2.std) :
    ∃ db', loadScls (saveScls db) = .ok db' ∧
      List.Forall₂ (fun e e' => e'.1 = e.1 ∧ RestoredP 14 (ieee (9 / 10)) isNumber e.2.value e'.2.value ∧
        RestoredP 14 (.num 1) isNumber e.2.relax e'.2.relax ∧ RestoredP 14 na isNumber e.2.std e'.2.std) db db' := by
  refine ⟨_, load_save ⟨hs, hn, ?_⟩, ?_⟩
  · intro e he v hv
    obtain ⟨h1, h2, h3⟩ := hb e he
    simp only [fields, List.mem_cons, List.not_mem_nil, or_false] at hv
    rcases hv with rfl | rfl | rfl
    · exact h1.writable
    · exact h2.writable
    · exact h3.writable
  · rw [List.forall₂_map_right_iff, List.forall₂_same]
    intro e he
    obtain ⟨h1, h2, h3⟩ := hb e he
    exact ⟨rfl, back_restored h1 _, back_restored h2 _, std_restored h3⟩

/-- The `double` next to a decimal number of at most 14 digits. -/
def Decimal14 (v : Dbl) : Prop :=
  ∃ s, v = ieee s ∧ isNumber v = true ∧ Short 10 14 s ∧ (s = 0 ∨ (2 : Rat) ^ (-1022 : Int) ≤ |s|) ∧ |s| ≤ (10 : Rat) ^ (308 : Int)

theorem Decimal14.writable {v : Dbl} (h : Decimal14 v) : Writable v := by
  obtain ⟨s, rfl, _, _, _, hb⟩ := h
  exact .inr ⟨roundD s, ieee_small hb, double_round hb⟩

theorem back_exact {v : Dbl} (h : Decimal14 v) : backP 14 v = v := by
  obtain ⟨s, rfl, hn, hs, h0, hb⟩ := h
  rw [ieee_small hb] at hn ⊢
  rw [backP_num hn, sig_roundP (by omega) (by omega) hs h0, ieee_small hb]

theorem Decimal14.number {v : Dbl} (h : Decimal14 v) : isNumber v = true := by
  obtain ⟨_, _, h, _⟩ := h
  exact h

/-- Scalars that come back. -/
def Exact (v : Scl) : Prop := Decimal14 v.value ∧ Decimal14 v.relax ∧ (v.std = na ∨ Decimal14 v.std)

theorem Exact.back {v : Scl} (h : Exact v) : back v = v := by
  obtain ⟨h1, h2, h3⟩ := h
  have e3 : backP 14 v.std = v.std := by
    rcases h3 with h3 | h3
    · rw [h3]; exact backP_na (by rw [na_number]; simp)
    · exact back_exact h3
  simp only [Scalars.back, fields, sclOf, List.map_cons, List.map_nil, back_exact h1, back_exact h2, e3]
  simp [orElse, h1.number, h2.number]

/-- Scalars whose numbers have at most 14 digits come back as they were; the standard error may be missing. -/
theorem C50_exact {db : SMap Scl} (hs : SMap.Sorted db) (hn : ∀ e ∈ db, ObjName e.1 ∧ e.1.map toLowerC = e.1)
    (hb : ∀ e ∈ db, Exact e.2) : loadScls (saveScls db) = .ok db := by
  rw [load_save ⟨hs, hn, ?_⟩]
  · refine congrArg Res.ok ?_
    conv_rhs => rw [← List.map_id db]
    refine List.map_congr_left fun e he => ?_
    rw [(hb e he).back]
    rfl
  · intro e he v hv
    obtain ⟨h1, h2, h3⟩ := hb e he
    simp only [fields, List.mem_cons, List.not_mem_nil, or_false] at hv
    rcases hv with rfl | rfl | rfl
    · exact h1.writable
    · exact h2.writable
    · rcases h3 with h3 | h3
      · rw [h3]; exact .inl na_number
      · exact h3.writable

/-- Values that are not numbers, and numbers that are neither too large nor too small. -/
def Normal (v : Dbl) : Prop :=
  isNumber v = false ∨
    ∃ q, v = .num q ∧ Double q ∧ |q| ≤ (10 : Rat) ^ (308 : Int) ∧ (q = 0 ∨ (10 : Rat) ^ (-307 : Int) ≤ |q|)

theorem Normal.bounded {v : Dbl} (h : Normal v) : Bounded v := by
  rcases h with h | ⟨q, h1, h2, h3, _⟩
  · exact .inl h
  · exact .inr ⟨q, h1, h2, h3⟩

set_option exponentiation.threshold 2000 in
theorem back_decimal {v : Dbl} (h : Normal v) (hn : isNumber v = true) : Decimal14 (backP 14 v) := by
  rcases h with h | ⟨q, rfl, hq, hb, h0⟩
  · rw [h] at hn; cases hn
  · refine ⟨sig 10 14 q, backP_num hn, ?_, (nearP (by omega) q).1, ?_, sig_upperP (by omega) hb⟩
    · rw [backP_num hn]
      exact number_keptP (by omega) hn hb
    · rcases h0 with rfl | h0
      · exact .inl (by simp [sig])
      · refine .inr (le_trans ?_ (sig_lowerP (by omega) h0))
        rw [zpow_neg, zpow_neg]
        refine inv_anti₀ (by positivity) ?_
        exact_mod_cast (by norm_num : (10 : Nat) ^ 307 ≤ 2 ^ 1022)

set_option exponentiation.threshold 2000 in
theorem decimal_of {v : Dbl} {s : Rat} (m e : Int) (hv : v = ieee s) (hi : isNumber v = true) (h : |m| < 10 ^ 14)
    (hq : s = m * (10 : Rat) ^ e) (h0 : s = 0 ∨ (1 : Rat) / 1000000 ≤ |s|) (h1 : |s| ≤ 1000000) : Decimal14 v := by
  refine ⟨s, hv, hi, ⟨m, e, by exact_mod_cast h, hq⟩, h0.imp id fun h => le_trans ?_ h, le_trans h1 ?_⟩
  · rw [zpow_neg, one_div]
    refine inv_anti₀ (by norm_num) ?_
    exact_mod_cast (by norm_num : (1000000 : Nat) ≤ 2 ^ 1022)
  · exact_mod_cast (by norm_num : (1000000 : Nat) ≤ 10 ^ 308)

theorem decimal_09 : Decimal14 (ieee (9 / 10)) :=
  decimal_of 9 (-1) rfl (by decide +kernel) (by norm_num) (by norm_num) (.inr (by norm_num [abs_of_pos])) (by norm_num [abs_of_pos])

theorem decimal_1 : Decimal14 (.num 1) :=
  decimal_of (s := 1) 1 0 (by decide +kernel) (by decide +kernel) (by norm_num) (by norm_num) (.inr (by norm_num)) (by norm_num)

theorem orElse_decimal {v d : Dbl} (h : Normal v) (hd : Decimal14 d) : Decimal14 (if isNumber (backP 14 v) then backP 14 v else d) := by
  rw [back_number h.bounded]
  split
  · rename_i hn
    exact back_decimal h hn
  · exact hd

/-- What was loaded from a saved file comes back as it was when it is saved and loaded again. -/
theorem C50_stable {db : SMap Scl} (hs : SMap.Sorted db) (hn : ∀ e ∈ db, ObjName e.1 ∧ e.1.map toLowerC = e.1)
    (hb : ∀ e ∈ db, Normal e.2.value ∧ Normal e.2.relax ∧ Normal e.2.std) :
    ∃ db', loadScls (saveScls db) = .ok db' ∧ loadScls (saveScls db') = .ok db' := by
  have hsv : Saved db := by
    refine ⟨hs, hn, ?_⟩
    intro e he v hv
    obtain ⟨h1, h2, h3⟩ := hb e he
    simp only [fields, List.mem_cons, List.not_mem_nil, or_false] at hv
    rcases hv with rfl | rfl | rfl
    · exact h1.bounded.writable
    · exact h2.bounded.writable
    · exact h3.bounded.writable
  refine ⟨_, load_save hsv, C50_exact (sorted_map hs) ?_ ?_⟩
  · intro e he
    obtain ⟨x, hx, rfl⟩ := List.mem_map.1 he
    exact hn x hx
  · intro e he
    obtain ⟨x, hx, rfl⟩ := List.mem_map.1 he
    obtain ⟨h1, h2, h3⟩ := hb x hx
    refine ⟨orElse_decimal h1 decimal_09, orElse_decimal h2 decimal_1, ?_⟩
    by_cases hi : isNumber x.2.std = true
    · exact .inr (back_decimal h3 hi)
    · exact .inl (backP_na hi)

/-! ## Files that are not well formed -/

theorem skipText_ends {n : Nat} {st : St} (ho : st.Ok) (hn : st.size < n) :
    skipText n st ≠ .err ∧ ∀ s, skipText n st = .ok s → s.Ok ∧ s.size ≤ st.size := by
  induction n generalizing st with
  | zero => omega
  | succ n ih =>
    rw [skipText]
    cases hl : lxs noKeys st with
    | err => exact absurd hl (lxs_ne_err ho)
    | ub => simp [Res.bind]
    | ok p =>
      obtain ⟨l, s1⟩ := p
      obtain ⟨a1, a2, a3, a4⟩ := lxs_size ho hl
      have hu := unread_size a1 a2 a3 a4
      have next : l ≠ .raw .eof → skipText n s1 ≠ .err ∧ ∀ s, skipText n s1 = .ok s → s.Ok ∧ s.size ≤ st.size := by
        intro he
        have hs : s1.size < st.size := by
          rcases a3 with ⟨h, _⟩ | ⟨_, h⟩
          · exact absurd h he
          · exact h
        obtain ⟨b1, b2⟩ := ih a1 (by omega)
        exact ⟨b1, fun s h => ⟨(b2 s h).1, le_trans (b2 s h).2 a4⟩⟩
      simp only [Res.bind]
      split
      · exact ⟨by simp, by rintro s h; cases h; exact hu⟩
      · exact ⟨by simp, by rintro s h; cases h; exact hu⟩
      · rename_i h1 _
        exact next h1

theorem readScl_ends {st : St} (ho : st.Ok) : Ends st.size (readScl st) := by
  rw [readScl]
  have h1 := real_ends (tbl := noKeys) ho
  cases hr1 : real noKeys st with
  | err => exact absurd hr1 h1.1
  | ub => exact Ends.ub
  | ok a =>
    obtain ⟨a, s1⟩ := a
    obtain ⟨o1, z1⟩ := h1.2 a s1 hr1
    simp only [Res.bind]
    have h2 := real_ends (tbl := noKeys) o1
    cases hr2 : real noKeys s1 with
    | err => exact absurd hr2 h2.1
    | ub => exact Ends.ub
    | ok b =>
      obtain ⟨b, s2⟩ := b
      obtain ⟨o2, z2⟩ := h2.2 b s2 hr2
      simp only
      have h3 := real_ends (tbl := noKeys) o2
      cases hr3 : real noKeys s2 with
      | err => exact absurd hr3 h3.1
      | ub => exact Ends.ub
      | ok c =>
        obtain ⟨c, s3⟩ := c
        obtain ⟨o3, z3⟩ := h3.2 c s3 hr3
        simp only
        have h4 := skipText_ends (n := s3.text.length + 2) o3 (by have := size_le s3; omega)
        cases hr4 : skipText (s3.text.length + 2) s3 with
        | err => exact absurd hr4 h4.1
        | ub => exact Ends.ub
        | ok s4 =>
          obtain ⟨o4, z4⟩ := h4.2 s4 hr4
          exact Ends.ok ⟨o4, by omega⟩

theorem sclLoop_ends {n : Nat} {st : St} (ho : st.Ok) (hn : st.size < n) (db : SMap Scl) : sclLoop n st db ≠ .err := by
  induction n generalizing st db with
  | zero => omega
  | succ n ih =>
    rw [sclLoop]
    cases hl : lxs noKeys st with
    | err => exact absurd hl (lxs_ne_err ho)
    | ub => simp [Res.bind]
    | ok p =>
      obtain ⟨l, s1⟩ := p
      obtain ⟨a1, a2, a3, a4⟩ := lxs_size ho hl
      have hs : l ≠ .raw .eof → s1.size < st.size := by
        intro he
        rcases a3 with ⟨h, _⟩ | ⟨_, h⟩
        · exact absurd h he
        · exact h
      simp only [Res.bind]
      split
      · simp
      · have := hs (by simp)
        have he := readScl_ends a1
        cases hr : readScl s1 with
        | err => exact absurd hr he.1
        | ub => simp
        | ok q =>
          obtain ⟨x, s2⟩ := q
          obtain ⟨c1, c4⟩ := he.2 x s2 hr
          exact ih c1 (by omega) _
      · rename_i h1 _
        have := hs h1
        exact ih a1 (by omega) _

/-- Whatever the file is, loading comes to an end (`.err` is the result of a loop that is not at its end when all the characters
    are used). -/
theorem C50_ends (t : Yy.Text) : loadScls t ≠ .err := by
  have ho : St.Ok ⟨.err, false, expand 0 t⟩ := by intro h; cases h
  have hs : St.size ⟨.err, false, expand 0 t⟩ < (expand 0 t).length + 2 := by simp [St.size]
  exact sclLoop_ends ho hs []

/-! ## Examples -/

/-- Two scalars: values with a fraction, a standard error that is missing. -/
def pair : SMap Scl := [(['a', 'l'], ⟨ieee (-12 / 10), .num 1, na⟩), (['b'], ⟨ieee (314159 / 100000), ieee (5 / 10), ieee (1 / 1000)⟩)]

theorem pair_sorted : SMap.Sorted pair := by
  refine ⟨?_, ?_, trivial⟩
  · intro k hk
    simp [SMap.keys] at hk
    subst hk
    decide
  · intro k hk; cases hk

theorem pair_names : ∀ e ∈ pair, ObjName e.1 ∧ e.1.map toLowerC = e.1 := by
  intro e he
  simp only [pair, List.mem_cons, List.not_mem_nil, or_false] at he
  rcases he with rfl | rfl
  · exact ⟨⟨by decide, by decide, by decide, by decide⟩, by decide⟩
  · exact ⟨⟨by decide, by decide, by decide, by decide⟩, by decide⟩

theorem pair_exact : ∀ e ∈ pair, Exact e.2 := by
  intro e he
  simp only [pair, List.mem_cons, List.not_mem_nil, or_false] at he
  rcases he with rfl | rfl
  · exact ⟨decimal_of (-12) (-1) rfl (by decide +kernel) (by norm_num) (by norm_num) (.inr (by norm_num [abs_of_neg]))
      (by norm_num [abs_of_neg]), decimal_1, .inl rfl⟩
  · exact ⟨decimal_of 314159 (-5) rfl (by decide +kernel) (by norm_num) (by norm_num) (.inr (by norm_num [abs_of_pos]))
        (by norm_num [abs_of_pos]),
      decimal_of 5 (-1) rfl (by decide +kernel) (by norm_num) (by norm_num) (.inr (by norm_num [abs_of_pos])) (by norm_num [abs_of_pos]),
      .inr (decimal_of 1 (-3) rfl (by decide +kernel) (by norm_num) (by norm_num) (.inr (by norm_num [abs_of_pos]))
        (by norm_num [abs_of_pos]))⟩

example : loadScls (saveScls pair) = .ok pair := C50_exact pair_sorted pair_names pair_exact

example : saveScls pair = "al -1.2 1 na \nb 3.14159 0.5 0.001 \n".toList := by decide +kernel

theorem normal_third : Normal (.num (6004799503160661 / 2 ^ 54)) := by
  refine .inr ⟨_, rfl, ⟨⟨6004799503160661, -54, by norm_num, by norm_num, by norm_num⟩, ?_⟩, ?_, .inr ?_⟩
  · exact lt_of_lt_of_le (b := 1) (by norm_num [abs_of_pos]) (one_le_pow₀ (by norm_num))
  · have : (10 : Rat) ^ (0 : Int) ≤ (10 : Rat) ^ (308 : Int) := zpow_le_zpow_right₀ (by norm_num) (by norm_num)
    exact le_trans (by norm_num [abs_of_pos]) this
  · have : (10 : Rat) ^ (-307 : Int) ≤ (10 : Rat) ^ (-1 : Int) := zpow_le_zpow_right₀ (by norm_num) (by norm_num)
    exact le_trans this (by norm_num [abs_of_pos])

theorem normal_na : Normal na := .inl na_number

example : ∃ db', loadScls (saveScls [(['a'], ⟨.num (6004799503160661 / 2 ^ 54), na, na⟩)]) = .ok db' ∧
    loadScls (saveScls db') = .ok db' :=
  C50_stable ⟨(by intro k hk; cases hk), trivial⟩
    (by intro e he; rw [List.mem_singleton.1 he]; exact ⟨⟨by decide, by decide, by decide, by decide⟩, by decide⟩)
    (by intro e he; rw [List.mem_singleton.1 he]; exact ⟨normal_third, normal_na, normal_na⟩)

example : ∀ e ∈ ([(['a'], ⟨.num (6004799503160661 / 2 ^ 54), na, na⟩)] : SMap Scl),
    Bounded e.2.value ∧ Bounded e.2.relax ∧ Bounded e.2.std := by
  intro e he
  rw [List.mem_singleton.1 he]
  exact ⟨normal_third.bounded, normal_na.bounded, normal_na.bounded⟩

/-- `b 2.5 A - 1 na // c⏎B`: a comment, a second definition of `b`, values left out. -/
example : ∃ db, loadScls ("b 2.5 A -\t 1 na // c\nB".toList) = .ok db ∧
    SMap.find ['a'] db = some ⟨.num (-1), .num 1, na⟩ ∧ SMap.find ['b'] db = some ⟨ieee (9 / 10), .num 1, na⟩ ∧
    SMap.find ['c'] db = none := by
  have hA : ObjName ['A'] := ⟨by decide, by decide, by decide, by decide⟩
  have hb : ObjName ['b'] := ⟨by decide, by decide, by decide, by decide⟩
  have hB : ObjName ['B'] := ⟨by decide, by decide, by decide, by decide⟩
  have hl : CLaid na ieee [(['b'], [ieee (25 / 10)]), (['A'], [ieee (-1), na]), (['B'], [])]
      ("b 2.5 A -\t 1 na // c\nB".toList.filter kept) := by
    have e : "b 2.5 A -\t 1 na // c\nB".toList.filter kept =
        [] ++ (['b'] ++ ([' '] ++ (['2', '.', '5'] ++ ([' '] ++ (['A'] ++ ([' '] ++ '-' :: (['\t', ' '] ++ (['1'] ++
          ([' '] ++ ('n' :: 'a' :: ((' ' :: '/' :: '/' :: ([' ', 'c'] ++ '\n' :: [])) ++ (['B'] ++ [])))))))))))) := by decide +kernel
    rw [e]
    have hne : ∀ (x : Yy.Text), NumEnd (' ' :: x) ∧ NameEnd (' ' :: x) := by
      intro x
      constructor <;> (intro c hc; cases hc; decide)
    have hg := gap_space
    have n1 : Numeral ['1'] 1 := .inl ⟨by simp only [Digits]; decide, by decide, by decide, by simp [Lec.Written.dec]⟩
    have n25 : Numeral ['2', '.', '5'] (25 / 10) := by
      refine .inr ?_
      have := Lec.Written.Decimal.point (i := ['2']) (f := ['5']) (x := []) (e := 0) (by simp only [Digits]; decide)
        (by simp only [Digits]; decide) (by decide) .none
      rw [show Lec.Written.number ['2'] ['5'] 0 = 25 / 10 by decide +kernel] at this
      simpa using this
    have hcom : Gap (' ' :: '/' :: '/' :: ([' ', 'c'] ++ '\n' :: [])) := .white (by decide) (.line (by decide) .nil)
    refine .scl .nil hb (hne _).2 (.num hg n25 (by decide) (hne _).1 .nil) (by decide) (.inr (by simp)) ?_
    refine .scl hg hA (hne _).2 (.neg hg (.white (by decide) hg) n1 (by decide) (hne _).1 (.na hg (hne _).2 .nil)) (by decide)
      (.inr (by simp)) ?_
    exact .scl (s' := []) hcom hB (by intro c hc; cases hc) .nil (by decide) (.inr (by simp)) (.nil .nil)
  obtain ⟨db, h1, _, h2⟩ := C50_load hl (by decide +kernel)
  refine ⟨db, h1, ?_, ?_, ?_⟩ <;> rw [h2] <;> decide +kernel

/-! ## Where this fails -/

/-- A scalar without a value gets the value 0.9. -/
theorem C50_missing_counterexample : loadScls (saveScls [(['a'], ⟨na, na, na⟩)]) = .ok [(['a'], ⟨ieee (9 / 10), .num 1, na⟩)] := by
  decide +kernel

/-- A third is not restored: 14 digits are not enough. -/
theorem C50_digits_counterexample : Double (6004799503160661 / 2 ^ 54) ∧
    loadScls (saveScls [(['a'], ⟨.num (6004799503160661 / 2 ^ 54), .num 1, .num 2⟩)]) =
      .ok [(['a'], ⟨ieee (33333333333333 / 10 ^ 14), .num 1, .num 2⟩)] ∧
    ieee (33333333333333 / 10 ^ 14) ≠ .num (6004799503160661 / 2 ^ 54) := by
  refine ⟨⟨⟨6004799503160661, -54, by norm_num, by norm_num, by norm_num⟩, ?_⟩, by decide +kernel, by decide +kernel⟩
  exact lt_of_lt_of_le (b := 1) (by norm_num [abs_of_pos]) (one_le_pow₀ (by norm_num))

/-- Infinity is written `inf`, which is read as a name. -/
theorem C50_infinity_counterexample : loadScls (saveScls [(['a'], ⟨.inf, .num 2, .num 3⟩)]) =
    .ok [(['a'], ⟨ieee (9 / 10), .num 1, na⟩), (['i', 'n', 'f'], ⟨.num 2, .num 3, na⟩)] := by decide +kernel

/-- A name with `#` is valid but is not read again as one word. -/
theorem C50_hash_counterexample : checkName .scalars ['a', '#'] = true ∧
    loadScls (saveScls [(['a'], ⟨.num 1, .num 2, .num 3⟩), (['a', '#'], ⟨.num 4, .num 5, .num 6⟩)]) =
      .ok [(['a'], ⟨ieee (9 / 10), .num 1, na⟩)] := by decide +kernel

/-- `na` is a value and a name: a fourth `na` is a scalar. -/
theorem C50_na_counterexample : loadScls ['a', ' ', '1', ' ', '1', ' ', 'n', 'a', ' ', 'n', 'a', ' ', '2'] =
    .ok [(['a'], ⟨.num 1, .num 1, na⟩), (['n', 'a'], ⟨.num 2, .num 1, na⟩)] := by decide +kernel

/-- A number of 255 characters does not fit into the array of `SCR_atof`. -/
theorem C50_long_number_counterexample : loadScls (['a', ' '] ++ List.replicate 255 '1') = .ub := by decide +kernel

end Scalars
end Asc
end Iode
