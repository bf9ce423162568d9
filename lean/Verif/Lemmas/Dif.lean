import Verif.Model.Dif
import Verif.Spec.Dif
import Verif.Lemmas.Import
import Verif.Lemmas.AscEqs
import Verif.Props.C72

/-! # Reading DIF files -/
namespace Iode
namespace Dif
open Yy Asc Printf Imp Dif.Written
open Lec.Written (Gap NameEnd NumEnd NameCh Digit White Digits dec)
open Asc.Written (Lit Numeral)

/-! ## Elements -/

/-- What `YY_lex` makes of an element, and what `yy_type` and `yy_text` are. -/
inductive Lexes : Tok → Lexed Nat → Raw → Prop where
  | key {w k} : findWord keys w = some k → Lexes (.word w) (.key k) (.word w)
  | word {w} : findWord keys w = none → Lexes (.word w) (.raw (.word w)) (.word w)
  | int {n d} : Lec.natOf d = n → n < 10 ^ 9 → Lexes (.int n) (.raw (.long d)) (.long d)
  | num {q r} : IsNum r q → Lexes (.num q) (.raw r) r
  | minus : Lexes (.sign '-') (.raw (.special '-')) (.special '-')
  | comma : Lexes (.sign ',') (.key 6) (.special ',')
  | str {t} : Lexes (.str t) (.raw (.string t)) (.string t)

theorem minus_oper (s : Yy.Text) : findOper keys '-' s = (none, s) := by
  have : operKeys keys '-' = none := by decide +kernel
  rw [findOper, this]

theorem comma_oper (s : Yy.Text) : findOper keys ',' s = (some 6, s) := by
  have : operKeys keys ',' = some (6, []) := by decide +kernel
  rw [findOper, this]

theorem toks_lex {t : Tok} {ts : List Tok} {x z : Yy.Text} (h : Toks (t :: ts) x z) :
    ∃ l r s, Reads keys x l r s ∧ Lexes t l r ∧ Toks ts s z ∧ s.length < x.length := by
  cases h with
  | @word g w _ s _ hg hne hh hw he ht =>
    have h1 := reads_gap (reads_word (tbl := keys) hne hh hw he) hg
    have hl : s.length < (g ++ (w ++ s)).length := by
      have := List.length_pos_iff.2 hne
      simp; omega
    cases hk : findWord keys w with
    | none => rw [hk] at h1; exact ⟨_, _, _, h1, .word hk, ht, hl⟩
    | some k => rw [hk] at h1; exact ⟨_, _, _, h1, .key hk, ht, hl⟩
  | @int g d _ s _ hg hd hne hl he ht =>
    have h1 : Reads keys (d ++ s) (.raw (.long d)) (.long d) s :=
      reads_of (Lec.read_long hd hne hl he) (by simp) (by simp) (by simp) rfl
    refine ⟨_, _, _, reads_gap h1 hg, .int (Lec.natOf_eq _) (lt_of_lt_of_le (dec_lt hd) (Nat.pow_le_pow_right (by omega) hl)), ht, ?_⟩
    have := List.length_pos_iff.2 hne
    simp; omega
  | @num g t r _ s _ hg hn hl he ht =>
    obtain ⟨r, h1, h2⟩ := reads_num (tbl := keys) hn hl he
    refine ⟨_, _, _, reads_gap h1 hg, .num h2, ht, ?_⟩
    have := numeral_ne hn
    simp; omega
  | @sign g c _ s _ hg hc ht =>
    rcases hc with rfl | rfl
    · have h1 : Reads keys ('-' :: s) (.raw (.special '-')) (.special '-') s :=
        reads_of (Lec.read_special (by decide) s) (by simp) (by simp) (by simp) (by simp only [classify, minus_oper])
      exact ⟨_, _, _, reads_gap h1 hg, .minus, ht, by simp; omega⟩
    · have h1 : Reads keys (',' :: s) (.key 6) (.special ',') s :=
        reads_of (Lec.read_special (by decide) s) (by simp) (by simp) (by simp) (by simp only [classify, comma_oper])
      exact ⟨_, _, _, reads_gap h1 hg, .comma, ht, by simp; omega⟩
  | @str g t b _ s _ hg hl ht =>
    exact ⟨_, _, _, reads_gap (reads_string hl s) hg, .str, ht, by simp; omega⟩

/-- The elements in front of the reader, and the text behind them. -/
def At (ts : List Tok) (z : Yy.Text) (st : St) : Prop := st.back = false ∧ Toks ts st.text z

theorem At.lex {t : Tok} {ts : List Tok} {z : Yy.Text} {st : St} (h : At (t :: ts) z st) :
    ∃ l st', lxs keys st = .ok (l, st') ∧ Lexes t l st'.typ ∧ At ts z st' ∧ st'.text.length < st.text.length := by
  obtain ⟨typ, back, x⟩ := st
  obtain ⟨rfl, h⟩ := h
  obtain ⟨l, r, s, h1, h2, h3, h4⟩ := toks_lex h
  exact ⟨l, _, h1.lxs typ, h2, ⟨rfl, h3⟩, h4⟩

theorem At.key {w : Yy.Text} {k : Nat} (hk : findWord keys w = some k) {ts : List Tok} {z : Yy.Text} {st : St}
    (h : At (.word w :: ts) z st) : ∃ st', lxs keys st = .ok (.key k, st') ∧ At ts z st' ∧ st'.text.length < st.text.length := by
  obtain ⟨l, st', h1, h2, h3⟩ := h.lex
  generalize hr : st'.typ = r at h2
  cases h2 with
  | key h => rw [hk] at h; cases h; exact ⟨st', h1, h3⟩
  | word h => rw [hk] at h; cases h

theorem At.int {n : Nat} {ts : List Tok} {z : Yy.Text} {st : St} (h : At (.int n :: ts) z st) :
    ∃ d st', Lec.natOf d = n ∧ n < 10 ^ 9 ∧ lxs keys st = .ok (.raw (.long d), st') ∧ At ts z st' ∧ st'.text.length < st.text.length := by
  obtain ⟨l, st', h1, h2, h3⟩ := h.lex
  generalize hr : st'.typ = r at h2
  cases h2 with
  | int h h' => exact ⟨_, st', h, h', h1, h3⟩

theorem At.num {q : Rat} {ts : List Tok} {z : Yy.Text} {st : St} (h : At (.num q :: ts) z st) :
    ∃ r st', IsNum r q ∧ lxs keys st = .ok (.raw r, st') ∧ At ts z st' ∧ st'.text.length < st.text.length := by
  obtain ⟨l, st', h1, h2, h3⟩ := h.lex
  generalize hr : st'.typ = r at h2
  cases h2 with
  | num h => exact ⟨_, st', h, h1, h3⟩

theorem At.minus {ts : List Tok} {z : Yy.Text} {st : St} (h : At (.sign '-' :: ts) z st) :
    ∃ st', lxs keys st = .ok (.raw (.special '-'), st') ∧ At ts z st' ∧ st'.text.length < st.text.length := by
  obtain ⟨l, st', h1, h2, h3⟩ := h.lex
  generalize hr : st'.typ = r at h2
  cases h2 with
  | minus => exact ⟨st', h1, h3⟩

theorem At.str {t : Yy.Text} {ts : List Tok} {z : Yy.Text} {st : St} (h : At (.str t :: ts) z st) :
    ∃ st', lxs keys st = .ok (.raw (.string t), st') ∧ At ts z st' ∧ st'.text.length < st.text.length := by
  obtain ⟨l, st', h1, h2, h3⟩ := h.lex
  generalize hr : st'.typ = r at h2
  cases h2 with
  | str => exact ⟨st', h1, h3⟩

theorem At.eof {st : St} {z : Yy.Text} (h : At [] z st) (hg : Gap z) : lxs keys st = .ok (.raw .eof, ⟨.eof, false, []⟩) := by
  obtain ⟨typ, back, x⟩ := st
  obtain ⟨rfl, h⟩ := h
  cases h
  have := reads_gap (reads_eof keys) hg
  rw [List.append_nil] at this
  exact this.lxs typ

theorem At.any {t : Tok} {ts : List Tok} {z : Yy.Text} {st : St} (h : At (t :: ts) z st) :
    ∃ l st', lxs keys st = .ok (l, st') ∧ At ts z st' ∧ st'.text.length < st.text.length := by
  obtain ⟨l, st', h1, _, h2⟩ := h.lex
  exact ⟨l, st', h1, h2⟩

/-! ## Skipping -/

/-- The words that are looked for. -/
inductive Goal : String → Nat → Prop where
  | bot : Goal "BOT" 5
  | vectors : Goal "VECTORS" 3
  | tuples : Goal "TUPLES" 8

theorem find_eod : findWord keys "EOD".toList = some 1 := by decide +kernel

theorem Goal.find {s : String} {k : Nat} (h : Goal s k) : findWord keys s.toList = some k := by cases h <;> decide +kernel

theorem find_inv : ∀ e ∈ keys, (e.2 = 1 → e.1 = "EOD".toList) ∧ (e.2 = 5 → e.1 = "BOT".toList) ∧ (e.2 = 3 → e.1 = "VECTORS".toList) ∧
    (e.2 = 8 → e.1 = "TUPLES".toList) := by decide +kernel

theorem find_mem {w : Yy.Text} {k : Nat} (h : findWord keys w = some k) : (w, k) ∈ keys := by
  rw [findWord] at h
  cases hf : keys.find? (fun e => e.1 = w) with
  | none => rw [hf] at h; cases h
  | some e =>
    rw [hf] at h
    have h1 := List.find?_some hf
    have h2 := List.mem_of_find?_eq_some hf
    simp only [decide_eq_true_eq] at h1
    simp only [Option.map_some, Option.some.injEq] at h
    rw [← h1, ← h]
    exact h2

theorem Lexes.stops {s : String} {k : Nat} (hg : Goal s k) {t : Tok} {l : Lexed Nat} {r : Raw} (h : Lexes t l r) (h1 : t ≠ kw "EOD")
    (h2 : t ≠ kw s) : l ≠ .raw .eof ∧ l ≠ .key 1 ∧ l ≠ .key k := by
  cases h with
  | @key w k' hk =>
    obtain ⟨e1, e2, e3, e4⟩ := find_inv _ (find_mem hk)
    refine ⟨by simp, fun e => ?_, fun e => ?_⟩
    · cases e; exact h1 (by rw [kw, ← e1 rfl])
    · cases e
      cases hg with
      | bot => exact h2 (by rw [kw, ← e2 rfl])
      | vectors => exact h2 (by rw [kw, ← e3 rfl])
      | tuples => exact h2 (by rw [kw, ← e4 rfl])
  | word => simp
  | int => simp
  | num h => rcases h with ⟨d, rfl, _⟩ | ⟨d, rfl, _⟩ <;> simp
  | minus => simp
  | comma => refine ⟨by simp, by simp, fun e => ?_⟩; cases e; cases hg
  | str => simp

theorem skipTo_free {s : String} {k : Nat} (hg : Goal s k) {j : List Tok} (hj : Free s j) : ∀ {ts : List Tok} {z : Yy.Text} {st : St}
    (_ : At (j ++ ts) z st) (n : Nat) (_ : st.text.length + 1 < n),
    ∃ st' n', skipTo k n st = skipTo k n' st' ∧ At ts z st' ∧ st'.text.length + 1 < n' ∧ st'.text.length ≤ st.text.length := by
  induction j with
  | nil => intro ts z st h n hn; exact ⟨st, n, rfl, h, hn, le_refl _⟩
  | cons t j ih =>
    intro ts z st h n hn
    obtain ⟨l, st1, h1, h2, h3, h4⟩ := At.lex h
    obtain ⟨a, b⟩ := hj t (by simp)
    obtain ⟨e1, e2, e3⟩ := h2.stops hg a b
    cases n with
    | zero => omega
    | succ n =>
      obtain ⟨st', n', k1, k2, k3, k4⟩ := ih (fun t ht => hj t (by simp [ht])) h3 n (by omega)
      refine ⟨st', n', ?_, k2, k3, by omega⟩
      rw [skipTo, h1]
      simp only [Res.bind]
      rw [if_neg (by simp [e1, e2]), if_neg e3, k1]

theorem skip_ok {s : String} {k : Nat} (hg : Goal s k) {j ts : List Tok} (hj : Free s j) {z : Yy.Text} {st : St}
    (h : At (j ++ kw s :: ts) z st) : ∃ st', skip k st = .ok (true, st') ∧ At ts z st' ∧ st'.text.length < st.text.length := by
  obtain ⟨st1, n, h1, h2, h3, h4⟩ := skipTo_free hg hj h (st.text.length + 2) (by omega)
  obtain ⟨st2, k1, k2, k3⟩ := At.key hg.find h2
  refine ⟨st2, ?_, k2, by omega⟩
  rw [skip, h1]
  cases n with
  | zero => omega
  | succ n =>
    rw [skipTo, k1]
    simp only [Res.bind]
    rw [if_neg (by cases hg <;> simp), if_pos trivial]

theorem skip_eod {s : String} {k : Nat} (hg : Goal s k) {j ts : List Tok} (hj : Free s j) {z : Yy.Text} {st : St}
    (h : At (j ++ kw "EOD" :: ts) z st) : ∃ st', skip k st = .ok (false, st') ∧ At ts z st' ∧ st'.text.length < st.text.length := by
  obtain ⟨st1, n, h1, h2, h3, h4⟩ := skipTo_free hg hj h (st.text.length + 2) (by omega)
  obtain ⟨st2, k1, k2, k3⟩ := At.key find_eod h2
  refine ⟨st2, ?_, k2, by omega⟩
  rw [skip, h1]
  cases n with
  | zero => omega
  | succ n =>
    rw [skipTo, k1]
    simp only [Res.bind]
    rw [if_pos (.inr trivial)]

theorem skip_eof {s : String} {k : Nat} (hg : Goal s k) {j : List Tok} (hj : Free s j) {z : Yy.Text} {st : St}
    (h : At j z st) (hz : Gap z) : skip k st = .ok (false, ⟨.eof, false, []⟩) := by
  obtain ⟨st1, n, h1, h2, h3, h4⟩ := skipTo_free hg hj (ts := []) (by rwa [List.append_nil]) (st.text.length + 2) (by omega)
  rw [skip, h1]
  cases n with
  | zero => omega
  | succ n =>
    rw [skipTo, h2.eof hz]
    simp only [Res.bind]
    rw [if_pos (.inl trivial)]

theorem skip_comma {ts : List Tok} {z : Yy.Text} {st : St} (h : At (.sign ',' :: ts) z st) :
    ∃ st', skip 6 st = .ok (true, st') ∧ At ts z st' ∧ st'.text.length < st.text.length := by
  obtain ⟨l, st', h1, h2, h3⟩ := h.lex
  generalize hr : st'.typ = r at h2
  cases h2 with
  | comma =>
    refine ⟨st', ?_, h3⟩
    rw [skip, skipTo, h1]
    simp only [Res.bind]
    rw [if_neg (by simp), if_pos trivial]

/-! ## Cells -/

theorem long_int {n : Nat} {ts : List Tok} {z : Yy.Text} {st : St} (h : At (.int n :: ts) z st) :
    ∃ st', long st = .ok ((n : Int), st') ∧ At ts z st' ∧ st'.text.length < st.text.length := by
  obtain ⟨d, st', h1, _, h2, h3⟩ := h.int
  refine ⟨st', ?_, h3⟩
  rw [long, readLong, h2]
  simp only [Res.bind, Bool.false_eq_true, if_false, h1]

theorem strCell_ok {n : Nat} {t : Yy.Text} (ht : ∀ c ∈ t, c.toNat ≠ 0) {ts : List Tok} {z : Yy.Text} {st : St}
    (h : At (textCell n t ++ ts) z st) : ∃ st', strCell st = .ok (.got t, st') ∧ At ts z st' ∧ st'.text.length < st.text.length := by
  obtain ⟨s1, a1, h, l1⟩ := long_int h
  obtain ⟨s2, a2, h, l2⟩ := skip_comma h
  obtain ⟨s3, a3, h, l3⟩ := long_int h
  obtain ⟨s4, a4, h, l4⟩ := At.str h
  refine ⟨s4, ?_, h, by omega⟩
  have hc : cstr t = t := by
    rw [cstr, List.takeWhile_eq_self_iff]
    intro c hc
    simpa using ht c hc
  rw [strCell, a1]
  simp only [Res.bind]
  rw [if_neg (by simp), if_pos (by simp), a2]
  simp only [if_true]
  rw [a3]
  simp only
  rw [a4]
  simp only [hc]

theorem real_at {st st' : St} {r : Raw} {q : Rat} (h : lxs keys st = .ok (.raw r, st')) (hr : IsNum r q) (n : Nat) (neg : Bool) :
    readReal keys (n + 1) neg st = .ok (signed neg (ieee q), st') := by
  rw [readReal, h]
  simp only [Res.bind]
  rcases hr with ⟨d, rfl, h1, h2⟩ | ⟨t, rfl, h1⟩
  · simp only
    rw [← h2, ieee_whole h1]
  · simp only
    rw [h1]

theorem real_val {v : SVal} {ts : List Tok} {z : Yy.Text} {st : St} (h : At (v.toks ++ ts) z st) :
    ∃ st', real keys st = .ok (v.val na ieee, st') ∧ At ts z st' ∧ st'.text.length < st.text.length := by
  cases v with
  | num q =>
    obtain ⟨r, st', h1, h2, h3⟩ := At.num h
    refine ⟨st', ?_, h3⟩
    rw [real, real_at h2 h1, signed_false]
    rfl
  | neg q =>
    obtain ⟨s1, h1, h, l1⟩ := At.minus h
    obtain ⟨r, st', h3, h4, h5, l2⟩ := At.num h
    refine ⟨st', ?_, h5, by omega⟩
    have e : readReal keys (st.text.length + 2) false st = readReal keys (st.text.length + 1) true s1 := by
      rw [readReal, h1]
      simp only [Res.bind, if_true]
    rw [real, e, real_at h4 h3, ← ieee_neg]
    rfl
  | na =>
    obtain ⟨l, st', h1, h2, h3⟩ := At.lex h
    generalize hr : st'.typ = r at h2
    cases h2 with
    | key hk => rw [show findWord keys "na".toList = none by decide +kernel] at hk; cases hk
    | word hk =>
      refine ⟨st', ?_, h3⟩
      rw [real, readReal, h1]
      simp only [Res.bind]
      rw [if_pos (by decide)]
      rfl

theorem numCell_val {v : SVal} {x : Tok} {ts : List Tok} {z : Yy.Text} {st : St} (h : At (valueCell v x ++ ts) z st) :
    ∃ st', numCell st = .ok (some (.got (v.val na ieee)), st') ∧ At ts z st' ∧ st'.text.length < st.text.length := by
  rw [valueCell, List.append_assoc, List.append_assoc] at h
  obtain ⟨s1, a1, h, l1⟩ := long_int h
  obtain ⟨s2, a2, h, l2⟩ := skip_comma h
  obtain ⟨s3, a3, h, l3⟩ := real_val h
  obtain ⟨l, s4, a4, h, l4⟩ := At.any h
  refine ⟨s4, ?_, h, by omega⟩
  rw [numCell, a1]
  simp only [Res.bind]
  rw [if_pos (by simp), a2]
  simp only [if_true]
  rw [a3]
  simp only
  rw [a4]

theorem numCell_count {n : Nat} {x : Tok} {ts : List Tok} {z : Yy.Text} {st : St} (h : At (countCell n x ++ ts) z st) :
    n < 10 ^ 9 ∧ ∃ st', numCell st = .ok (some (.got (.num n)), st') ∧ At ts z st' ∧ st'.text.length < st.text.length := by
  obtain ⟨s1, a1, h, l1⟩ := long_int h
  obtain ⟨s2, a2, h, l2⟩ := skip_comma h
  obtain ⟨d, s3, e3, hn, a3, h, l3⟩ := At.int h
  obtain ⟨l, s4, a4, h, l4⟩ := At.any h
  refine ⟨hn, s4, ?_, h, by omega⟩
  rw [numCell, a1]
  simp only [Res.bind]
  rw [if_pos (by simp), a2]
  simp only [if_true]
  rw [real, readReal, a3]
  simp only [Res.bind, signed_false, e3]
  rw [a4]

theorem toInt_count {n : Nat} (h : n < 10 ^ 9) : toInt (.num n) = .ok (n : Int) := by
  have h0 : (0 : Rat) ≤ n := by exact_mod_cast Nat.zero_le n
  rw [toInt]
  simp only [if_pos h0]
  have hf : (n : Rat).floor = (n : Int) := by
    have := Rat.floor_intCast (n : Int)
    simpa using this
  rw [hf, if_pos (by omega)]

/-! ## The header -/

/-- What is read in front of the row of headings. -/
theorem readHeader_head {n : Nat} {h ts : List Tok} (hh : Head n h) {z : Yy.Text} {st : St} (ha : At (h ++ ts) z st) :
    ∃ st', readHeader st = ((corner st').bind fun s => headPeriods ((n : Int) - 1) s) ∧ At ts z st' := by
  cases hh with
  | @mk j1 j2 j3 x1 x2 m f1 f2 f3 =>
    simp only [List.cons_append, List.append_assoc] at ha
    obtain ⟨s1, a1, ha, _⟩ := At.key (w := "TABLE".toList) (k := 2) (by decide +kernel) ha
    obtain ⟨s2, a2, ha, _⟩ := skip_ok .vectors f1 ha
    obtain ⟨hn, s3, a3, ha, _⟩ := numCell_count ha
    obtain ⟨s4, a4, ha, _⟩ := skip_ok .tuples f2 ha
    obtain ⟨hm, s5, a5, ha, _⟩ := numCell_count ha
    obtain ⟨s6, a6, ha, _⟩ := skip_ok .bot f3 ha
    refine ⟨s6, ?_, ha⟩
    rw [readHeader, a1]
    simp only [Res.bind, ne_eq, not_true_eq_false, if_false]
    rw [a2]
    simp only [Bool.true_eq_false, if_false]
    rw [a3]
    simp only
    rw [toInt_count hn]
    simp only
    rw [a4]
    simp only [Bool.true_eq_false, if_false]
    rw [a5]
    simp only
    rw [toInt_count hm]
    simp only
    rw [a6]
    simp only [Bool.true_eq_false, if_false]

theorem corner_ok {n : Nat} {t : Yy.Text} (ht : ∀ c ∈ t, c.toNat ≠ 0) {ts : List Tok} {z : Yy.Text} {st : St}
    (h : At (textCell n t ++ ts) z st) : ∃ st', corner st = .ok st' ∧ At ts z st' := by
  obtain ⟨st', h1, h2, _⟩ := strCell_ok ht h
  refine ⟨st', ?_, h2⟩
  rw [corner, h1]
  rfl

theorem parse_per {t : Yy.Text} {p : Period} (h : Period.parse t = .ok p) : ∃ nb, nbPeriodsPerYear p.periodicity = .ok nb := by
  unfold Period.parse at h
  split at h
  · cases h
  split at h
  · cases h
  cases hm : nbPeriodsPerYear (toUpperC (Period.charAt t 4)) with
  | err => simp only [hm] at h; cases h
  | ub => simp only [hm] at h; cases h
  | ok mx =>
    refine ⟨mx, ?_⟩
    simp only [hm] at h
    cases hy : stoi (t.take 4) with
    | err => simp only [hy] at h; cases h
    | ub => simp only [hy] at h; cases h
    | ok y =>
      simp only [hy] at h
      cases hs : Period.parseStep t with
      | err => simp only [hs] at h; cases h
      | ub => simp only [hs] at h; cases h
      | ok s =>
        simp only [hs] at h
        change (if s > mx then Res.err else Res.ok _) = _ at h
        split at h
        · cases h
        · cases h
          exact hm

theorem per_nonzero {c : Char} {nb : Int} (h : nbPeriodsPerYear c = .ok nb) : c.toNat ≠ 0 := by
  intro h0
  have : c = Char.ofNat 0 := by
    apply Char.ext
    apply UInt32.toNat_inj.1
    exact h0
  rw [this] at h
  revert h
  exact fun h => absurd h (by simp [nbPeriodsPerYear])

theorem sample_one {p : Period} (h : ∃ nb, nbPeriodsPerYear p.periodicity = .ok nb) : Sample.ofPeriods p p = .ok ⟨p, p, 1⟩ := by
  obtain ⟨nb, h⟩ := h
  have hd : p.difference p = .ok 0 := by
    rw [Period.difference, if_neg (by simp), h]
    change Res.ok (nb * (p.year - p.year) + (p.step - p.step)) = _
    congr 1
    rw [Int.sub_self, Int.sub_self]
    simp
  rw [Sample.ofPeriods, hd]
  rfl

theorem headPeriods_one {n : Nat} {t : Yy.Text} (ht : ∀ c ∈ t, c.toNat ≠ 0) {p : Period} (hp : Period.parse t = .ok p) {ts : List Tok}
    {z : Yy.Text} {st : St} (h : At (textCell n t ++ ts) z st) :
    ∃ st', headPeriods 1 st = ((skip 5 st').bind fun b => .ok (if b.1 then some ⟨p, p, 1⟩ else none, b.2)) ∧ At ts z st' := by
  obtain ⟨st', h1, h2, _⟩ := strCell_ok ht h
  refine ⟨st', ?_, h2⟩
  rw [headPeriods, if_neg (by omega), h1]
  simp only [Res.bind]
  rw [hp]
  simp only [Int.sub_self, Int.toNat_zero, headLoop]
  rw [sample_one (parse_per hp)]
  simp

theorem headPeriods_two {ny : Int} (hy : 2 ≤ ny) {n m : Nat} {t u : Yy.Text} (ht : ∀ c ∈ t, c.toNat ≠ 0) (hu : ∀ c ∈ u, c.toNat ≠ 0)
    {p q : Period} (hp : Period.parse t = .ok p) (hq : Period.parse u = .ok q) {ts : List Tok} {z : Yy.Text} {st : St}
    (h : At (textCell n t ++ (textCell m u ++ ts)) z st) : ∃ st', headPeriods ny st = .ok (none, st') := by
  obtain ⟨s1, h1, h2, _⟩ := strCell_ok ht h
  obtain ⟨s2, h3, _, _⟩ := strCell_ok hu h2
  refine ⟨s2, ?_⟩
  obtain ⟨k, hk⟩ : ∃ k, (ny - 1).toNat = k + 1 := ⟨(ny - 2).toNat, by omega⟩
  rw [headPeriods, if_neg (by omega), h1]
  simp only [Res.bind]
  rw [hp]
  simp only [hk]
  rw [headLoop, h3]
  simp only [Res.bind]
  rw [hq]
  simp only
  obtain ⟨nb, hn⟩ := parse_per hp
  rw [if_pos (per_nonzero hn)]

theorem headPeriods_err {ny : Int} (hy : 1 ≤ ny) {n : Nat} {t : Yy.Text} (ht : ∀ c ∈ t, c.toNat ≠ 0) (hp : Period.parse t = .err)
    {ts : List Tok} {z : Yy.Text} {st : St} (h : At (textCell n t ++ ts) z st) : headPeriods ny st = .err := by
  obtain ⟨s1, h1, h2, _⟩ := strCell_ok ht h
  rw [headPeriods, if_neg (by omega), h1]
  simp only [Res.bind]
  rw [hp]

/-- Whatever the file, a header that is accepted has one period. -/
theorem headPeriods_sample {ny : Int} {st st' : St} {smp : Sample} (h : headPeriods ny st = .ok (some smp, st')) :
    ny = 1 ∧ ∃ p, smp = ⟨p, p, 1⟩ := by
  rw [headPeriods] at h
  by_cases h0 : ny ≤ 0
  · rw [if_pos h0] at h; cases h
  rw [if_neg h0] at h
  cases hc : strCell st with
  | err => rw [hc] at h; cases h
  | ub => rw [hc] at h; cases h
  | ok c =>
    rw [hc] at h
    simp only [Res.bind] at h
    cases hg : c.1 with
    | null => rw [hg] at h; cases h
    | same => rw [hg] at h; cases h
    | got t =>
      rw [hg] at h
      simp only at h
      cases hp : Period.parse t with
      | err => rw [hp] at h; cases h
      | ub => rw [hp] at h; cases h
      | ok p =>
        rw [hp] at h
        simp only at h
        obtain ⟨nb, hn⟩ := parse_per hp
        cases hk : (ny - 1).toNat with
        | zero =>
          have h1 : ny = 1 := by omega
          subst h1
          rw [hk, headLoop] at h
          simp only at h
          rw [sample_one ⟨nb, hn⟩] at h
          simp only [ne_eq, not_true_eq_false, if_false] at h
          cases hs : skip 5 c.2 with
          | err => rw [hs] at h; cases h
          | ub => rw [hs] at h; cases h
          | ok b =>
            rw [hs] at h
            simp only at h
            cases hb : b.1 with
            | false => rw [hb] at h; cases h
            | true => rw [hb] at h; cases h; exact ⟨rfl, p, rfl⟩
        | succ k =>
          rw [hk, headLoop] at h
          cases hc2 : strCell c.2 with
          | err => rw [hc2] at h; cases h
          | ub => rw [hc2] at h; cases h
          | ok d =>
            rw [hc2] at h
            simp only [Res.bind] at h
            cases hg2 : d.1 with
            | null => rw [hg2] at h; cases h
            | same => rw [hg2] at h; cases h
            | got u =>
              rw [hg2] at h
              simp only at h
              cases hq : Period.parse u with
              | err => rw [hq] at h; cases h
              | ub => rw [hq] at h; cases h
              | ok q =>
                rw [hq] at h
                simp only at h
                rw [if_pos (per_nonzero hn)] at h
                cases h

theorem bind_ok {α β : Type} {x : Res α} {f : α → Res β} {b : β} (h : x.bind f = .ok b) : ∃ a, x = .ok a ∧ f a = .ok b := by
  cases x with
  | ok a => exact ⟨a, rfl, h⟩
  | err => cases h
  | ub => cases h

theorem readHeader_sample {st st' : St} {smp : Sample} (h : readHeader st = .ok (some smp, st')) : ∃ p, smp = ⟨p, p, 1⟩ := by
  rw [readHeader] at h
  obtain ⟨p1, _, h⟩ := bind_ok h
  split at h
  · cases h
  obtain ⟨p2, _, h⟩ := bind_ok h
  split at h
  · cases h
  obtain ⟨p3, _, h⟩ := bind_ok h
  split at h
  · cases h
  · obtain ⟨ny, _, h⟩ := bind_ok h
    obtain ⟨p4, _, h⟩ := bind_ok h
    split at h
    · cases h
    obtain ⟨p5, _, h⟩ := bind_ok h
    split at h
    · cases h
    · obtain ⟨_, _, h⟩ := bind_ok h
      obtain ⟨p6, _, h⟩ := bind_ok h
      split at h
      · cases h
      obtain ⟨s, _, h⟩ := bind_ok h
      exact (headPeriods_sample h).2
  · cases h

/-! ## Rows -/

/-- The variables of rows. -/
def varsOf (rs : List (Yy.Text × SVal)) : List (Yy.Text × List Dbl) := rs.map fun e => (e.1, [e.2.val na ieee])

theorem readVariable_row {n : Nat} {w : Yy.Text} (hw : ∀ c ∈ w, c.toNat ≠ 0) (hl : w.length ≤ 79) {v : SVal} {x : Tok} {ts : List Tok}
    {z : Yy.Text} {st : St} (h : At (textCell n w ++ (valueCell v x ++ ts)) z st) :
    ∃ st', readVariable 1 st = ((skip 5 st').bind fun b => .ok (some (w, [v.val na ieee]), b.2)) ∧ At ts z st' ∧
      st'.text.length < st.text.length := by
  obtain ⟨s1, h1, h, l1⟩ := strCell_ok hw h
  obtain ⟨s2, h2, h, l2⟩ := numCell_val h
  refine ⟨s2, ?_, h, by omega⟩
  rw [readVariable, h1]
  simp only [Res.bind]
  rw [vals, h2]
  simp only [Res.bind, vals, Option.map_some]
  rw [List.take_of_length_le hl]

theorem readVariable_eof {st : St} (h : lxs keys st = .ok (.raw .eof, ⟨.eof, false, []⟩)) (dim : Nat) :
    ∃ st', readVariable dim st = .ok (none, st') := by
  have hl : long st = .ok (0, ⟨.eof, true, []⟩) := by
    rw [long, readLong, h]
    rfl
  have hb : lxs keys ⟨.eof, true, []⟩ = .ok (.raw .eof, ⟨.eof, false, []⟩) := rfl
  have hs : skip 6 ⟨.eof, true, []⟩ = .ok (false, ⟨.eof, false, []⟩) := by
    rw [skip, skipTo, hb]
    rfl
  refine ⟨⟨.eof, false, []⟩, ?_⟩
  rw [readVariable, strCell, hl]
  simp only [Res.bind, if_true]
  rw [hs]
  rfl

theorem row_step {rules : List Rule} (hp : Plain rules) {st s2 : St} {w : Yy.Text} {vs : List Dbl} {o : Option Yy.Text}
    (h : readVariable 1 st = .ok (some (w, vs), s2)) (hc : Written.Chosen (Grep.Cut Grep.noCase) w rules o) (n : Nat) (db : SMap (List Dbl)) :
    varLoop rules 1 (n + 1) st db = match o with
      | none => varLoop rules 1 n s2 db
      | some name => (put .variables name vs db).bind fun db => varLoop rules 1 n s2 db := by
  rw [varLoop, h]
  simp only [Res.bind]
  rw [change_chosen hp hc]
  cases o <;> rfl

theorem varLoop_rows {rules : List Rule} (hp : Plain rules) {z : Yy.Text} (hz : Gap z) {rs : List (Yy.Text × SVal)} {ts : List Tok}
    (hr : Rows rs ts) (hw : ∀ e ∈ rs, (∀ c ∈ e.1, c.toNat ≠ 0) ∧ e.1.length ≤ 79) : ∀ {left : List (Yy.Text × List Dbl)}
    (_ : Imp.Written.Renamed (Grep.Cut Grep.noCase) rules (varsOf rs) left) {st : St} (_ : At ts z st) (n : Nat) (_ : st.text.length + 1 < n)
    (db : SMap (List Dbl)), varLoop rules 1 n st db = Imp.puts .variables left db := by
  have fin : ∀ {w : Yy.Text} {v : SVal} {left : List (Yy.Text × List Dbl)}
      (_ : Imp.Written.Renamed (Grep.Cut Grep.noCase) rules (varsOf [(w, v)]) left) {st s2 : St} (_ : readVariable 1 st = .ok (some (w, [v.val na ieee]), s2))
      (_ : lxs keys s2 = .ok (.raw .eof, ⟨.eof, false, []⟩)) (n : Nat) (_ : 1 < n) (db : SMap (List Dbl)),
      varLoop rules 1 n st db = Imp.puts .variables left db := by
    intro w v left hk st s2 h1 h2 n hn db
    obtain ⟨n, rfl⟩ : ∃ m, n = m + 2 := ⟨n - 2, by omega⟩
    obtain ⟨s3, h3⟩ := readVariable_eof h2 1
    have hend : ∀ db, varLoop rules 1 (n + 1) s2 db = .ok db := by
      intro db
      rw [varLoop, h3]
      rfl
    cases hk with
    | drop hc hk => cases hk; rw [row_step hp h1 hc]; exact hend db
    | keep hc hk =>
      cases hk
      rw [row_step hp h1 hc, Imp.puts]
      simp only [Imp.puts]
      congr 1
      funext db
      exact hend db
  induction hr with
  | @last w v x m j hj =>
    intro left hk st h n hn db
    obtain ⟨hw1, hw2⟩ := hw (w, v) (by simp)
    obtain ⟨s1, h1, h, l1⟩ := readVariable_row hw1 hw2 h
    obtain ⟨s2, h2, h, l2⟩ := skip_eod .bot hj h
    rw [h2] at h1
    exact fin hk h1 (h.eof hz) n (by omega) db
  | @cut w v x m j hj =>
    intro left hk st h n hn db
    obtain ⟨hw1, hw2⟩ := hw (w, v) (by simp)
    obtain ⟨s1, h1, h, l1⟩ := readVariable_row hw1 hw2 h
    rw [skip_eof .bot hj h hz] at h1
    exact fin hk h1 (by rfl) n (by omega) db
  | @more w v x m j rs ts hj hr ih =>
    intro left hk st h n hn db
    obtain ⟨hw1, hw2⟩ := hw (w, v) (by simp)
    obtain ⟨s1, h1, h, l1⟩ := readVariable_row hw1 hw2 h
    obtain ⟨s2, h2, h, l2⟩ := skip_ok .bot hj h
    rw [h2] at h1
    have hw' : ∀ e ∈ rs, (∀ c ∈ e.1, c.toNat ≠ 0) ∧ e.1.length ≤ 79 := fun e he => hw e (by simp [he])
    obtain ⟨n, rfl⟩ : ∃ m, n = m + 1 := ⟨n - 1, by omega⟩
    cases hk with
    | drop hc hk => rw [row_step hp h1 hc]; exact ih hw' hk h n (by omega) db
    | keep hc hk =>
      rw [row_step hp h1 hc, Imp.puts]
      simp only
      congr 1
      funext db
      exact ih hw' hk h n (by omega) db

/-- Every variable has as many values as the sample has periods. -/
theorem vals_length {n : Nat} : ∀ {prev : Option Dbl} {st st' : St} {vs : List Dbl}, vals n prev st = .ok (some vs, st') → vs.length = n := by
  induction n with
  | zero => intro prev st st' vs h; rw [vals] at h; cases h; rfl
  | succ n ih =>
    intro prev st st' vs h
    rw [vals] at h
    obtain ⟨p, _, h⟩ := bind_ok h
    split at h
    · cases h
    · split at h
      · cases h
      · obtain ⟨r, hr, h⟩ := bind_ok h
        obtain ⟨o, s⟩ := r
        cases o with
        | none => cases h
        | some l =>
          cases h
          rw [List.length_cons, ih hr]

theorem readVariable_length {dim : Nat} {st st' : St} {w : Yy.Text} {vs : List Dbl} (h : readVariable dim st = .ok (some (w, vs), st')) :
    vs.length = dim := by
  rw [readVariable] at h
  obtain ⟨c, _, h⟩ := bind_ok h
  split at h
  · obtain ⟨r, hr, h⟩ := bind_ok h
    obtain ⟨o, s⟩ := r
    cases o with
    | none => cases h
    | some l =>
      obtain ⟨b, _, h⟩ := bind_ok h
      cases h
      exact vals_length hr
  · cases h

theorem varLoop_length {rules : List Rule} {dim : Nat} : ∀ (n : Nat) {st : St} {db db' : SMap (List Dbl)},
    varLoop rules dim n st db = .ok db' → (∀ k vs, SMap.find k db = some vs → vs.length = dim) →
    ∀ k vs, SMap.find k db' = some vs → vs.length = dim := by
  intro n
  induction n with
  | zero => intro st db db' h; cases h
  | succ n ih =>
    intro st db db' h hd
    rw [varLoop] at h
    obtain ⟨⟨o, s⟩, hp, h⟩ := bind_ok h
    cases o with
    | none => cases h; exact hd
    | some e =>
      obtain ⟨w, vs⟩ := e
      simp only at h
      obtain ⟨o, _, h⟩ := bind_ok h
      cases o with
      | none => exact ih h hd
      | some name =>
        simp only at h
        obtain ⟨db1, hq, h⟩ := bind_ok h
        refine ih h ?_
        rw [put] at hq
        split at hq
        · cases hq
          intro k v hk
          by_cases he : k = toKey .variables name
          · rw [he, SMap.find_insert_self] at hk
            cases hk
            exact readVariable_length hp
          · rw [SMap.find_insert_ne _ _ he] at hk
            exact hd k v hk
        · cases hq

/-! ## Tabs -/

theorem toks_expand {ts : List Tok} {x z : Yy.Text} (h : Toks ts x z) (hc : Lec.Clean x) (col : Nat) :
    ∃ col', Toks ts (expand col x) (expand col' z) ∧ Lec.Clean z := by
  induction h generalizing col with
  | nil => exact ⟨col, .nil, hc⟩
  | @word g w ts s z hg hne hh hw he _ ih =>
    obtain ⟨g', c1, h1, e1⟩ := Lec.expand_gap hg hc.left col
    obtain ⟨c2, e2⟩ := Lec.expand_plains (key_plain hw) c1
    have hs : Lec.Clean s := hc.right.right
    obtain ⟨c3, k, k'⟩ := ih hs c2
    rw [e1, e2]
    exact ⟨c3, .word h1 hne hh hw (Lec.nameEnd_expand he hs c2) k, k'⟩
  | @int g d ts s z hg hd hne hl he _ ih =>
    obtain ⟨g', c1, h1, e1⟩ := Lec.expand_gap hg hc.left col
    obtain ⟨c2, e2⟩ := Lec.expand_plains (t := d) (fun c hc => Lec.nameCh_plain (Lec.digit_nameCh (hd c hc))) c1
    have hs : Lec.Clean s := hc.right.right
    obtain ⟨c3, k, k'⟩ := ih hs c2
    rw [e1, e2]
    exact ⟨c3, .int h1 hd hne hl (Lec.numEnd_expand he hs c2) k, k'⟩
  | @num g t r ts s z hg hn hl he _ ih =>
    obtain ⟨g', c1, h1, e1⟩ := Lec.expand_gap hg hc.left col
    obtain ⟨c2, e2⟩ := Lec.expand_plains (numeral_plain hn) c1
    have hs : Lec.Clean s := hc.right.right
    obtain ⟨c3, k, k'⟩ := ih hs c2
    rw [e1, e2]
    exact ⟨c3, .num h1 hn hl (Lec.numEnd_expand he hs c2) k, k'⟩
  | @sign g c ts s z hg hs _ ih =>
    obtain ⟨g', c1, h1, e1⟩ := Lec.expand_gap hg hc.left col
    obtain ⟨c2, e2⟩ := Lec.expand_plain (c := c) (by rcases hs with rfl | rfl <;> decide) c1
    obtain ⟨c3, k, k'⟩ := ih hc.right.tail c2
    rw [e1, e2]
    exact ⟨c3, .sign h1 hs k, k'⟩
  | @str g t b ts s z hg hl _ ih =>
    obtain ⟨g', c1, h1, e1⟩ := lit_expand hg hl hc col
    obtain ⟨c3, k, k'⟩ := ih hc.right.tail.right.tail c1
    rw [e1]
    exact ⟨c3, .str h1 hl k, k'⟩

theorem gap_expand {g : Yy.Text} (hg : Gap g) (hc : Lec.Clean g) (col : Nat) : Gap (expand col g) := by
  obtain ⟨g', c1, h1, e1⟩ := Lec.expand_gap hg hc col
  have := e1 []
  rw [List.append_nil] at this
  rw [this, expand, List.append_nil]
  exact h1

/-- Strings in a text without the character 0 have none. -/
theorem toks_clean {ts : List Tok} {x z : Yy.Text} (h : Toks ts x z) (hc : Lec.Clean x) :
    ∀ t, Tok.str t ∈ ts → ∀ c ∈ t, c.toNat ≠ 0 := by
  induction h with
  | nil => intro t ht; cases ht
  | @word g w ts s _ _ _ _ _ _ _ ih =>
    intro t ht
    rcases List.mem_cons.1 ht with h | h
    · cases h
    · exact ih hc.right.right t h
  | @int g w ts s _ _ _ _ _ _ _ ih =>
    intro t ht
    rcases List.mem_cons.1 ht with h | h
    · cases h
    · exact ih hc.right.right t h
  | @num g w r ts s _ _ _ _ _ _ ih =>
    intro t ht
    rcases List.mem_cons.1 ht with h | h
    · cases h
    · exact ih hc.right.right t h
  | @sign g w ts s _ _ _ _ ih =>
    intro t ht
    rcases List.mem_cons.1 ht with h | h
    · cases h
    · exact ih hc.right.tail t h
  | @str g t b ts s _ _ hl _ ih =>
    intro t' ht
    rcases List.mem_cons.1 ht with h | h
    · cases h
      exact lit_clean hl hc
    · exact ih hc.right.tail.right.tail t' h

end Dif
end Iode
