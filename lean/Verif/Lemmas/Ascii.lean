import Verif.Model.Ascii
import Verif.Spec.Ascii
import Verif.Lemmas.LecLex
import Verif.Lemmas.PrintfText
import Verif.Lemmas.Dbl
import Verif.Props.C02

/-! # Reading a text with `YY_unread` -/
namespace Iode
namespace Asc
open Yy Lec.Written Written Printf

/-- Whatever was read before, the next element of the text `x`: what `YY_lex` returns, what can be read again, the rest. -/
def Reads {κ : Type} (tbl : Keys κ) (x : Yy.Text) (l : Lexed κ) (r : Raw) (s : Yy.Text) : Prop :=
  ∀ typ n, x.length < n → lx tbl n ⟨typ, false, x⟩ = .ok (l, ⟨r, false, s⟩)

theorem rd_space {c : Char} (h : isSpace c = true) (t : Raw) (s : Yy.Text) : rd ⟨t, false, c :: s⟩ = rd ⟨t, false, s⟩ := by
  have : skipSpaces (c :: s) = skipSpaces s := by simp [skipSpaces, h]
  rw [rd, rd]
  simp only [Yy.read, this, Bool.false_eq_true, if_false]

theorem rd_of {x s : Yy.Text} {r : Raw} (h : Yy.read x = (r, s)) (he : r ≠ .err) (hd : ∀ t, r = .double t → t.length < 255)
    (t : Raw) : rd ⟨t, false, x⟩ = .ok (r, ⟨r, false, s⟩) := by
  rw [rd]
  simp only [Bool.false_eq_true, if_false, h]
  cases r <;> try rfl
  · simp only
    rw [if_pos (hd _ rfl)]
  · exact absurd rfl he

theorem reads_of {κ : Type} {tbl : Keys κ} {x s s' : Yy.Text} {r : Raw} {l : Lexed κ} (h : Yy.read x = (r, s)) (he : r ≠ .err)
    (hc : r ≠ .comment) (hd : ∀ t, r = .double t → t.length < 255) (hk : classify tbl (r, s) = (l, s')) :
    Reads tbl x l r s' := by
  intro typ n hn
  cases n with
  | zero => omega
  | succ n =>
    rw [lx, rd_of h he hd]
    simp only [Res.bind]
    rw [if_neg hc, hk]

theorem reads_gap {κ : Type} {tbl : Keys κ} {x s : Yy.Text} {r : Raw} {l : Lexed κ} (h : Reads tbl x l r s) {g : Yy.Text}
    (hg : Gap g) : Reads tbl (g ++ x) l r s := by
  induction hg with
  | nil => exact h
  | @white c g hw _ ih =>
    intro typ n hn
    have := ih typ n (by simp at hn ⊢; omega)
    cases n with
    | zero => omega
    | succ n =>
      rw [List.cons_append, lx, rd_space (Lec.isSpace_of_white hw), ← lx, this]
  | @block b g hb _ ih =>
    intro typ n hn
    cases n with
    | zero => omega
    | succ n =>
      have e : '/' :: '*' :: (b ++ '*' :: '/' :: g) ++ x = '/' :: '*' :: (b ++ '*' :: '/' :: (g ++ x)) := by simp
      rw [e] at hn ⊢
      have := ih .comment n (by simp at hn ⊢; omega)
      rw [lx, rd_of (Lec.read_block _ |>.trans (Lec.comment_body hb _)) (by simp) (by simp)]
      simp only [Res.bind]
      rw [if_pos trivial, this]
  | @line b g hb _ ih =>
    intro typ n hn
    cases n with
    | zero => omega
    | succ n =>
      have e : '/' :: '/' :: (b ++ '\n' :: g) ++ x = '/' :: '/' :: (b ++ '\n' :: (g ++ x)) := by simp
      rw [e] at hn ⊢
      have := ih .comment n (by simp at hn ⊢; omega)
      rw [lx, rd_of (by rw [Lec.read_line, Lec.skipToEol_body hb]) (by simp) (by simp)]
      simp only [Res.bind]
      rw [if_pos trivial, this]

theorem Reads.lxs {κ : Type} {tbl : Keys κ} {x s : Yy.Text} {r : Raw} {l : Lexed κ} (h : Reads tbl x l r s) (typ : Raw) :
    lxs tbl ⟨typ, false, x⟩ = .ok (l, ⟨r, false, s⟩) := h typ _ (by simp)

/-! ## Elements -/

theorem reads_eof {κ : Type} (tbl : Keys κ) : Reads tbl [] (.raw .eof) .eof [] :=
  reads_of (tbl := tbl) (x := []) (s := []) (by rfl) (by simp) (by simp) (by simp) rfl

theorem keys_words : ∀ e ∈ tblKeys, (∀ x ∈ e.1, NameCh x) → ∃ k ∈ reserved, k.toList = e.1 := by decide +kernel

theorem reserved_keys : ∀ k ∈ reserved, ∃ n, findWord tblKeys k.toList = some n := by
  have : ∀ k ∈ reserved, (findWord tblKeys k.toList).isSome = true := by decide +kernel
  intro k hk
  exact Option.isSome_iff_exists.1 (this k hk)

theorem findKey_none {w : Yy.Text} (hw : ∀ x ∈ w, NameCh x) (hk : ∀ k ∈ reserved, k.toList ≠ w) : findWord tblKeys w = none := by
  rw [findWord, Option.map_eq_none_iff, List.find?_eq_none]
  intro e he hd
  simp only [decide_eq_true_eq] at hd
  obtain ⟨k, h1, h2⟩ := keys_words e he (hd ▸ hw)
  exact hk k h1 (h2.trans hd)

/-- A word of a text. -/
theorem reads_word {κ : Type} {tbl : Keys κ} {w s : Yy.Text} (hne : w ≠ []) (hh : ∀ c, w.head? = some c → ¬ Digit c)
    (hw : ∀ x ∈ w, NameCh x) (hs : NameEnd s) :
    Reads tbl (w ++ s) (match findWord tbl w with | some k => .key k | none => .raw (.word w)) (.word w) s := by
  cases w with
  | nil => exact absurd rfl hne
  | cons c w =>
    exact reads_of (Lec.read_word (hh c rfl) hw hs) (by simp) (by simp) (by simp) rfl

theorem reads_name {w s : Yy.Text} (h : VarName w) (hs : NameEnd s) : Reads tblKeys (w ++ s) (.raw (.word w)) (.word w) s := by
  have := reads_word (tbl := tblKeys) h.ne h.head h.all hs
  rwa [findKey_none h.all h.free] at this

theorem reads_na {s : Yy.Text} (hs : NameEnd s) :
    Reads tblKeys ('n' :: 'a' :: s) (.raw (.word ['n', 'a'])) (.word ['n', 'a']) s := by
  have := reads_word (tbl := tblKeys) (w := ['n', 'a']) (by decide) (by intro c h; cases h; decide) (by decide) hs
  rwa [show findWord tblKeys ['n', 'a'] = none by decide +kernel] at this

theorem minus_oper (s : Yy.Text) : findOper tblKeys '-' s = (some 109, s) := by
  have : operKeys tblKeys '-' = some (109, []) := by decide +kernel
  rw [findOper, this]

theorem reads_minus (s : Yy.Text) : Reads tblKeys ('-' :: s) (.key 109) (.special '-') s :=
  reads_of (Lec.read_special (by decide) s) (by simp) (by simp) (by simp) (by simp [classify, minus_oper])

/-- A point or a slash alone. -/
theorem reads_mark {c : Char} (hc : c = '.' ∨ c = '/') {s : Yy.Text} (hs : BlankEnd s) :
    Reads tblKeys (c :: s) (.raw (.special c)) (.special c) s := by
  have key : Yy.read (c :: s) = (.special c, s) := by
    rcases hc with rfl | rfl
    · rw [Yy.read, skipSpaces_stop (by decide)]
      simp only
      rw [if_neg (by decide), readFrom.eq_def, if_neg (by decide), if_neg (by decide), if_neg (by decide), if_neg (by decide),
        if_neg (by decide), if_neg (by decide), if_pos rfl]
      cases s with
      | nil => rfl
      | cons a r =>
        simp only
        rw [if_neg]
        have := hs a rfl
        simp only [White] at this
        simp only [isNum, Bool.and_eq_true, decide_eq_true_eq]
        omega
    · refine Lec.read_slash (fun h => ?_) (fun h => ?_)
      · have := hs _ h
        revert this
        decide
      · have := hs _ h
        revert this
        decide
  refine reads_of key (by simp) (by simp) (by simp) ?_
  have hk : operKeys tblKeys c = none := by
    rcases hc with rfl | rfl <;> decide +kernel
  simp only [classify, findOper, hk]

theorem dec_lt {d : Yy.Text} (h : Digits d) : dec d < 10 ^ d.length := by
  induction d with
  | nil => simp [dec]
  | cons c r ih =>
    have h1 := ih fun x hx => h x (by simp [hx])
    have h2 := (h c (by simp)).2
    rw [dec, List.length_cons, Nat.pow_succ]
    have : (c.toNat - 48) * 10 ^ r.length ≤ 9 * 10 ^ r.length := Nat.mul_le_mul_right _ (by omega)
    omega

/-- What a numeral is read as. -/
def IsNum (r : Raw) (q : Rat) : Prop :=
  (∃ d, r = .long d ∧ Lec.natOf d < 10 ^ 9 ∧ (Lec.natOf d : Rat) = q) ∨ (∃ t, r = .double t ∧ Lec.atofVal t = q)

theorem reads_num {κ : Type} {tbl : Keys κ} {t s : Yy.Text} {q : Rat} (h : Numeral t q) (hl : t.length < 255) (hs : NumEnd s) :
    ∃ r, Reads tbl (t ++ s) (.raw r) r s ∧ IsNum r q := by
  rcases h with ⟨h1, h2, h3, h4⟩ | h
  · refine ⟨_, reads_of (Lec.read_long h1 h2 h3 hs) (by simp) (by simp) (by simp) rfl, .inl ⟨t, rfl, ?_, by rw [h4, Lec.natOf_eq]⟩⟩
    rw [Lec.natOf_eq]
    exact lt_of_lt_of_le (dec_lt h1) (Nat.pow_le_pow_right (by omega) h3)
  · obtain ⟨d', e1, e2, e3⟩ := Lec.read_decimal h hs
    refine ⟨_, reads_of e3 (by simp) (by simp) ?_ rfl, .inr ⟨d', rfl, e2⟩⟩
    intro t' e
    cases e
    omega

/-! ## Values -/

theorem readReal_num {tbl : Keys Nat} {x s : Yy.Text} {r : Raw} {q : Rat} (h : Reads tbl x (.raw r) r s) (hr : IsNum r q)
    (n : Nat) (neg : Bool) (typ : Raw) :
    readReal tbl (n + 1) neg ⟨typ, false, x⟩ = .ok (signed neg (ieee q), ⟨r, false, s⟩) := by
  rw [readReal, h.lxs]
  simp only [Res.bind]
  rcases hr with ⟨d, rfl, h1, h2⟩ | ⟨t, rfl, h1⟩
  · simp only
    rw [← h2, ieee_whole h1]
  · simp only
    rw [h1]

theorem readReal_minus {x s : Yy.Text} {r : Raw} (h : Reads tblKeys x (.key 109) r s) (n : Nat) (neg : Bool) (typ : Raw) :
    readReal tblKeys (n + 1) neg ⟨typ, false, x⟩ = readReal tblKeys n true ⟨r, false, s⟩ := by
  rw [readReal, h.lxs]
  simp only [Res.bind]
  rw [if_pos trivial]

theorem real_na {x s : Yy.Text} (h : Reads tblKeys x (.raw (.word ['n', 'a'])) (.word ['n', 'a']) s) (typ : Raw) :
    real tblKeys ⟨typ, false, x⟩ = .ok (na, ⟨.word ['n', 'a'], false, s⟩) := by
  rw [real, readReal, h.lxs]
  simp only [Res.bind]
  rw [if_pos trivial]

theorem real_mark {c : Char} (hc : c = '.' ∨ c = '/') {x s : Yy.Text} (h : Reads tblKeys x (.raw (.special c)) (.special c) s)
    (typ : Raw) : real tblKeys ⟨typ, false, x⟩ = .ok (na, ⟨.special c, false, s⟩) := by
  rw [real, readReal, h.lxs]
  simp only [Res.bind]
  rw [if_neg (by rcases hc with rfl | rfl <;> decide), if_pos hc.symm]

/-- The end of the values of a variable: a name, or the end of the text. -/
def Stop (r : Raw) : Prop := r = .eof ∨ ∃ w, r = .word w ∧ w ≠ ['n', 'a'] ∧ findWord tblKeys w = none

theorem lxs_back {r : Raw} (h : Stop r) (s : Yy.Text) : lxs tblKeys ⟨r, true, s⟩ = .ok (.raw r, ⟨r, false, s⟩) := by
  rw [lxs, lx, rd]
  rcases h with rfl | ⟨w, rfl, _, h2⟩
  · rfl
  · simp only [if_true, Res.bind]
    rw [if_neg (by simp)]
    simp only [classify, h2]

theorem real_stop {st : St} {r : Raw} {s : Yy.Text} (hl : lxs tblKeys st = .ok (.raw r, ⟨r, false, s⟩)) (h : Stop r) :
    real tblKeys st = .ok (na, ⟨r, true, s⟩) := by
  rw [real, readReal, hl]
  simp only [Res.bind]
  rcases h with rfl | ⟨w, rfl, h1, _⟩
  · rfl
  · simp only
    rw [if_neg h1]
    rfl

/-- Behind the last value all values are missing. -/
theorem readVals_stop {r : Raw} (h : Stop r) {s : Yy.Text} (n : Nat) :
    readVals n ⟨r, true, s⟩ = .ok (List.replicate n na, ⟨r, true, s⟩) := by
  induction n with
  | zero => rfl
  | succ n ih =>
    rw [readVals, real_stop (lxs_back h s) h]
    simp only [Res.bind]
    rw [ih]
    rfl

theorem readVals_stop' {st : St} {r : Raw} {s : Yy.Text} (hl : lxs tblKeys st = .ok (.raw r, ⟨r, false, s⟩)) (h : Stop r)
    (n : Nat) : readVals (n + 1) st = .ok (List.replicate (n + 1) na, ⟨r, true, s⟩) := by
  rw [readVals, real_stop hl h]
  simp only [Res.bind]
  rw [readVals_stop h]
  rfl

theorem skipVals_stop {st : St} {r : Raw} {s : Yy.Text} (hl : lxs tblKeys st = .ok (.raw r, ⟨r, false, s⟩)) (h : Stop r)
    (n : Nat) : skipVals (n + 1) st = .ok ⟨r, true, s⟩ := by
  rw [skipVals, hl]
  simp only [Res.bind]
  rcases h with rfl | ⟨w, rfl, h1, _⟩
  · rfl
  · simp only
    rw [if_neg h1]
    rfl

theorem numeral_ne {t : Yy.Text} {q : Rat} (h : Numeral t q) : 1 ≤ t.length := by
  rcases h with ⟨_, h2, _, _⟩ | h
  · exact List.length_pos_iff.2 h2
  · cases h with
    | whole _ h2 _ _ => have := List.length_pos_iff.2 h2; simp; omega
    | point _ _ _ _ => simp; omega

/-- One value in front of a text. -/
theorem vals_head {v : Dbl} {vs : List Dbl} {x s' : Yy.Text} (h : Vals na ieee (v :: vs) x s') :
    ∃ s r, (∀ typ, real tblKeys ⟨typ, false, x⟩ = .ok (v, ⟨r, false, s⟩)) ∧ Vals na ieee vs s s' ∧ s.length < x.length ∧
      ∀ typ n, x.length < n → ∃ m, s.length < m ∧ skipVals n ⟨typ, false, x⟩ = skipVals m ⟨r, false, s⟩ := by
  cases h with
  | @na g _ s _ hg he hv =>
    have hr := reads_gap (reads_na he) hg
    refine ⟨s, _, real_na hr, hv, by simp; omega, fun typ n hn => ?_⟩
    cases n with
    | zero => omega
    | succ n =>
      refine ⟨n, by simp at hn; omega, ?_⟩
      rw [skipVals, hr.lxs]
      simp only [Res.bind]
      rw [if_pos trivial]
  | @mark g c _ s _ hg hk he hv =>
    have hr := reads_gap (reads_mark hk he) hg
    refine ⟨s, _, real_mark hk hr, hv, by simp; omega, fun typ n hn => ?_⟩
    cases n with
    | zero => omega
    | succ n =>
      refine ⟨n, by simp at hn; omega, ?_⟩
      rw [skipVals, hr.lxs]
      simp only [Res.bind]
  | @num g t q _ s _ hg ht hl he hv =>
    obtain ⟨r, h1, h2⟩ := reads_num (tbl := tblKeys) ht hl he
    have h1 := reads_gap h1 hg
    have hlen := numeral_ne ht
    refine ⟨s, r, fun typ => ?_, hv, by simp; omega, fun typ n hn => ?_⟩
    · rw [real, readReal_num h1 h2, signed_false]
    · cases n with
      | zero => omega
      | succ n =>
        refine ⟨n, by simp at hn; omega, ?_⟩
        rw [skipVals, h1.lxs]
        simp only [Res.bind]
        rcases h2 with ⟨d, rfl, _, _⟩ | ⟨d, rfl, _⟩ <;> rfl
  | @neg g g' t q _ s _ hg hg' ht hl he hv =>
    obtain ⟨r, h1, h2⟩ := reads_num (tbl := tblKeys) ht hl he
    have h1 := reads_gap h1 hg'
    have h0 := reads_gap (reads_minus (g' ++ (t ++ s))) hg
    have hlen := numeral_ne ht
    refine ⟨s, r, fun typ => ?_, hv, by simp; omega, fun typ n hn => ?_⟩
    · rw [real, readReal_minus h0]
      obtain ⟨k, hk⟩ : ∃ k, (g ++ '-' :: (g' ++ (t ++ s))).length + 1 = k + 1 := ⟨_, rfl⟩
      simp only [hk]
      rw [readReal_num h1 h2, ieee_neg]
    · cases n with
      | zero => omega
      | succ n =>
        cases n with
        | zero => simp at hn
        | succ n =>
          refine ⟨n, by simp at hn; omega, ?_⟩
          rw [skipVals, h0.lxs]
          simp only [Res.bind]
          rw [skipVals, h1.lxs]
          simp only [Res.bind]
          rcases h2 with ⟨d, rfl, _, _⟩ | ⟨d, rfl, _⟩ <;> rfl

theorem skipVals_vals {vs : List Dbl} {s' s'' : Yy.Text} {r : Raw} (hr : Reads tblKeys s' (.raw r) r s'') (hst : Stop r) :
    ∀ {x : Yy.Text}, Vals na ieee vs x s' → ∀ typ n, x.length < n → skipVals n ⟨typ, false, x⟩ = .ok ⟨r, true, s''⟩ := by
  induction vs with
  | nil =>
    intro x h typ n hn
    cases h
    cases n with
    | zero => omega
    | succ n => exact skipVals_stop (hr.lxs typ) hst n
  | cons v vs ih =>
    intro x h typ n hn
    obtain ⟨s, r', _, h2, _, h4⟩ := vals_head h
    obtain ⟨m, h5, h6⟩ := h4 typ n hn
    rw [h6]
    exact ih h2 r' m h5

theorem fit_nil (nb : Nat) : fit na nb [] = List.replicate nb na := by
  rw [fit, List.nil_append, List.take_of_length_le (by simp)]

theorem fit_cons (nb : Nat) (v : Dbl) (vs : List Dbl) : fit na (nb + 1) (v :: vs) = v :: fit na nb vs := by
  rw [fit, fit, List.cons_append, List.take_succ_cons, List.replicate_succ']
  rw [← List.append_assoc, List.take_append_of_le_length (by simp)]

theorem fit_length (nb : Nat) (vs : List Dbl) : (fit na nb vs).length = nb := by
  rw [fit, List.length_take]
  simp

/-- A variable of `nb` periods and the values that are written. -/
theorem readVec_vals {s' s'' : Yy.Text} {r : Raw} (hr : Reads tblKeys s' (.raw r) r s'') (hst : Stop r) (nb : Nat) :
    ∀ {vs : List Dbl} {x : Yy.Text}, Vals na ieee vs x s' → ∀ typ,
      readVec nb ⟨typ, false, x⟩ = .ok (fit na nb vs, ⟨r, true, s''⟩) := by
  intro vs x h typ
  have key : ∀ (nb : Nat) (vs : List Dbl) (x : Yy.Text), Vals na ieee vs x s' → ∀ typ, ∃ st,
      readVals nb ⟨typ, false, x⟩ = .ok (fit na nb vs, st) ∧
        ∀ n, st.text.length + 1 < n → skipVals n st = .ok ⟨r, true, s''⟩ := by
    intro nb
    induction nb with
    | zero =>
      intro vs x h typ
      exact ⟨_, by rw [readVals, fit]; simp, fun n hn => skipVals_vals hr hst h typ n (by simp at hn ⊢; omega)⟩
    | succ nb ih =>
      intro vs x h typ
      cases vs with
      | nil =>
        cases h
        refine ⟨⟨r, true, s''⟩, by rw [fit_nil, readVals_stop' (hr.lxs typ) hst], fun n hn => ?_⟩
        cases n with
        | zero => omega
        | succ n => exact skipVals_stop (lxs_back hst s'') hst n
      | cons v vs =>
        obtain ⟨s, r', h1, h2, _, _⟩ := vals_head h
        obtain ⟨st, h3, h4⟩ := ih vs s h2 r'
        refine ⟨st, ?_, h4⟩
        rw [readVals, h1]
        simp only [Res.bind]
        rw [h3, fit_cons]
  obtain ⟨st, h1, h2⟩ := key nb vs x h typ
  rw [readVec, h1]
  simp only [Res.bind]
  rw [h2 _ (by omega)]

/-! ## Variables -/

/-- The element a text of variables begins with, and what is behind it. -/
def Entry : List (Yy.Text × List Dbl) → Raw → Yy.Text → Prop
  | [], r, _ => r = .eof
  | (w, vs) :: rest, r, s => r = .word w ∧ VarName w ∧ ∃ s', Vals na ieee vs s s' ∧ VLaid na ieee rest s'

theorem vlaid_entry {vars : List (Yy.Text × List Dbl)} {x : Yy.Text} (h : VLaid na ieee vars x) :
    ∃ r s, Reads tblKeys x (.raw r) r s ∧ Stop r ∧ Entry vars r s := by
  cases h with
  | nil hg =>
    have := reads_gap (reads_eof tblKeys) hg
    rw [List.append_nil] at this
    exact ⟨_, _, this, .inl rfl, rfl⟩
  | @var g w vs rest s s' hg hw he hv hl =>
    exact ⟨_, _, reads_gap (reads_name hw he) hg, .inr ⟨w, rfl, hw.notNa, findKey_none hw.all hw.free⟩, rfl, hw, s', hv, hl⟩

/-- The database after a list of variables. -/
def puts (nb : Nat) (vars : List (Yy.Text × List Dbl)) (db : SMap (List Dbl)) : SMap (List Dbl) :=
  vars.foldl (fun db e => putVar e.1 (fit na nb e.2) db) db

theorem varLoop_entry {nb : Nat} (hnb : 0 < nb) : ∀ {vars : List (Yy.Text × List Dbl)} {st : St} {r : Raw} {s : Yy.Text}
    (_ : lxs tblKeys st = .ok (.raw r, ⟨r, false, s⟩)) (_ : Entry vars r s) (n : Nat) (_ : vars.length < n) (db : SMap (List Dbl)),
    varLoop nb n st db = .ok (some (puts nb vars db)) := by
  intro vars
  induction vars with
  | nil =>
    intro st r s hl he n hn db
    cases he
    cases n with
    | zero => omega
    | succ n =>
      rw [varLoop, hl]
      rfl
  | cons e rest ih =>
    obtain ⟨w, vs⟩ := e
    intro st r s hl he n hn db
    obtain ⟨rfl, hw, s', hv, hrest⟩ := he
    obtain ⟨r', s'', h1, h2, h3⟩ := vlaid_entry hrest
    cases n with
    | zero => omega
    | succ n =>
      rw [varLoop, hl]
      simp only [Res.bind]
      rw [if_neg (by omega), if_neg (by omega), Int.toNat_natCast, readVec_vals h1 h2 nb hv]
      simp only
      rw [ih (lxs_back h2 s'') h3 n (by simp at hn; omega)]
      rfl

theorem vals_length {vs : List Dbl} {s s' : Yy.Text} (h : Vals na ieee vs s s') : s'.length ≤ s.length := by
  induction h with
  | nil => omega
  | na _ _ _ ih => simp; omega
  | mark _ _ _ _ ih => simp; omega
  | num _ _ _ _ _ ih => simp; omega
  | neg _ _ _ _ _ _ ih => simp; omega

theorem vlaid_length {vars : List (Yy.Text × List Dbl)} {s : Yy.Text} (h : VLaid na ieee vars s) : vars.length ≤ s.length := by
  induction h with
  | nil => simp
  | var _ hw _ hv _ ih =>
    have := vals_length hv
    have := List.length_pos_iff.2 hw.ne
    simp
    omega

/-! ## The sample -/

theorem gap_ends {g : Yy.Text} (hg : Gap g) (hne : g ≠ []) (x : Yy.Text) : NameEnd (g ++ x) ∧ NumEnd (g ++ x) := by
  have key : ∀ c, (g ++ x).head? = some c → White c ∨ c = '/' := by
    intro c hc
    cases hg with
    | nil => exact absurd rfl hne
    | white hw _ => cases hc; exact .inl hw
    | block => cases hc; exact .inr rfl
    | line => cases hc; exact .inr rfl
  constructor
  · intro c hc
    rcases key c hc with h | rfl
    · refine ⟨fun hn => ?_, ?_⟩
      · have h1 := Lec.nameCh_not_space hn
        rw [Lec.isSpace_of_white h] at h1
        cases h1
      · simp only [White] at h; omega
    · decide
  · intro c hc
    rcases key c hc with h | rfl
    · simp only [White] at h
      refine ⟨fun hd => ?_, ?_, ?_, ?_⟩
      · have := hd.1; omega
      · rintro rfl; revert h; decide
      · rintro rfl; revert h; decide
      · rintro rfl; revert h; decide
    · decide

/-- Periods that are written and read: years of four digits. -/
structure PerOk (p : Period) : Prop where
  wf : p.WF
  per : IsPeriodicity p.periodicity
  low : 1000 ≤ p.year
  high : p.year ≤ 9999

theorem PerOk.text {p : Period} (h : PerOk p) : ∃ y st : Nat, p.toChars = natToChars y ++ p.periodicity :: natToChars st ∧
    (natToChars y).length = 4 ∧ (natToChars st).length ≤ 9 := by
  obtain ⟨nb, h1, h2, h3⟩ := h.wf
  have hn := nbPeriodsPerYear_cases h1
  have hl := h.low
  have hh := h.high
  refine ⟨p.year.natAbs, p.step.natAbs, ?_, natToChars_length_four (by omega) (by omega), ?_⟩
  · have hp : p.periodicity.toNat ≠ 0 := by
      have := h.per
      simp only [IsPeriodicity, List.mem_cons, List.not_mem_nil, or_false] at this
      rcases this with h | h | h | h | h | h <;> rw [h] <;> decide
    rw [Period.toChars, if_neg (by omega), intToChars, if_neg (by omega), intToChars, if_neg (by omega)]
    simp
  · exact natToChars_length (by omega) (by omega)

theorem readPer_ok {tbl : Keys Nat} {p : Period} (h : PerOk p) {g s : Yy.Text} (hg : Gap g) (hs : NumEnd s) (typ : Raw) :
    ∃ r, readPer tbl ⟨typ, false, g ++ (p.toChars ++ s)⟩ = .ok (some p, ⟨r, false, s⟩) := by
  obtain ⟨y, st, e, l1, l2⟩ := h.text
  have hend : NumEnd (p.periodicity :: (natToChars st ++ s)) := by
    intro c hc
    cases hc
    have := h.per
    simp only [IsPeriodicity, List.mem_cons, List.not_mem_nil, or_false] at this
    rcases this with h | h | h | h | h | h <;> rw [h] <;> decide
  have r1 : Reads tbl (natToChars y ++ (p.periodicity :: (natToChars st ++ s))) (.raw (.long (natToChars y))) _ _ :=
    reads_of (Lec.read_long (natToChars_digits y) (natToChars_ne_nil y) (by omega) hend) (by simp) (by simp) (by simp) rfl
  have r2 : Reads tbl (natToChars st ++ s) (.raw (.long (natToChars st))) _ _ :=
    reads_of (Lec.read_long (natToChars_digits st) (natToChars_ne_nil st) l2 hs) (by simp) (by simp) (by simp) rfl
  have hp := C02_print_parse p h.wf h.per h.low h.high
  rw [e] at hp
  refine ⟨.long (natToChars st), ?_⟩
  rw [e, List.append_assoc, List.cons_append, readPer, (reads_gap r1 hg).lxs]
  simp only [Res.bind, List.drop_succ_cons, List.drop_zero, List.headD_cons]
  rw [r2.lxs]
  simp only
  rw [hp]

theorem readSmpl_ok {tbl : Keys Nat} {smp : Sample} (h1 : PerOk smp.start) (h2 : PerOk smp.stop) (hs : Sample.ofPeriods smp.start smp.stop = .ok smp)
    {g1 g2 s : Yy.Text} (hg1 : Gap g1) (hg2 : Gap g2) (hne : g2 ≠ []) (he : NumEnd s) (typ : Raw) :
    ∃ r, readSmpl tbl ⟨typ, false, g1 ++ (smp.start.toChars ++ (g2 ++ (smp.stop.toChars ++ s)))⟩ = .ok (some smp, ⟨r, false, s⟩) := by
  obtain ⟨r1, e1⟩ := readPer_ok (tbl := tbl) h1 hg1 (gap_ends hg2 hne (smp.stop.toChars ++ s)).2 typ
  obtain ⟨r2, e2⟩ := readPer_ok (tbl := tbl) h2 hg2 he r1
  refine ⟨r2, ?_⟩
  rw [readSmpl, e1]
  simp only [Res.bind]
  rw [e2]
  simp only
  have hs' := hs
  rw [Sample.ofPeriods] at hs
  cases hd : smp.stop.difference smp.start with
  | err => rw [hd] at hs; cases hs
  | ub => rw [hd] at hs; cases hs
  | ok d =>
    simp only
    rw [hd] at hs
    by_cases hneg : d < 0
    · simp [bind, Res.bind, hneg] at hs
    · rw [if_neg hneg, hs']

/-- A whole text. -/
theorem loadYy_laid {smp : Sample} (h1 : PerOk smp.start) (h2 : PerOk smp.stop)
    (hs : Sample.ofPeriods smp.start smp.stop = .ok smp) (hnb : 0 < smp.nb) {vars : List (Yy.Text × List Dbl)} {x : Yy.Text}
    (h : SLaid na ieee smp.start.toChars smp.stop.toChars vars x) :
    loadYy x = .ok (some ⟨some smp, puts smp.nb.toNat vars []⟩) := by
  cases h with
  | @mk g0 g1 g2 _ s hg0 hg1 hn1 hg2 hn2 he hv =>
    have hk : Reads tblKeys ("sample".toList ++ (g1 ++ (smp.start.toChars ++ (g2 ++ (smp.stop.toChars ++ s))))) (.key 1)
        (.word "sample".toList) (g1 ++ (smp.start.toChars ++ (g2 ++ (smp.stop.toChars ++ s)))) := by
      have := reads_word (tbl := tblKeys) (w := "sample".toList) (by decide) (by intro c h; cases h; decide) (by decide)
        (gap_ends hg1 hn1 (smp.start.toChars ++ (g2 ++ (smp.stop.toChars ++ s)))).1
      rwa [show findWord tblKeys "sample".toList = some 1 by decide +kernel] at this
    obtain ⟨r, e⟩ := readSmpl_ok (tbl := tblKeys) h1 h2 hs hg1 hg2 hn2 he (.word "sample".toList)
    rw [loadYy, (reads_gap hk hg0).lxs]
    simp only [Res.bind]
    rw [if_pos trivial, e]
    simp only
    obtain ⟨r', s'', k1, k2, k3⟩ := vlaid_entry hv
    have hlen := vlaid_length hv
    obtain ⟨n, hn⟩ : ∃ n : Nat, smp.nb = n := ⟨smp.nb.toNat, by omega⟩
    rw [hn, varLoop_entry (by omega) (k1.lxs r) k3 _ (by omega), Int.toNat_natCast]
    simp only [Option.map_some]
    rw [if_neg (by omega)]

/-! ## Tabs -/

theorem numeral_plain {t : Yy.Text} {q : Rat} (h : Numeral t q) : ∀ c ∈ t, Lec.PlainCh c := by
  rcases h with ⟨h, _⟩ | h
  · exact fun c hc => Lec.nameCh_plain (Lec.digit_nameCh (h c hc))
  · exact Lec.decimal_plain h

theorem vals_expand {missing : Dbl} {rnd : Rat → Dbl} {vs : List Dbl} {s s' : Yy.Text} (h : Vals missing rnd vs s s')
    (hc : Lec.Clean s) (col : Nat) : Lec.Clean s' ∧ ∃ col', Vals missing rnd vs (expand col s) (expand col' s') := by
  induction h generalizing col with
  | nil => exact ⟨hc, col, .nil⟩
  | @na g vs s s' hg he _ ih =>
    obtain ⟨g', c1, h1, e1⟩ := Lec.expand_gap hg hc.left col
    obtain ⟨c2, e2⟩ := Lec.expand_plains (t := ['n', 'a']) (by decide) c1
    have hs : Lec.Clean s := hc.right.tail.tail
    obtain ⟨h3, c3, h4⟩ := ih hs c2
    refine ⟨h3, c3, ?_⟩
    rw [e1, show 'n' :: 'a' :: s = ['n', 'a'] ++ s from rfl, e2]
    exact .na h1 (Lec.nameEnd_expand he hs c2) h4
  | @mark g c vs s s' hg hk he _ ih =>
    obtain ⟨g', c1, h1, e1⟩ := Lec.expand_gap hg hc.left col
    obtain ⟨c2, e2⟩ := Lec.expand_plain (c := c) (by rcases hk with rfl | rfl <;> decide) c1
    have hs : Lec.Clean s := hc.right.tail
    obtain ⟨h3, c3, h4⟩ := ih hs c2
    refine ⟨h3, c3, ?_⟩
    rw [e1, e2]
    refine .mark h1 hk (fun c hh => ?_) h4
    rcases Lec.expand_head hs c2 hh with h1 | rfl
    · exact he c h1
    · decide
  | @num g t r vs s s' hg ht hl he _ ih =>
    obtain ⟨g', c1, h1, e1⟩ := Lec.expand_gap hg hc.left col
    obtain ⟨c2, e2⟩ := Lec.expand_plains (numeral_plain ht) c1
    have hs : Lec.Clean s := hc.right.right
    obtain ⟨h3, c3, h4⟩ := ih hs c2
    refine ⟨h3, c3, ?_⟩
    rw [e1, e2]
    exact .num h1 ht hl (Lec.numEnd_expand he hs c2) h4
  | @neg g g0 t r vs s s' hg hg0 ht hl he _ ih =>
    obtain ⟨g', c1, h1, e1⟩ := Lec.expand_gap hg hc.left col
    obtain ⟨c2, e2⟩ := Lec.expand_plain (c := '-') (by decide) c1
    obtain ⟨g1, c3, h3, e3⟩ := Lec.expand_gap hg0 hc.right.tail.left c2
    obtain ⟨c4, e4⟩ := Lec.expand_plains (numeral_plain ht) c3
    have hs : Lec.Clean s := hc.right.tail.right.right
    obtain ⟨h5, c5, h6⟩ := ih hs c4
    refine ⟨h5, c5, ?_⟩
    rw [e1, e2, e3, e4]
    exact .neg h1 h3 ht hl (Lec.numEnd_expand he hs c4) h6

theorem vlaid_expand {missing : Dbl} {rnd : Rat → Dbl} {vars : List (Yy.Text × List Dbl)} {s : Yy.Text}
    (h : VLaid missing rnd vars s) (hc : Lec.Clean s) (col : Nat) : VLaid missing rnd vars (expand col s) := by
  induction h generalizing col with
  | nil hg =>
    obtain ⟨g', c1, h1, e1⟩ := Lec.expand_gap hg hc col
    have := e1 []
    rw [List.append_nil] at this
    rw [this, expand, List.append_nil]
    exact .nil h1
  | @var g w vs r s s' hg hw he hv _ ih =>
    obtain ⟨g', c1, h1, e1⟩ := Lec.expand_gap hg hc.left col
    obtain ⟨c2, e2⟩ := Lec.expand_plains (fun c hc => Lec.nameCh_plain (hw.all c hc)) c1
    have hs : Lec.Clean s := hc.right.right
    obtain ⟨h3, c3, h4⟩ := vals_expand hv hs c2
    rw [e1, e2]
    exact .var h1 hw (Lec.nameEnd_expand he hs c2) h4 (ih h3 c3)

theorem expand_ne {g : Yy.Text} (h : g ≠ []) (hc : Lec.Clean g) (col : Nat) : expand col g ≠ [] := by
  cases g with
  | nil => exact absurd rfl h
  | cons c r =>
    by_cases h9 : c.toNat = 9
    · rw [Lec.expand_tab h9]
      obtain ⟨k, hk⟩ : ∃ k, 8 - col % 8 = k + 1 := ⟨7 - col % 8, by omega⟩
      rw [hk, List.replicate_succ]
      simp
    · obtain ⟨c1, e⟩ := Lec.expand_plain (Lec.plain_of (hc c (by simp)) h9) col
      rw [e]
      simp

theorem slaid_expand {missing : Dbl} {rnd : Rat → Dbl} {a b : Yy.Text} (ha : ∀ c ∈ a, Lec.PlainCh c) (hb : ∀ c ∈ b, Lec.PlainCh c)
    {vars : List (Yy.Text × List Dbl)} {s : Yy.Text} (h : SLaid missing rnd a b vars s) (hc : Lec.Clean s) (col : Nat) :
    SLaid missing rnd a b vars (expand col s) := by
  have hne : ∀ {g g' : Yy.Text} {c c1 : Nat}, g ≠ [] → Lec.Clean g → (∀ s, expand c (g ++ s) = g' ++ expand c1 s) → g' ≠ [] := by
    intro g g' c c1 hg hc e
    have := e []
    rw [List.append_nil, expand, List.append_nil] at this
    rw [← this]
    exact expand_ne hg hc c
  cases h with
  | @mk g0 g1 g2 _ s hg0 hg1 hn1 hg2 hn2 he hv =>
    obtain ⟨g0', c1, h1, e1⟩ := Lec.expand_gap hg0 hc.left col
    obtain ⟨c2, e2⟩ := Lec.expand_plains (t := "sample".toList) (by decide) c1
    obtain ⟨g1', c3, h3, e3⟩ := Lec.expand_gap hg1 hc.right.right.left c2
    obtain ⟨c4, e4⟩ := Lec.expand_plains ha c3
    obtain ⟨g2', c5, h5, e5⟩ := Lec.expand_gap hg2 hc.right.right.right.right.left c4
    obtain ⟨c6, e6⟩ := Lec.expand_plains hb c5
    have hs : Lec.Clean s := hc.right.right.right.right.right.right
    rw [e1, e2, e3, e4, e5, e6]
    exact .mk h1 h3 (hne hn1 hc.right.right.left e3) h5 (hne hn2 hc.right.right.right.right.left e5)
      (Lec.numEnd_expand he hs c6) (vlaid_expand hv hs c6)

theorem PerOk.plain {p : Period} (h : PerOk p) : ∀ c ∈ p.toChars, Lec.PlainCh c := by
  obtain ⟨y, st, e, _, _⟩ := h.text
  rw [e]
  intro c hc
  rcases List.mem_append.1 hc with hc | hc
  · exact Lec.nameCh_plain (Lec.digit_nameCh (natToChars_digits _ c hc))
  · rcases List.mem_cons.1 hc with rfl | hc
    · have := h.per
      simp only [IsPeriodicity, List.mem_cons, List.not_mem_nil, or_false] at this
      rcases this with h | h | h | h | h | h <;> rw [h] <;> decide
    · exact Lec.nameCh_plain (Lec.digit_nameCh (natToChars_digits _ c hc))

/-! ## Names -/

theorem trim_name {w : Yy.Text} (h : ∀ c ∈ w, NameCh c) : trim w = w := by
  have hs : ∀ c, NameCh c → isTrimC c = false := by
    intro c hc
    have := Lec.nameCh_not_space hc
    rw [← Bool.not_eq_true] at this ⊢
    simp only [isSpace, isTrimC, Bool.or_eq_true, Bool.and_eq_true, decide_eq_true_eq] at this ⊢
    omega
  have hd : ∀ l : Yy.Text, (∀ c ∈ l, NameCh c) → l.dropWhile isTrimC = l := by
    intro l hl
    cases l with
    | nil => rfl
    | cons c r => rw [List.dropWhile_cons, hs c (hl c (by simp))]; simp
  rw [trim, hd w h, hd _ (by simpa using h), List.reverse_reverse]

theorem upper_name {c : Char} (h : NameCh c) : isUpperC (toUpperC c) ∨ isDigitC (toUpperC c) ∨ toUpperC c = '_' := by
  have : ∀ n < 128, NameCh (Char.ofNat n) →
      (isUpperC (toUpperC (Char.ofNat n)) ∨ isDigitC (toUpperC (Char.ofNat n)) ∨ toUpperC (Char.ofNat n) = '_') := by
    decide +kernel
  have h1 := this c.toNat (Lec.nameCh_lt h)
  rw [Char.ofNat_toNat] at h1
  exact h1 h

theorem upper_digit {c : Char} (h : NameCh c) (hd : ¬ Digit c) : isUpperC (toUpperC c) ∨ toUpperC c = '_' := by
  have : ∀ n < 128, NameCh (Char.ofNat n) → ¬ Digit (Char.ofNat n) →
      (isUpperC (toUpperC (Char.ofNat n)) ∨ toUpperC (Char.ofNat n) = '_') := by
    decide +kernel
  have h1 := this c.toNat (Lec.nameCh_lt h)
  rw [Char.ofNat_toNat] at h1
  exact h1 h hd

theorem putVar_name {w : Yy.Text} (h : VarName w) (v : List Dbl) (db : SMap (List Dbl)) :
    putVar w v db = SMap.insert (w.map toUpperC) v db := by
  have e : toKey .variables (w.take 20) = w.map toUpperC := by
    rw [List.take_of_length_le h.short]
    simp only [toKey, ObjType.mode, toUpper, trim_name h.all]
  have hk : checkName .variables (w.map toUpperC) = true := by
    cases w with
    | nil => exact absurd rfl h.ne
    | cons c r =>
      have hs := h.short
      simp only [List.length_cons] at hs
      simp only [List.map_cons, checkName, List.length_cons, List.length_map, Bool.and_eq_true, decide_eq_true_eq, List.all_eq_true]
      refine ⟨⟨⟨by omega, ?_⟩, ?_⟩, by omega⟩
      · rcases upper_digit (h.all c (by simp)) (h.head c rfl) with h1 | h1 <;> simp [nameHeadOk, isLetterFor, h1]
      · intro x hx
        obtain ⟨y, hy, rfl⟩ := List.mem_map.1 hx
        rcases upper_name (h.all y (by simp [hy])) with h1 | h1 | h1 <;> simp [nameTailOk, isLetterFor, h1]
  rw [putVar, e, if_pos hk]

theorem puts_names {nb : Nat} {vars : List (Yy.Text × List Dbl)} (h : ∀ e ∈ vars, VarName e.1) (db : SMap (List Dbl)) :
    puts nb vars db = vars.foldl (fun db e => SMap.insert (e.1.map toUpperC) (fit na nb e.2) db) db := by
  induction vars generalizing db with
  | nil => rfl
  | cons e r ih =>
    rw [puts, List.foldl_cons, List.foldl_cons, putVar_name (h e (by simp))]
    exact ih (fun e he => h e (by simp [he])) _

theorem vlaid_names {missing : Dbl} {rnd : Rat → Dbl} {vars : List (Yy.Text × List Dbl)} {s : Yy.Text}
    (h : VLaid missing rnd vars s) : ∀ e ∈ vars, VarName e.1 := by
  induction h with
  | nil => intro e he; cases he
  | var _ hw _ _ _ ih =>
    intro e he
    rcases List.mem_cons.1 he with rfl | he
    · exact hw
    · exact ih e he

end Asc
end Iode
