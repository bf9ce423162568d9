import Verif.Model.Import
import Verif.Spec.Import
import Verif.Lemmas.Ascii
import Verif.Lemmas.AscText
import Verif.Lemmas.RepFn
import Verif.Lemmas.DynAdj
import Verif.Lemmas.SMap
import Verif.Props.C23

/-! # Importing with rules -/
namespace Iode
namespace Imp
open Yy Asc Lec.Written Asc.Written Printf
open Written (words lineRule Inked Trail RuleFile rename Chosen Renamed LongName)

/-! ## Rules -/

theorem fgets_line {l : Yy.Text} (hn : '\n' ∉ l) (hl : l.length ≤ 254) (s : Yy.Text) : fgets (l ++ '\n' :: s) = l ++ ['\n'] := by
  obtain ⟨k, hk⟩ : ∃ k, 255 = l.length + (k + 1) := ⟨254 - l.length, by omega⟩
  have e : (l ++ '\n' :: s).take 255 = l ++ '\n' :: s.take k := by
    rw [hk, List.take_length_add_append, List.take_succ_cons]
  have h1 : ∀ x ∈ l, decide (x ≠ '\n') = true := fun x hx => decide_eq_true fun h => hn (h ▸ hx)
  rw [fgets, e, List.takeWhile_append_of_pos h1, List.dropWhile_append_of_pos h1]
  simp

theorem fgets_last {l : Yy.Text} (hn : '\n' ∉ l) (hl : l.length ≤ 255) : fgets l = l := by
  have h1 : ∀ x ∈ l, decide (x ≠ '\n') = true := fun x hx => decide_eq_true fun h => hn (h ▸ hx)
  rw [fgets, List.take_of_length_le hl, List.takeWhile_eq_self_iff.2 h1, List.dropWhile_eq_nil_iff.2 h1]
  simp

theorem cutEnd_line {l b : Yy.Text} (hl : Inked l) (hb : ∀ c ∈ b, Blank c) : cutEnd (l ++ b) = .ok l := by
  obtain ⟨_, c, hc, hcb⟩ := hl
  obtain ⟨m, rfl⟩ : ∃ m, l = m ++ [c] := ⟨l.dropLast, (List.dropLast_append_getLast? c hc).symm⟩
  have hb' : ∀ x ∈ b.reverse, isSpace x = true := fun x hx => blank_space.2 (hb x (by simpa using hx))
  rw [cutEnd, List.reverse_append, List.dropWhile_append_of_pos hb', List.reverse_append, List.reverse_singleton,
    List.singleton_append, List.dropWhile_cons_of_neg (by simp [not_blank hcb])]
  simp

theorem vtoms_line (l : Yy.Text) : RepFn.vtoms [' ', '\t'] (l.length + 1) l = .ok (words l) := by
  rw [RepFn.vtoms_words _ _ _ (by omega), words, Expand.words]
  congr 3
  funext c
  by_cases h1 : c = ' ' <;> by_cases h2 : c = '\t' <;> simp [h1, h2]

theorem rules_bind (tbl : List Yy.Text) (rs : List Rule) :
    (match tbl with
      | [p, r] => Res.ok ((p, r) :: rs)
      | _ => Res.ok rs) = Res.ok ((match tbl with
      | [p, r] => [(p, r)]
      | _ => []) ++ rs) := by
  rcases tbl with _ | ⟨a, _ | ⟨b, _ | ⟨c, t⟩⟩⟩ <;> rfl

theorem trail_blank {b : Yy.Text} (hb : Trail b) : ∀ c ∈ b, Blank c := fun c hc => (hb c hc).1

theorem ruleLoop_file {rs : List Rule} {s : Yy.Text} (h : RuleFile rs s) : ∀ n, s.length < n → ruleLoop n s = .ok rs := by
  induction h with
  | nil =>
    intro n hn
    cases n with
    | zero => simp at hn
    | succ n => rw [ruleLoop, if_pos rfl]
  | @last l b hl hb hlen =>
    intro n hn
    have hnl : '\n' ∉ l ++ b := by
      intro h
      rcases List.mem_append.1 h with h | h
      · exact hl.1 h
      · exact (hb _ h).2 rfl
    cases n with
    | zero => omega
    | succ n =>
      have hne : l ++ b ≠ [] := by
        obtain ⟨c, hc, _⟩ := hl.2
        rintro h
        rw [(List.append_eq_nil_iff.1 h).1] at hc
        cases hc
      have hpos := List.length_pos_iff.2 hne
      rw [ruleLoop, if_neg hne, fgets_last hnl (by omega), cutEnd_line hl (trail_blank hb)]
      simp only [Res.bind]
      rw [vtoms_line]
      simp only [List.drop_length]
      cases n with
      | zero => omega
      | succ n =>
        rw [ruleLoop, if_pos rfl]
        have := rules_bind (words l) []
        simp only at this ⊢
        rw [List.append_nil] at this
        exact this
  | @line l b rs s hl hb hlen _ ih =>
    intro n hn
    have hnl : '\n' ∉ l ++ b := by
      intro h
      rcases List.mem_append.1 h with h | h
      · exact hl.1 h
      · exact (hb _ h).2 rfl
    cases n with
    | zero => omega
    | succ n =>
      have e0 : l ++ (b ++ '\n' :: s) = (l ++ b) ++ '\n' :: s := by simp
      rw [e0] at hn ⊢
      rw [ruleLoop, if_neg (by simp), fgets_line hnl hlen, List.append_assoc l b ['\n'],
        cutEnd_line hl (by
          intro c hc
          rcases List.mem_append.1 hc with hc | hc
          · exact (hb c hc).1
          · rw [List.mem_singleton.1 hc]; decide)]
      simp only [Res.bind]
      rw [vtoms_line]
      simp only
      have e1 : (l ++ b ++ '\n' :: s).drop (l ++ (b ++ ['\n'])).length = s := by
        have : l ++ b ++ '\n' :: s = (l ++ (b ++ ['\n'])) ++ s := by simp
        rw [this, List.drop_left]
      rw [e1, ih n (by simp at hn; omega)]
      exact rules_bind (words l) rs

/-! ## Names -/

theorem changeLoop_eq (r w out : Yy.Text) (h : out.length ≤ 20) : changeLoop r w out = (out ++ rename r w).take 20 := by
  induction r generalizing w out with
  | nil => rw [changeLoop, rename, List.append_nil, List.take_of_length_le h]
  | cons c r ih =>
    rw [changeLoop.eq_def, rename.eq_def]
    simp only
    by_cases hl : out.length < 20
    · rw [if_pos hl]
      by_cases hm : c = '-'
      · rw [if_pos hm, if_neg (by rw [hm]; decide), if_pos hm]
        cases w with
        | nil => simp only [List.append_nil]; rw [List.take_of_length_le h]
        | cons x w => exact ih w out h
      · rw [if_neg hm]
        by_cases hp : c = '+'
        · rw [if_pos hp, if_pos hp]
          cases w with
          | nil => simp only [List.append_nil]; rw [List.take_of_length_le h]
          | cons x w =>
            simp only
            rw [ih w (out ++ [x]) (by simp; omega)]
            simp
        · rw [if_neg hp, if_neg hp, if_neg hm, ih w (out ++ [c]) (by simp; omega)]
          simp
    · rw [if_neg hl]
      have : out.length = 20 := by omega
      rw [List.take_append_of_le_length (by omega), ← this, List.take_length]

/-- The patterns of the rules are made of `*`, `?` and other characters. -/
def Plain (rules : List Rule) : Prop := ∀ e ∈ rules, Grep.Simple e.1 ∧ Grep.NoStarRun e.1

theorem change_chosen {rules : List Rule} (h : Plain rules) {w : Yy.Text} {o : Option Yy.Text}
    (hc : Chosen (Grep.Cut Grep.noCase) w rules o) : change rules w = .ok o := by
  induction hc with
  | none => rfl
  | @this p r rs hf =>
    obtain ⟨hs, hr⟩ := h (p, r) (by simp)
    obtain ⟨b, e, hb⟩ := Grep.C23_simple_partial Grep.noCase p w hs hr
    rw [hb.2 hf] at e
    rw [change, findRule, e]
    simp only [Res.bind, if_true, Option.map_some]
    rw [changeLoop_eq _ _ _ (by simp)]
    rfl
  | @later p r rs o hf _ ih =>
    obtain ⟨hs, hr⟩ := h (p, r) (by simp)
    obtain ⟨b, e, hb⟩ := Grep.C23_simple_partial Grep.noCase p w hs hr
    have hbf : b = false := by
      cases b
      · rfl
      · exact absurd (hb.1 rfl) hf
    rw [hbf] at e
    have := ih (fun e he => h e (by simp [he]))
    rw [change] at this ⊢
    rw [findRule, e]
    simp only [Res.bind, Bool.false_eq_true, if_false] at this ⊢
    exact this

/-- The rules say what becomes of every name. -/
theorem chosen_total (fits : Yy.Text → Yy.Text → Prop) (w : Yy.Text) (rules : List Rule) : ∃ o, Chosen fits w rules o := by
  induction rules with
  | nil => exact ⟨_, .none⟩
  | cons e rs ih =>
    obtain ⟨p, r⟩ := e
    by_cases h : fits p w
    · exact ⟨_, .this h⟩
    · obtain ⟨o, ho⟩ := ih
      exact ⟨o, .later h ho⟩

theorem renamed_total {α : Type} (fits : Yy.Text → Yy.Text → Prop) (rules : List Rule) (l : List (Yy.Text × α)) :
    ∃ l', Renamed fits rules l l' := by
  induction l with
  | nil => exact ⟨_, .nil⟩
  | cons e l ih =>
    obtain ⟨w, v⟩ := e
    obtain ⟨l', h⟩ := ih
    obtain ⟨o, ho⟩ := chosen_total fits w rules
    cases o with
    | none => exact ⟨l', .drop ho h⟩
    | some n => exact ⟨(n, v) :: l', .keep ho h⟩

/-! ## Values -/

theorem findWord_none {w : Yy.Text} (h : w ≠ "sample".toList) : findWord keys w = none := by
  rw [findWord, keys, Option.map_eq_none_iff, List.find?_eq_none]
  intro e he hd
  rw [List.mem_singleton.1 he] at hd
  simp only [decide_eq_true_eq] at hd
  exact h hd.symm

theorem oper_none (c : Char) : operKeys keys c = none := by
  rw [operKeys, keys]
  simp

theorem reads_longName {w s : Yy.Text} (h : LongName w) (hk : w ≠ "sample".toList) (hs : NameEnd s) :
    Reads keys (w ++ s) (.raw (.word w)) (.word w) s := by
  have := reads_word (tbl := keys) h.ne h.head h.all hs
  rwa [findWord_none hk] at this

theorem reads_na {s : Yy.Text} (hs : NameEnd s) :
    Reads keys ('n' :: 'a' :: s) (.raw (.word ['n', 'a'])) (.word ['n', 'a']) s := by
  have := reads_word (tbl := keys) (w := ['n', 'a']) (by decide) (by intro c h; cases h; decide) (by decide) hs
  rwa [show findWord keys ['n', 'a'] = none by decide +kernel] at this

theorem reads_minus (s : Yy.Text) : Reads keys ('-' :: s) (.raw (.special '-')) (.special '-') s :=
  reads_of (Lec.read_special (by decide) s) (by simp) (by simp) (by simp) (by simp [classify, findOper, oper_none])

theorem reads_mark {c : Char} (hc : c = '.' ∨ c = '/') {s : Yy.Text} (hs : BlankEnd s) :
    Reads keys (c :: s) (.raw (.special c)) (.special c) s := by
  have key : Yy.read (c :: s) = (.special c, s) := by
    rcases hc with rfl | rfl
    · rw [Yy.read, skipSpaces_stop (by decide)]
      simp only
      rw [if_neg (by decide), readFrom.eq_def, if_neg (by decide), if_neg (by decide), if_neg (by decide), if_neg (by decide),
        if_neg (by decide), if_neg (by decide), if_pos rfl]
      cases s with
      | nil => rfl
      | cons a r =>
        simp only
        rw [if_neg]
        have := hs a rfl
        simp only [White] at this
        simp only [isNum, Bool.and_eq_true, decide_eq_true_eq]
        omega
    · refine Lec.read_slash (fun h => ?_) (fun h => ?_)
      · have := hs _ h
        revert this
        decide
      · have := hs _ h
        revert this
        decide
  exact reads_of key (by simp) (by simp) (by simp) (by simp only [classify, findOper, oper_none])

theorem readReal_minus {x s : Yy.Text} {r : Raw} (h : Reads keys x (.raw (.special '-')) r s) (n : Nat) (neg : Bool) (typ : Raw) :
    readReal keys (n + 1) neg ⟨typ, false, x⟩ = readReal keys n true ⟨r, false, s⟩ := by
  rw [readReal, h.lxs]
  simp only [Res.bind]
  rw [if_pos trivial]

/-- The end of the values of a variable: a name, or the end of the text. -/
def Stop (r : Raw) : Prop := r = .eof ∨ ∃ w, r = .word w ∧ w ≠ ['n', 'a'] ∧ findWord keys w = none

theorem lxs_back {r : Raw} (h : Stop r) (s : Yy.Text) : lxs keys ⟨r, true, s⟩ = .ok (.raw r, ⟨r, false, s⟩) := by
  rw [lxs, lx, rd]
  rcases h with rfl | ⟨w, rfl, _, h2⟩
  · rfl
  · simp only [if_true, Res.bind]
    rw [if_neg (by simp)]
    simp only [classify, h2]

theorem real_stop {st : St} {r : Raw} {s : Yy.Text} (hl : lxs keys st = .ok (.raw r, ⟨r, false, s⟩)) (h : Stop r) :
    real keys st = .ok (na, ⟨r, true, s⟩) := by
  rw [real, readReal, hl]
  simp only [Res.bind]
  rcases h with rfl | ⟨w, rfl, h1, _⟩
  · rfl
  · simp only
    rw [if_neg h1]
    rfl

theorem vals_stop {r : Raw} (h : Stop r) {s : Yy.Text} (n : Nat) : vals n ⟨r, true, s⟩ = .ok (List.replicate n na, ⟨r, true, s⟩) := by
  induction n with
  | zero => rfl
  | succ n ih =>
    rw [vals, real_stop (lxs_back h s) h]
    simp only [Res.bind]
    rw [ih]
    rfl

theorem vals_stop' {st : St} {r : Raw} {s : Yy.Text} (hl : lxs keys st = .ok (.raw r, ⟨r, false, s⟩)) (h : Stop r)
    (n : Nat) : vals (n + 1) st = .ok (List.replicate (n + 1) na, ⟨r, true, s⟩) := by
  rw [vals, real_stop hl h]
  simp only [Res.bind]
  rw [vals_stop h]
  rfl

/-- What `read_variable` does with a name or the end of the file. -/
def next (dim : Nat) (r : Raw) (s : Yy.Text) : Res (Option (Yy.Text × List Dbl) × St) :=
  match r with
  | .word w => (vals dim ⟨.word w, false, s⟩).bind fun q => .ok (some (w.take 79, q.1), q.2)
  | r => .ok (none, ⟨r, false, s⟩)

theorem readVariable_stop {dim : Nat} {st : St} {r : Raw} {s : Yy.Text} (hl : lxs keys st = .ok (.raw r, ⟨r, false, s⟩)) (h : Stop r)
    (n : Nat) : readVariable dim (n + 1) st = next dim r s := by
  rw [readVariable, hl]
  simp only [Res.bind]
  rcases h with rfl | ⟨w, rfl, h1, _⟩
  · rfl
  · simp only
    rw [if_neg h1]
    rfl

/-- One value in front of a text. -/
theorem vals_head {v : Dbl} {vs : List Dbl} {x s' : Yy.Text} (h : Vals na ieee (v :: vs) x s') :
    ∃ s r, (∀ typ, real keys ⟨typ, false, x⟩ = .ok (v, ⟨r, false, s⟩)) ∧ Vals na ieee vs s s' ∧ s.length < x.length ∧
      ∀ dim typ n, x.length < n → ∃ m, s.length < m ∧ readVariable dim n ⟨typ, false, x⟩ = readVariable dim m ⟨r, false, s⟩ := by
  cases h with
  | @na g _ s _ hg he hv =>
    have hr := reads_gap (reads_na he) hg
    refine ⟨s, .word ['n', 'a'], fun typ => ?_, hv, by simp; omega, fun dim typ n hn => ?_⟩
    · rw [real, readReal, hr.lxs]
      simp only [Res.bind]
      rw [if_pos trivial]
    · cases n with
      | zero => omega
      | succ n =>
        refine ⟨n, by simp at hn; omega, ?_⟩
        rw [readVariable, hr.lxs]
        simp only [Res.bind]
        rw [if_pos trivial]
  | @mark g c _ s _ hg hk he hv =>
    have hr := reads_gap (reads_mark hk he) hg
    refine ⟨s, .special c, fun typ => ?_, hv, by simp; omega, fun dim typ n hn => ?_⟩
    · rw [real, readReal, hr.lxs]
      simp only [Res.bind]
      rw [if_neg (by rcases hk with rfl | rfl <;> decide), if_pos hk.symm]
    · cases n with
      | zero => omega
      | succ n =>
        refine ⟨n, by simp at hn; omega, ?_⟩
        rw [readVariable, hr.lxs]
        simp only [Res.bind]
  | @num g t q _ s _ hg ht hl he hv =>
    obtain ⟨r, h1, h2⟩ := reads_num (tbl := keys) ht hl he
    have h1 := reads_gap h1 hg
    have hlen := numeral_ne ht
    refine ⟨s, r, fun typ => ?_, hv, by simp; omega, fun dim typ n hn => ?_⟩
    · rw [real, readReal_num h1 h2, signed_false]
    · cases n with
      | zero => omega
      | succ n =>
        refine ⟨n, by simp at hn; omega, ?_⟩
        rw [readVariable, h1.lxs]
        simp only [Res.bind]
        rcases h2 with ⟨d, rfl, _, _⟩ | ⟨d, rfl, _⟩ <;> rfl
  | @neg g g' t q _ s _ hg hg' ht hl he hv =>
    obtain ⟨r, h1, h2⟩ := reads_num (tbl := keys) ht hl he
    have h1 := reads_gap h1 hg'
    have h0 := reads_gap (reads_minus (g' ++ (t ++ s))) hg
    have hlen := numeral_ne ht
    refine ⟨s, r, fun typ => ?_, hv, by simp; omega, fun dim typ n hn => ?_⟩
    · rw [real, readReal_minus h0]
      obtain ⟨k, hk⟩ : ∃ k, (g ++ '-' :: (g' ++ (t ++ s))).length + 1 = k + 1 := ⟨_, rfl⟩
      simp only [hk]
      rw [readReal_num h1 h2, ieee_neg]
    · cases n with
      | zero => omega
      | succ n =>
        cases n with
        | zero => simp at hn
        | succ n =>
          refine ⟨n, by simp at hn; omega, ?_⟩
          rw [readVariable, h0.lxs]
          simp only [Res.bind]
          rw [readVariable, h1.lxs]
          simp only [Res.bind]
          rcases h2 with ⟨d, rfl, _, _⟩ | ⟨d, rfl, _⟩ <;> rfl

theorem readVariable_vals {dim : Nat} {vs : List Dbl} {s' s'' : Yy.Text} {r : Raw} (hr : Reads keys s' (.raw r) r s'')
    (hst : Stop r) : ∀ {x : Yy.Text}, Vals na ieee vs x s' → ∀ typ n, x.length < n →
      readVariable dim n ⟨typ, false, x⟩ = next dim r s'' := by
  induction vs with
  | nil =>
    intro x h typ n hn
    cases h
    cases n with
    | zero => omega
    | succ n => exact readVariable_stop (hr.lxs typ) hst n
  | cons v vs ih =>
    intro x h typ n hn
    obtain ⟨s, r', _, h2, _, h4⟩ := vals_head h
    obtain ⟨m, h5, h6⟩ := h4 dim typ n hn
    rw [h6]
    exact ih h2 r' m h5

/-- The values of a variable, and what is read behind them. -/
theorem vals_vals {s' s'' : Yy.Text} {r : Raw} (hr : Reads keys s' (.raw r) r s'') (hst : Stop r) (dim nb : Nat) :
    ∀ {vs : List Dbl} {x : Yy.Text}, Vals na ieee vs x s' → ∀ typ, ∃ st,
      vals nb ⟨typ, false, x⟩ = .ok (fit na nb vs, st) ∧
        ∀ n, st.text.length + 1 < n → readVariable dim n st = next dim r s'' := by
  induction nb with
  | zero =>
    intro vs x h typ
    exact ⟨_, by rw [vals, fit]; simp, fun n hn => readVariable_vals hr hst h typ n (by simp at hn ⊢; omega)⟩
  | succ nb ih =>
    intro vs x h typ
    cases vs with
    | nil =>
      cases h
      refine ⟨⟨r, true, s''⟩, by rw [fit_nil, vals_stop' (hr.lxs typ) hst], fun n hn => ?_⟩
      cases n with
      | zero => omega
      | succ n => exact readVariable_stop (lxs_back hst s'') hst n
    | cons v vs =>
      obtain ⟨s, r', h1, h2, _, _⟩ := vals_head h
      obtain ⟨st, h3, h4⟩ := ih h2 r'
      refine ⟨st, ?_, h4⟩
      rw [vals, h1]
      simp only [Res.bind]
      rw [h3, fit_cons]

/-! ## Variables -/

/-- The element a text of variables begins with, and what is behind it. -/
def Entry : List (Yy.Text × List Dbl) → Raw → Yy.Text → Prop
  | [], r, _ => r = .eof
  | (w, vs) :: rest, r, s => r = .word w ∧ LongName w ∧ ∃ s', Vals na ieee vs s s' ∧ Written.VLaid na ieee rest s'

theorem vlaid_entry {vars : List (Yy.Text × List Dbl)} {x : Yy.Text} (h : Written.VLaid na ieee vars x) :
    ∃ r s, Reads keys x (.raw r) r s ∧ Stop r ∧ Entry vars r s := by
  cases h with
  | nil hg =>
    have := reads_gap (reads_eof keys) hg
    rw [List.append_nil] at this
    exact ⟨_, _, this, .inl rfl, rfl⟩
  | @var g w vs rest s s' hg hw hna hk he hv hl =>
    exact ⟨_, _, reads_gap (reads_longName hw hk he) hg, .inr ⟨w, rfl, hna, findWord_none hk⟩, rfl, hw, s', hv, hl⟩

/-- The database after a list of objects. -/
def puts {α : Type} (ty : ObjType) : List (Yy.Text × α) → SMap α → Res (SMap α)
  | [], db => .ok db
  | e :: l, db => (put ty e.1 e.2 db).bind fun db => puts ty l db

/-- The variables of a sample of `nb` periods. -/
def fits (nb : Nat) (l : List (Yy.Text × List Dbl)) : List (Yy.Text × List Dbl) := l.map fun e => (e.1, fit na nb e.2)

theorem varLoop_entry {rules : List Rule} (hp : Plain rules) {nb : Nat} : ∀ {vars kept : List (Yy.Text × List Dbl)} {st : St} {r : Raw}
    {s : Yy.Text} (_ : ∀ n, st.text.length + 1 < n → readVariable nb n st = next nb r s) (_ : Entry vars r s)
    (_ : Renamed (Grep.Cut Grep.noCase) rules vars kept) (n : Nat) (_ : vars.length < n) (db : SMap (List Dbl)),
    varLoop rules nb n st db = puts .variables (fits nb kept) db := by
  intro vars
  induction vars with
  | nil =>
    intro kept st r s hl he hk n hn db
    cases he
    cases hk
    cases n with
    | zero => omega
    | succ n =>
      rw [varLoop, hl _ (by omega)]
      rfl
  | cons e rest ih =>
    obtain ⟨w, vs⟩ := e
    intro kept st r s hl he hk n hn db
    obtain ⟨rfl, hw, s', hv, hrest⟩ := he
    obtain ⟨r', s'', h1, h2, h3⟩ := vlaid_entry hrest
    obtain ⟨st', h4, h5⟩ := vals_vals h1 h2 nb nb hv (.word w)
    cases n with
    | zero => omega
    | succ n =>
      rw [varLoop, hl _ (by omega)]
      simp only [next, Res.bind]
      rw [h4]
      simp only
      rw [List.take_of_length_le hw.short]
      cases hk with
      | drop hc hr =>
        rw [change_chosen hp hc]
        simp only
        exact ih h5 h3 hr n (by simp at hn; omega) db
      | @keep _ _ m _ l' hc hr =>
        rw [change_chosen hp hc]
        simp only
        rw [fits, List.map_cons, puts]
        simp only
        cases hput : put .variables m (fit na nb vs) db with
        | ok db' =>
          simp only [Res.bind]
          exact ih h5 h3 hr n (by simp at hn; omega) db'
        | err => rfl
        | ub => rfl

theorem vlaid_length {vars : List (Yy.Text × List Dbl)} {s : Yy.Text} (h : Written.VLaid na ieee vars s) : vars.length ≤ s.length := by
  induction h with
  | nil => simp
  | var _ hw _ _ _ hv _ ih =>
    have := vals_length hv
    have := List.length_pos_iff.2 hw.ne
    simp
    omega

theorem vlaid_expand {missing : Dbl} {rnd : Rat → Dbl} {vars : List (Yy.Text × List Dbl)} {s : Yy.Text}
    (h : Written.VLaid missing rnd vars s) (hc : Lec.Clean s) (col : Nat) : Written.VLaid missing rnd vars (expand col s) := by
  induction h generalizing col with
  | nil hg =>
    obtain ⟨g', c1, h1, e1⟩ := Lec.expand_gap hg hc col
    have := e1 []
    rw [List.append_nil] at this
    rw [this, expand, List.append_nil]
    exact .nil h1
  | @var g w vs r s s' hg hw h8 h9 he hv _ ih =>
    obtain ⟨g', c1, h1, e1⟩ := Lec.expand_gap hg hc.left col
    obtain ⟨c2, e2⟩ := Lec.expand_plains (fun c hc => Lec.nameCh_plain (hw.all c hc)) c1
    have hs : Lec.Clean s := hc.right.right
    obtain ⟨h3, c3, h4⟩ := vals_expand hv hs c2
    rw [e1, e2]
    exact .var h1 hw h8 h9 (Lec.nameEnd_expand he hs c2) h4 (ih h3 c3)

theorem slaid_expand {missing : Dbl} {rnd : Rat → Dbl} {a b : Yy.Text} (ha : ∀ c ∈ a, Lec.PlainCh c) (hb : ∀ c ∈ b, Lec.PlainCh c)
    {vars : List (Yy.Text × List Dbl)} {s : Yy.Text} (h : Written.SLaid missing rnd a b vars s) (hc : Lec.Clean s) (col : Nat) :
    Written.SLaid missing rnd a b vars (expand col s) := by
  have hne : ∀ {g g' : Yy.Text} {c c1 : Nat}, g ≠ [] → Lec.Clean g → (∀ s, expand c (g ++ s) = g' ++ expand c1 s) → g' ≠ [] := by
    intro g g' c c1 hg hc e
    have := e []
    rw [List.append_nil, expand, List.append_nil] at this
    rw [← this]
    exact expand_ne hg hc c
  cases h with
  | @mk g0 g1 g2 _ s hg0 hg1 hn1 hg2 hn2 he hv =>
    obtain ⟨g0', c1, h1, e1⟩ := Lec.expand_gap hg0 hc.left col
    obtain ⟨c2, e2⟩ := Lec.expand_plains (t := "sample".toList) (by decide) c1
    obtain ⟨g1', c3, h3, e3⟩ := Lec.expand_gap hg1 hc.right.right.left c2
    obtain ⟨c4, e4⟩ := Lec.expand_plains ha c3
    obtain ⟨g2', c5, h5, e5⟩ := Lec.expand_gap hg2 hc.right.right.right.right.left c4
    obtain ⟨c6, e6⟩ := Lec.expand_plains hb c5
    have hs : Lec.Clean s := hc.right.right.right.right.right.right
    rw [e1, e2, e3, e4, e5, e6]
    exact .mk h1 h3 (hne hn1 hc.right.right.left e3) h5 (hne hn2 hc.right.right.right.right.left e5)
      (Lec.numEnd_expand he hs c6) (vlaid_expand hv hs c6)

/-- A whole text. -/
theorem interpretVar_laid {file : Option Yy.Text} {rules : List Rule} (hr : readRules file = .ok rules) (hp : Plain rules) {smp : Sample}
    (h1 : PerOk smp.start) (h2 : PerOk smp.stop) (hs : Sample.ofPeriods smp.start smp.stop = .ok smp) (hnb : 0 < smp.nb)
    {vars kept : List (Yy.Text × List Dbl)} {t : Yy.Text}
    (h : Written.SLaid na ieee smp.start.toChars smp.stop.toChars vars (expand 0 t))
    (hk : Renamed (Grep.Cut Grep.noCase) rules vars kept) :
    interpretVar file (some t) = (puts .variables (fits smp.nb.toNat kept) []).bind fun db => .ok (some ⟨some smp, db⟩) := by
  generalize hx : expand 0 t = x at h
  rw [interpretVar, hr]
  simp only [Res.bind]
  rw [hx]
  cases h with
  | @mk g0 g1 g2 _ s hg0 hg1 hn1 hg2 hn2 he hv =>
    have hkey : Reads keys ("sample".toList ++ (g1 ++ (smp.start.toChars ++ (g2 ++ (smp.stop.toChars ++ s))))) (.key 1)
        (.word "sample".toList) (g1 ++ (smp.start.toChars ++ (g2 ++ (smp.stop.toChars ++ s)))) := by
      have := reads_word (tbl := keys) (w := "sample".toList) (by decide) (by intro c h; cases h; decide) (by decide)
        (gap_ends hg1 hn1 (smp.start.toChars ++ (g2 ++ (smp.stop.toChars ++ s)))).1
      rwa [show findWord keys "sample".toList = some 1 by decide +kernel] at this
    obtain ⟨r, e⟩ := readSmpl_ok (tbl := keys) h1 h2 hs hg1 hg2 hn2 he (.word "sample".toList)
    rw [readHeader, (reads_gap hkey hg0).lxs]
    simp only [Res.bind]
    rw [if_pos trivial, e]
    simp only
    obtain ⟨r', s'', k1, k2, k3⟩ := vlaid_entry hv
    have hlen := vlaid_length hv
    rw [varLoop_entry hp (r := r') (s := s'') (fun n hn => by
      cases n with
      | zero => omega
      | succ n => exact readVariable_stop (k1.lxs r) k2 n) k3 hk _ (by omega)]
    rw [if_neg (by omega)]

/-! ## Comments -/

theorem reads_cmtName {w s : Yy.Text} (h : LongName w) (hs : NameEnd s) : Reads noKeys (w ++ s) (.raw (.word w)) (.word w) s := by
  have := reads_word (tbl := noKeys) h.ne h.head h.all hs
  rwa [noKeys_word] at this

theorem strip_text {t u : Yy.Text} (h : Written.Stripped t u) : RepFn.stripText t = u := by
  obtain ⟨b, rfl, h1, h2⟩ := h
  exact DynAdj.strip_blanks h1 h2

theorem cmtLoop_laid {rules : List Rule} (hp : Plain rules) {cmts : List (Yy.Text × Yy.Text)} {x : Yy.Text} (h : Written.CLaid cmts x) :
    ∀ {kept : List (Yy.Text × Yy.Text)} (_ : Renamed (Grep.Cut Grep.noCase) rules cmts kept) (_ : ∀ c ∈ x, c.toNat ≠ 0) (typ : Raw)
      (n : Nat) (_ : cmts.length < n) (db : SMap Yy.Text), cmtLoop rules n ⟨typ, false, x⟩ db = puts .comments kept db := by
  induction h with
  | nil hg =>
    intro kept hk _ typ n hn db
    cases hk
    have := reads_gap (reads_eof noKeys) hg
    rw [List.append_nil] at this
    cases n with
    | zero => omega
    | succ n =>
      rw [cmtLoop, this.lxs]
      rfl
  | @cmt g w g' t u b rest s hg hw hg' hl hu _ ih =>
    intro kept hk h0 typ n hn db
    have ht : cstr t = t := cstr_self (lit_noNul hl fun c hc => h0 c (by simp [hc]))
    have ih := fun {kept} hk => @ih kept hk fun c hc => h0 c (by simp [hc])
    cases n with
    | zero => omega
    | succ n =>
      rw [cmtLoop, (reads_gap (reads_cmtName hw (gap_quote hg' _)) hg).lxs]
      simp only [Res.bind, cmtLoop.textOf]
      rw [(reads_gap (reads_string hl s) hg').lxs]
      simp only
      rw [List.take_of_length_le hw.short, ht, strip_text hu]
      cases hk with
      | drop hc hr =>
        rw [change_chosen hp hc]
        exact ih hr _ n (by simp at hn; omega) db
      | @keep _ _ m _ l' hc hr =>
        rw [change_chosen hp hc, puts]
        simp only
        cases hput : put .comments m u db with
        | ok db' => exact ih hr _ n (by simp at hn; omega) db'
        | err => rfl
        | ub => rfl

theorem claid_length {cmts : List (Yy.Text × Yy.Text)} {s : Yy.Text} (h : Written.CLaid cmts s) : cmts.length ≤ s.length := by
  induction h with
  | nil => simp
  | cmt _ _ _ _ _ _ ih => simp; omega

theorem claid_expand {cmts : List (Yy.Text × Yy.Text)} {s : Yy.Text} (h : Written.CLaid cmts s) (hc : Lec.Clean s) (col : Nat) :
    Written.CLaid cmts (expand col s) := by
  induction h generalizing col with
  | nil hg =>
    obtain ⟨g', c1, h1, e1⟩ := Lec.expand_gap hg hc col
    have := e1 []
    rw [List.append_nil] at this
    rw [this, expand, List.append_nil]
    exact .nil h1
  | @cmt g w g0 t u b r s hg hw hg0 hl hu _ ih =>
    obtain ⟨g', c1, h1, e1⟩ := Lec.expand_gap hg hc.left col
    obtain ⟨c2, e2⟩ := Lec.expand_plains (fun c hc => Lec.nameCh_plain (hw.all c hc)) c1
    have hc1 := hc.right.right
    obtain ⟨g1, c3, h3, e3⟩ := Lec.expand_gap hg0 hc1.left c2
    obtain ⟨c4, e4⟩ := Lec.expand_plain (c := '"') (by decide) c3
    have hc2 := hc1.right.tail
    obtain ⟨c5, e5⟩ := Lec.expand_plains (t := b) (fun c hb => Lec.plain_of (hc2.left c hb) (lit_tab hl c hb)) c4
    obtain ⟨c6, e6⟩ := Lec.expand_plain (c := '"') (by decide) c5
    rw [e1, e2, e3, e4, e5, e6]
    exact .cmt h1 hw h3 hl hu (ih hc2.right.tail c6)

theorem claid_noNul {cmts : List (Yy.Text × Yy.Text)} {s : Yy.Text} (hc : Lec.Clean s) : ∀ c ∈ s, c.toNat ≠ 0 :=
  fun c h => (hc c h).1

/-! ## Keys -/

/-- Whether names of a type are in upper case. -/
def upper (ty : ObjType) : Bool := decide (ty = .variables)

theorem put_name {α : Type} {ty : ObjType} (ht : ty = .variables ∨ ty = .comments) {w : Yy.Text} (h : ObjName w) (v : α) (db : SMap α) :
    put ty w v db = .ok (SMap.insert (keyOf (upper ty) w) v db) := by
  rcases ht with rfl | rfl
  · obtain ⟨h1, h2⟩ := key_name (ty := .identities) (by simp [IsText]) h
    rw [List.take_of_length_le h.short] at h1
    have e1 : toKey .variables w = keyOf true w := h1
    have e2 : checkName .variables (keyOf true w) = true := h2
    rw [put, e1, if_pos e2]
    rfl
  · obtain ⟨h1, h2⟩ := key_name (ty := .comments) (by simp [IsText]) h
    rw [List.take_of_length_le h.short] at h1
    have e1 : toKey .comments w = keyOf false w := h1
    have e2 : checkName .comments (keyOf false w) = true := h2
    rw [put, e1, if_pos e2]
    rfl

theorem puts_fold {α : Type} {ty : ObjType} (ht : ty = .variables ∨ ty = .comments) {l : List (Yy.Text × α)} (h : ∀ e ∈ l, ObjName e.1)
    (db : SMap α) : puts ty l db = .ok (l.foldl (fun db e => SMap.insert (keyOf (upper ty) e.1) e.2 db) db) := by
  induction l generalizing db with
  | nil => rfl
  | cons e l ih =>
    rw [puts, put_name ht (h e (by simp))]
    exact ih (fun e he => h e (by simp [he])) _

theorem puts_ok {α : Type} {ty : ObjType} (ht : ty = .variables ∨ ty = .comments) {l : List (Yy.Text × α)} (h : ∀ e ∈ l, ObjName e.1) :
    ∃ db, puts ty l [] = .ok db ∧ SMap.Sorted db ∧ ∀ k, SMap.find k db = lastDef (upper ty) l k := by
  refine ⟨_, puts_fold ht h [], ?_, fun k => ?_⟩
  · clear h
    induction l using List.reverseRecOn with
    | nil => trivial
    | append_singleton l e ih =>
      rw [List.foldl_append, List.foldl_cons, List.foldl_nil]
      exact SMap.sorted_insert _ _ _ ih
  · clear h
    induction l using List.reverseRecOn with
    | nil => rfl
    | append_singleton l e ih =>
      rw [List.foldl_append, List.foldl_cons, List.foldl_nil, lastDef, List.filter_append]
      by_cases hk : keyOf (upper ty) e.1 = k
      · rw [hk, SMap.find_insert_self]
        simp [hk]
      · rw [SMap.find_insert_ne _ _ (Ne.symm hk), ih, lastDef]
        simp [hk]

theorem trim_mem {c : Char} {n : Yy.Text} (h : c ∈ n) (hc : isTrimC c = false) : c ∈ trim n := by
  have key : ∀ l : Yy.Text, c ∈ l → c ∈ l.dropWhile isTrimC := by
    intro l hl
    induction l with
    | nil => cases hl
    | cons x l ih =>
      rw [List.dropWhile_cons]
      split
      · rename_i hx
        rcases List.mem_cons.1 hl with rfl | hl
        · rw [hc] at hx; cases hx
        · exact ih hl
      · exact hl
  rw [trim, List.mem_reverse]
  exact key _ (List.mem_reverse.2 (key _ h))

theorem trim_head {c : Char} {n : Yy.Text} (h : n.head? = some c) (hc : isTrimC c = false) : (trim n).head? = some c := by
  cases n with
  | nil => cases h
  | cons x r =>
    cases h
    rw [trim, List.dropWhile_cons_of_neg (by simp [hc]), List.reverse_cons, List.dropWhile_append]
    split
    · rw [List.dropWhile_cons_of_neg (by simp [hc])]
      rfl
    · rw [List.reverse_append]
      rfl

theorem upper_other {c : Char} (h : ¬ NameCh c) : toUpperC c = c := by
  rw [toUpperC, if_neg]
  intro hl
  apply h
  exact .inr (.inl hl)

theorem invalid_key {ty : ObjType} (ht : ty = .variables ∨ ty = .comments) {n : Yy.Text} (h : Written.Invalid n) :
    checkName ty (toKey ty n) = false := by
  have hd : ∀ c, Digit c → isTrimC c = false := by
    intro c hc
    simp only [Digit] at hc
    simp only [isTrimC, Bool.or_eq_false_iff, decide_eq_false_iff_not, Bool.and_eq_false_iff]
    omega
  have hv : ∀ c : Char, 32 < c.toNat → isTrimC c = false := by
    intro c hc
    simp only [isTrimC, Bool.or_eq_false_iff, decide_eq_false_iff_not, Bool.and_eq_false_iff]
    omega
  rw [Bool.eq_false_iff]
  intro hck
  rcases h with rfl | ⟨c, hc, hcd⟩ | ⟨c, hc, h1, h2, h3⟩
  · rcases ht with rfl | rfl <;> exact absurd hck (by decide)
  · have := trim_head hc (hd c hcd)
    cases htr : trim n with
    | nil => rw [htr] at this; cases this
    | cons x r =>
      rw [htr] at this
      cases this
      have hup : toUpperC c = c := by
        rw [toUpperC, if_neg]
        simp only [Digit] at hcd
        omega
      simp only [Digit] at hcd
      rcases ht with rfl | rfl
      · simp only [toKey, ObjType.mode, htr, toUpper, List.map_cons, checkName, Bool.and_eq_true, nameHeadOk, isLetterFor, hup,
          isUpperC, Bool.or_eq_true, decide_eq_true_eq, beq_iff_eq] at hck
        rcases hck.1.1.2 with h | rfl
        · omega
        · revert hcd; decide
      · simp only [toKey, ObjType.mode, htr, checkName, Bool.and_eq_true, nameHeadOk, isLetterFor,
          isUpperC, isLowerC, Bool.or_eq_true, decide_eq_true_eq, beq_iff_eq] at hck
        rcases hck.1.1.2 with h | rfl
        · omega
        · revert hcd; decide
  · have hm := trim_mem hc (hv c h1)
    have hkey : c ∈ toKey ty n := by
      rcases ht with rfl | rfl
      · simp only [toKey, ObjType.mode, toUpper]
        exact List.mem_map.2 ⟨c, hm, upper_other h2⟩
      · exact hm
    have hlet : isLetterFor ty c = false := by
      rw [Bool.eq_false_iff]
      intro h
      apply h2
      rcases ht with rfl | rfl <;>
        simp only [isLetterFor, isUpperC, isLowerC, Bool.or_eq_true, Bool.and_eq_true, decide_eq_true_eq] at h <;>
        simp only [NameCh, Lec.Written.Lower, Lec.Written.Upper] <;> omega
    have hdig : isDigitC c = false := by
      rw [Bool.eq_false_iff]
      intro h
      apply h2
      simp only [isDigitC, Bool.and_eq_true, decide_eq_true_eq] at h
      simp only [NameCh, Digit]
      omega
    have hun : c ≠ '_' := by
      rintro rfl
      exact h2 (by decide)
    revert hck hkey
    generalize toKey ty n = l
    intro hck hkey
    cases l with
    | nil => cases hkey
    | cons x r =>
      simp only [checkName, Bool.and_eq_true, List.all_eq_true] at hck
      rcases List.mem_cons.1 hkey with rfl | hr
      · have := hck.1.1.2
        simp [nameHeadOk, hlet, hun] at this
      · have := hck.1.2 c hr
        simp [nameTailOk, hlet, hdig, hun, h3] at this

theorem puts_err {α : Type} {ty : ObjType} (ht : ty = .variables ∨ ty = .comments) {l : List (Yy.Text × α)}
    (h : ∃ e ∈ l, Written.Invalid e.1) (db : SMap α) : puts ty l db = .err := by
  induction l generalizing db with
  | nil => obtain ⟨e, he, _⟩ := h; cases he
  | cons x l ih =>
    rw [puts, put]
    by_cases hx : Written.Invalid x.1
    · rw [invalid_key ht hx]
      rfl
    · obtain ⟨e, he, hi⟩ := h
      rcases List.mem_cons.1 he with rfl | he
      · exact absurd hi hx
      · split
        · exact ih ⟨e, he, hi⟩ _
        · rfl

end Imp
end Iode
