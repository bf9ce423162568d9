import Verif.Model.AscTbl
import Verif.Spec.AscTbl
import Verif.Lemmas.AscEqs
import Verif.Props.C03

/-! # Reading texts of tables -/
namespace Iode
namespace Asc
namespace Tables
open Yy Written Printf Decimals
open Lec.Written (Gap NameEnd NumEnd NameCh Digit White Digits dec)

/-! ## Elements -/

/-- The value of a sign. -/
def signKey (c : Char) : Nat := if c = '-' then 109 else if c = '{' then 107 else 108

/-- What `YY_lex` makes of an element, and what can be read again. -/
inductive Lexes : TTok → Lexed Nat → Raw → Prop where
  | key {w k} : findWord tblKeys w = some k → Lexes (.word w) (.key k) (.word w)
  | word {w} : findWord tblKeys w = none → Lexes (.word w) (.raw (.word w)) (.word w)
  | int {n d} : Lec.natOf d = n → Lexes (.int n) (.raw (.long d)) (.long d)
  | num {q r} : IsNum r q → Lexes (.num q) (.raw r) r
  | sign {c} : c = '-' ∨ c = '{' ∨ c = '}' → Lexes (.sign c) (.key (signKey c)) (.special c)
  | str {t} : Lexes (.str t) (.raw (.string t)) (.string t)

theorem sign_oper {c : Char} (h : c = '-' ∨ c = '{' ∨ c = '}') (s : Yy.Text) : findOper tblKeys c s = (some (signKey c), s) := by
  have : operKeys tblKeys c = some (signKey c, []) := by rcases h with rfl | rfl | rfl <;> decide +kernel
  rw [findOper, this]

theorem Lexes.again {t : TTok} {l : Lexed Nat} {r : Raw} (h : Lexes t l r) (s : Yy.Text) :
    lxs tblKeys ⟨r, true, s⟩ = .ok (l, ⟨r, false, s⟩) := by
  rw [lxs, lx, rd]
  simp only [if_true, Res.bind]
  cases h with
  | key hk => rw [if_neg (by simp)]; simp only [classify, hk]
  | word hk => rw [if_neg (by simp)]; simp only [classify, hk]
  | int => rfl
  | num hr => rcases hr with ⟨d, rfl, _⟩ | ⟨d, rfl, _⟩ <;> rfl
  | sign hc => rw [if_neg (by simp)]; simp only [classify, sign_oper hc]
  | str => rfl

theorem toks_lex {t : TTok} {ts : List TTok} {x : Yy.Text} (h : Toks (t :: ts) x) :
    ∃ l r s, Reads tblKeys x l r s ∧ Lexes t l r ∧ Toks ts s ∧ s.length < x.length := by
  cases h with
  | @word g w _ s hg hne hh hw he ht =>
    have h1 := reads_gap (reads_word (tbl := tblKeys) hne hh hw he) hg
    have hl : s.length < (g ++ (w ++ s)).length := by
      have := List.length_pos_iff.2 hne
      simp; omega
    cases hk : findWord tblKeys w with
    | none => rw [hk] at h1; exact ⟨_, _, _, h1, .word hk, ht, hl⟩
    | some k => rw [hk] at h1; exact ⟨_, _, _, h1, .key hk, ht, hl⟩
  | @int g d _ s hg hd hne hl he ht =>
    have h1 : Reads tblKeys (d ++ s) (.raw (.long d)) (.long d) s :=
      reads_of (Lec.read_long hd hne hl he) (by simp) (by simp) (by simp) rfl
    refine ⟨_, _, _, reads_gap h1 hg, .int (Lec.natOf_eq _), ht, ?_⟩
    have := List.length_pos_iff.2 hne
    simp; omega
  | @num g t r _ s hg hn hl he ht =>
    obtain ⟨r, h1, h2⟩ := reads_num (tbl := tblKeys) hn hl he
    refine ⟨_, _, _, reads_gap h1 hg, .num h2, ht, ?_⟩
    have := numeral_ne hn
    simp; omega
  | @sign g c _ s hg hc ht =>
    have h1 : Reads tblKeys (c :: s) (.key (signKey c)) (.special c) s :=
      reads_of (Lec.read_special (by rcases hc with rfl | rfl | rfl <;> decide) s) (by simp) (by simp) (by simp)
        (by simp only [classify, sign_oper hc])
    exact ⟨_, _, _, reads_gap h1 hg, .sign hc, ht, by simp; omega⟩
  | @str g t b _ s hg hl ht =>
    exact ⟨_, _, _, reads_gap (reads_string hl s) hg, .str, ht, by simp; omega⟩

/-- The elements in front of the reader; the first one may have been read and handed back. -/
def At (ts : List TTok) (st : St) : Prop :=
  (st.back = false ∧ Toks ts st.text) ∨ ∃ t ts' l, ts = t :: ts' ∧ st.back = true ∧ Lexes t l st.typ ∧ Toks ts' st.text

theorem At.lex {t : TTok} {ts : List TTok} {st : St} (h : At (t :: ts) st) :
    ∃ l r st', lxs tblKeys st = .ok (l, st') ∧ Lexes t l r ∧ At ts st' ∧ At (t :: ts) (unread st') := by
  obtain ⟨typ, back, x⟩ := st
  rcases h with ⟨rfl, h⟩ | ⟨t', ts', l, h1, rfl, h2, h3⟩
  · obtain ⟨l, r, s, h1, h2, h3, _⟩ := toks_lex h
    exact ⟨l, r, _, h1.lxs typ, h2, .inl ⟨rfl, h3⟩, .inr ⟨_, _, _, rfl, rfl, h2, h3⟩⟩
  · cases h1
    exact ⟨l, typ, _, h2.again x, h2, .inl ⟨rfl, h3⟩, .inr ⟨_, _, _, rfl, rfl, h2, h3⟩⟩

theorem At.key {w : Yy.Text} {k : Nat} (hk : findWord tblKeys w = some k) {ts : List TTok} {st : St} (h : At (.word w :: ts) st) :
    ∃ st', lxs tblKeys st = .ok (.key k, st') ∧ At ts st' ∧ At (.word w :: ts) (unread st') := by
  obtain ⟨l, r, st', h1, h2, h3⟩ := h.lex
  cases h2 with
  | key h => rw [hk] at h; cases h; exact ⟨st', h1, h3⟩
  | word h => rw [hk] at h; cases h

theorem At.name {w : Yy.Text} (hk : findWord tblKeys w = none) {ts : List TTok} {st : St} (h : At (.word w :: ts) st) :
    ∃ st', lxs tblKeys st = .ok (.raw (.word w), st') ∧ At ts st' ∧ At (.word w :: ts) (unread st') := by
  obtain ⟨l, r, st', h1, h2, h3⟩ := h.lex
  cases h2 with
  | key h => rw [hk] at h; cases h
  | word h => exact ⟨st', h1, h3⟩

theorem At.int {n : Nat} {ts : List TTok} {st : St} (h : At (.int n :: ts) st) :
    ∃ d st', Lec.natOf d = n ∧ lxs tblKeys st = .ok (.raw (.long d), st') ∧ At ts st' := by
  obtain ⟨l, r, st', h1, h2, h3⟩ := h.lex
  cases h2 with
  | int h => exact ⟨_, st', h, h1, h3.1⟩

theorem At.num {q : Rat} {ts : List TTok} {st : St} (h : At (.num q :: ts) st) :
    ∃ r st', IsNum r q ∧ lxs tblKeys st = .ok (.raw r, st') ∧ At ts st' := by
  obtain ⟨l, r, st', h1, h2, h3⟩ := h.lex
  cases h2 with
  | num h => exact ⟨_, st', h, h1, h3.1⟩

theorem At.sign {c : Char} {ts : List TTok} {st : St} (h : At (.sign c :: ts) st) :
    ∃ st', lxs tblKeys st = .ok (.key (signKey c), st') ∧ At ts st' ∧ At (.sign c :: ts) (unread st') := by
  obtain ⟨l, r, st', h1, h2, h3⟩ := h.lex
  cases h2 with
  | sign h => exact ⟨st', h1, h3⟩

theorem At.str {t : Yy.Text} {ts : List TTok} {st : St} (h : At (.str t :: ts) st) :
    ∃ st', lxs tblKeys st = .ok (.raw (.string t), st') ∧ At ts st' ∧ At (.str t :: ts) (unread st') := by
  obtain ⟨l, r, st', h1, h2, h3⟩ := h.lex
  cases h2 with
  | str => exact ⟨st', h1, h3⟩

theorem At.eof {st : St} (h : At [] st) : ∃ st', lxs tblKeys st = .ok (.raw .eof, st') := by
  obtain ⟨typ, back, x⟩ := st
  rcases h with ⟨rfl, h⟩ | ⟨t', ts', l, h1, _⟩
  · generalize hts : ([] : List TTok) = ts at h
    cases h with
    | @nil g hg =>
      have := reads_gap (reads_eof tblKeys) hg
      rw [List.append_nil] at this
      exact ⟨_, this.lxs typ⟩
    | _ => cases hts
  · cases h1

theorem toks_length {ts : List TTok} {x : Yy.Text} (h : Toks ts x) : ts.length ≤ x.length := by
  induction ts generalizing x with
  | nil => simp
  | cons t ts ih =>
    obtain ⟨_, _, s, _, _, h3, h4⟩ := toks_lex h
    have := ih h3
    simp; omega

theorem At.length {ts : List TTok} {st : St} (h : At ts st) : ts.length ≤ st.text.length + 1 := by
  rcases h with ⟨_, h⟩ | ⟨t, ts', l, rfl, _, _, h⟩
  · have := toks_length h; omega
  · have := toks_length h; simp; omega

/-! ## Cells -/

/-- The value of a word for the form of a cell. -/
def markKey : Mark → Nat
  | .bold => 1
  | .italic => 2
  | .underline => 4
  | .normal => 0
  | .left => 16
  | .center => 8
  | .right => 32
  | .decimal => 64

theorem mark_key (m : Mark) : findWord tblKeys m.name.toList = some (markKey m) := by cases m <;> decide +kernel

def applyMark (c : TCell) : Mark → TCell
  | .bold => setFont 1 c
  | .italic => setFont 2 c
  | .underline => setFont 4 c
  | .normal => noFont c
  | .left => setAlign 16 c
  | .center => setAlign 8 c
  | .right => setAlign 32 c
  | .decimal => setAlign 64 c

/-- The keys that say something of the form of a cell. -/
def isForm (k : Nat) : Prop := k = 32 ∨ k = 16 ∨ k = 8 ∨ k = 64 ∨ k = 2 ∨ k = 1 ∨ k = 4 ∨ k = 0

instance (k : Nat) : Decidable (isForm k) := inferInstanceAs (Decidable (_ ∨ _))

/-- Elements that cannot belong to a cell with a content. -/
inductive Ends : List TTok → Prop where
  | str {t ts} : Ends (.str t :: ts)
  | sign {c ts} : Ends (.sign c :: ts)
  | key {w k ts} : findWord tblKeys w = some k → ¬ isForm k → Ends (.word w :: ts)

theorem cellLoop_mark {cv : Conv} {valid : Yy.Text → Bool} (n : Nat) (ok : Bool) (c : TCell) (m : Mark) (st : St) :
    cellLoop cv valid (n + 1) ok c (.key (markKey m)) st =
      (lxs tblKeys st).bind fun p => cellLoop cv valid n ok (applyMark c m) p.1 p.2 := by
  cases m <;> rfl

theorem sign_form (c : Char) : ¬ isForm (signKey c) ∧ signKey c ≠ 114 := by
  have h : signKey c = 109 ∨ signKey c = 107 ∨ signKey c = 108 := by
    unfold signKey
    split
    · exact .inl rfl
    · split
      · exact .inr (.inl rfl)
      · exact .inr (.inr rfl)
  rcases h with h | h | h <;> rw [h] <;> decide

theorem cellLoop_stop {cv : Conv} {valid : Yy.Text → Bool} (n : Nat) (c : TCell) {k : Nat} (h : ¬ isForm k) (st : St) :
    cellLoop cv valid (n + 1) true c (.key k) st = .ok (.good c, unread st) := by
  simp only [isForm, not_or] at h
  obtain ⟨h1, h2, h3, h4, h5, h6, h7, h8⟩ := h
  rw [cellLoop]
  simp only [h1, h2, h3, h4, h5, h6, h7, h8, or_self, if_false, if_true]
  split <;> rfl

/-- What is behind the content of a cell. -/
theorem cell_marks {cv : Conv} {valid : Yy.Text → Bool} {rest : List TTok} (he : Ends rest) {ms : List Mark} {c : TCell} {st : St}
    (h : At (ms.map (fun m => kw m.name) ++ rest) st) {n : Nat} (hn : ms.length < n) :
    ∃ st', ((lxs tblKeys st).bind fun p => cellLoop cv valid n true c p.1 p.2) = .ok (.good (ms.foldl applyMark c), st') ∧
      At rest st' := by
  induction ms generalizing c st n with
  | nil =>
    cases n with
    | zero => simp at hn
    | succ n =>
      cases he with
      | str =>
        obtain ⟨st', h1, h2, h3⟩ := At.str h
        rw [h1]
        exact ⟨_, rfl, h3⟩
      | @sign ch _ =>
        obtain ⟨st', h1, h2, h3⟩ := At.sign h
        rw [h1]
        simp only [Res.bind]
        exact ⟨_, cellLoop_stop _ _ (sign_form ch).1 _, h3⟩
      | key hk hf =>
        obtain ⟨st', h1, h2, h3⟩ := At.key hk h
        rw [h1]
        simp only [Res.bind]
        exact ⟨_, cellLoop_stop _ _ hf _, h3⟩
  | cons m ms ih =>
    cases n with
    | zero => simp at hn
    | succ n =>
      obtain ⟨st', h1, h2, _⟩ := At.key (mark_key m) h
      rw [h1]
      simp only [Res.bind]
      rw [cellLoop_mark]
      exact ih h2 (by simp at hn; omega)

/-- The content of a cell when it is read. -/
structure CellOk (cv : Conv) (c : SCell) : Prop where
  noNul : ∀ x ∈ c.text, x.toNat ≠ 0
  conv : ∃ u, toUtf8 cv c.text = some u
  quote : c.formula = false → toUtf8 cv c.text ≠ some ['"']

/-- The text without quotes at the ends. -/
def bare (u : Yy.Text) : Yy.Text :=
  let t := if u.head? = some '"' then u.tail else u
  if t.getLast? = some '"' then t.dropLast else t

/-- The cell that is read. -/
def cellOf (cv : Conv) (valid : Yy.Text → Bool) (c : SCell) : TCell :=
  let u := (toUtf8 cv c.text).getD []
  c.marks.foldl applyMark
    (if c.formula then ⟨.lec (if u.isEmpty then none else some (setLec valid u)), 64⟩ else ⟨.str (bare u), if u.contains '#' then 8 else 16⟩)

theorem cellText_new {u : Yy.Text} (h : u ≠ ['"']) : cellText u newCell = .ok ⟨.str (bare u), if u.contains '#' then 8 else 16⟩ := by
  have e : newCell.attr / 8 * 8 ≠ 64 := by decide
  rw [cellText.eq_def]
  simp only [if_neg e]
  cases u with
  | nil => rfl
  | cons b r =>
    have ha : (if (b :: r).contains '#' = true then setAlign 8 newCell else newCell) =
        ⟨.str [], if (b :: r).contains '#' then 8 else 16⟩ := by split <;> rfl
    simp only [ha, bare, List.head?_cons, Option.some.injEq, List.tail_cons]
    by_cases hb : b = '"'
    · subst hb
      simp only [if_true]
      cases hz : r.getLast? with
      | none => rw [List.getLast?_eq_none_iff] at hz; subst hz; exact absurd rfl h
      | some z => simp only [Option.some.injEq]
    · simp only [if_neg hb]
      cases hz : (b :: r).getLast? with
      | none => rw [List.getLast?_eq_none_iff] at hz; cases hz
      | some z => simp only [Option.some.injEq]

theorem lec_key : findWord tblKeys "LEC".toList = some 114 := by decide +kernel

theorem cellLoop_str {cv : Conv} {valid : Yy.Text → Bool} {c : SCell} (hc : CellOk cv c) (hf : c.formula = false) {rest : List TTok}
    (he : Ends rest) {st : St} (h : At (c.marks.map (fun m => kw m.name) ++ rest) st) {n : Nat} (hn : c.marks.length + 1 < n) :
    ∃ st', cellLoop cv valid n false newCell (.raw (.string c.text)) st = .ok (.good (cellOf cv valid c), st') ∧ At rest st' := by
  obtain ⟨u, hu⟩ := hc.conv
  have hq : u ≠ ['"'] := by
    intro e
    exact hc.quote hf (by rw [hu, e])
  cases n with
  | zero => omega
  | succ n =>
    rw [cellLoop]
    simp only [Bool.false_eq_true, if_false, cstr_self hc.noNul, hu, cellText_new hq]
    obtain ⟨st', h1, h2⟩ := cell_marks (cv := cv) (valid := valid) he (c := ⟨.str (bare u), if u.contains '#' then 8 else 16⟩) h
      (n := n) (by omega)
    refine ⟨st', ?_, h2⟩
    simp only [Res.bind] at h1 ⊢
    rw [h1]
    simp only [cellOf, hf, hu, Option.getD_some, Bool.false_eq_true, if_false]

/-- A cell. -/
theorem readCell_ok {cv : Conv} {valid : Yy.Text → Bool} {c : SCell} (hc : CellOk cv c) {rest : List TTok} (he : Ends rest) {st : St}
    (h : At (c.toks ++ rest) st) : ∃ st', readCell cv valid st = .ok (.good (cellOf cv valid c), st') ∧ At rest st' := by
  rw [readCell]
  cases hf : c.formula with
  | false =>
    simp only [SCell.toks, hf, Bool.false_eq_true, if_false, List.nil_append, List.cons_append] at h
    obtain ⟨st', h1, h2, _⟩ := At.str h
    rw [h1]
    simp only [Res.bind]
    refine cellLoop_str hc hf he h2 ?_
    have := h2.length
    simp at this
    have : 1 ≤ rest.length := by cases he <;> simp
    omega
  | true =>
    simp only [SCell.toks, hf, if_true, List.cons_append, List.nil_append] at h
    obtain ⟨st1, h1, h2, _⟩ := At.key lec_key h
    rw [h1]
    simp only [Res.bind]
    obtain ⟨u, hu⟩ := hc.conv
    obtain ⟨st2, h3, h4, _⟩ := At.str h2
    rw [cellLoop, h3]
    simp only [Res.bind, cstr_self hc.noNul, hu]
    have hlen := h2.length
    simp at hlen
    have : 1 ≤ rest.length := by cases he <;> simp
    obtain ⟨st', h5, h6⟩ := cell_marks (cv := cv) (valid := valid) he (c := cellLec valid u newCell) h4 (n := st1.text.length + 1) (by omega)
    refine ⟨st', ?_, h6⟩
    simp only [Res.bind] at h5
    have e : cellOf cv valid c = c.marks.foldl applyMark (cellLec valid u newCell) := by
      have e2 : cellLec valid u newCell = ⟨.lec (if u.isEmpty then none else some (setLec valid u)), 64⟩ := by
        simp [cellLec, setAlign, newCell]
      simp only [cellOf, hf, hu, Option.getD_some, if_true, e2]
    rw [e, ← h5]
    rfl

theorem cell_ends (c : SCell) (rest : List TTok) : Ends (c.toks ++ rest) := by
  unfold SCell.toks
  cases c.formula with
  | false => exact .str
  | true => exact .key lec_key (by decide)

theorem readCells_ok {cv : Conv} {valid : Yy.Text → Bool} {cs : List SCell} (hc : ∀ c ∈ cs, CellOk cv c) {rest : List TTok}
    (he : Ends rest) {st : St} (h : At (cs.flatMap SCell.toks ++ rest) st) :
    ∃ st', readCells cv valid cs.length st = .ok (.good (cs.map (cellOf cv valid)), st') ∧ At rest st' := by
  induction cs generalizing st with
  | nil => exact ⟨st, rfl, h⟩
  | cons c cs ih =>
    rw [List.flatMap_cons, List.append_assoc] at h
    have he1 : Ends (cs.flatMap SCell.toks ++ rest) := by
      cases cs with
      | nil => exact he
      | cons d ds => rw [List.flatMap_cons, List.append_assoc]; exact cell_ends _ _
    obtain ⟨s1, h1, h2⟩ := readCell_ok (valid := valid) (hc c (by simp)) he1 h
    obtain ⟨s2, h3, h4⟩ := ih (fun d hd => hc d (by simp [hd])) h2
    refine ⟨s2, ?_, h4⟩
    rw [List.length_cons, readCells, h1]
    simp only [Res.bind, h3]
    rfl

/-! ## Lines -/

def gKey : GMark → Nat
  | .laxis => 126
  | .raxis => 127
  | .line => 128
  | .scatter => 130
  | .bar => 129

theorem g_key (g : GMark) : findWord tblKeys g.name.toList = some (gKey g) := by cases g <;> decide +kernel

def applyG (l : TLine) : GMark → TLine
  | .laxis => { l with right := false }
  | .raxis => { l with right := true }
  | .line => { l with graph := 0 }
  | .scatter => { l with graph := 1 }
  | .bar => { l with graph := 2 }

/-- Elements that end a line. -/
inductive LEnds : List TTok → Prop where
  | sign {c ts} : LEnds (.sign c :: ts)
  | key {w k ts} : findWord tblKeys w = some k → ¬ isForm k → (k < 126 ∨ 130 < k) → LEnds (.word w :: ts)

theorem LEnds.ends {ts : List TTok} (h : LEnds ts) : Ends ts := by
  cases h with
  | sign => exact .sign
  | key h1 h2 _ => exact .key h1 h2

theorem lineLoop_stop {cv : Conv} {valid : Yy.Text → Bool} {ncols : Int} {rest : List TTok} (he : LEnds rest) {l : TLine} {st : St}
    (h : At rest st) (n : Nat) : ∃ st', lineLoop cv valid ncols (n + 1) (some l) st = .ok (.good (some l), st') ∧ At rest st' := by
  have key : ∀ k st', ¬ isForm k → (k < 126 ∨ 130 < k) → lxs tblKeys st = .ok (.key k, st') →
      lineLoop cv valid ncols (n + 1) (some l) st = .ok (.good (some l), unread st') := by
    intro k st' h1 h2 h3
    simp only [isForm] at h1
    rw [lineLoop, h3]
    simp only [Res.bind]
    rw [if_neg h1, if_neg (by omega), if_neg (by omega), if_neg (by omega), if_pos (by rfl)]
  cases he with
  | @sign c _ =>
    obtain ⟨st', h1, h2, h3⟩ := At.sign h
    refine ⟨_, key _ _ (sign_form c).1 ?_ h1, h3⟩
    unfold signKey
    split <;> [skip; split] <;> omega
  | key hk hf hr =>
    obtain ⟨st', h1, h2, h3⟩ := At.key hk h
    exact ⟨_, key _ _ hf hr h1, h3⟩

theorem lineLoop_graph {cv : Conv} {valid : Yy.Text → Bool} {ncols : Int} {rest : List TTok} (he : LEnds rest) {gs : List GMark} {l : TLine}
    {st : St} (h : At (gtoks gs ++ rest) st) {n : Nat} (hn : gs.length < n) :
    ∃ st', lineLoop cv valid ncols n (some l) st = .ok (.good (some (gs.foldl applyG l)), st') ∧ At rest st' := by
  induction gs generalizing l st n with
  | nil =>
    cases n with
    | zero => simp at hn
    | succ n => exact lineLoop_stop he h n
  | cons g gs ih =>
    cases n with
    | zero => simp at hn
    | succ n =>
      obtain ⟨st', h1, h2, _⟩ := At.key (g_key g) h
      have e : lineLoop cv valid ncols (n + 1) (some l) st = lineLoop cv valid ncols n (some (applyG l g)) st' := by
        rw [lineLoop, h1]
        cases g <;> rfl
      rw [e]
      exact ih h2 (by simp at hn; omega)

/-- The line that is read. -/
def lineOf (cv : Conv) (valid : Yy.Text → Bool) : SLine → TLine
  | .cells cs gs => gs.foldl applyG ⟨110, 0, false, cs.map (cellOf cv valid)⟩
  | .title c gs => gs.foldl applyG ⟨113, 0, false, [cellOf cv valid c]⟩
  | .plain k gs => gs.foldl applyG ⟨k.code, 0, false, []⟩

def LineOk (cv : Conv) (ncols : Int) : SLine → Prop
  | .cells cs _ => (∀ c ∈ cs, CellOk cv c) ∧ (cs.length : Int) = ncols ∧ cs ≠ []
  | .title c _ => CellOk cv c ∧ c.formula = false
  | .plain _ _ => True

theorem title_key : findWord tblKeys "TITLE".toList = some 113 := by decide +kernel

theorem plain_key (k : Plain) : findWord tblKeys k.name.toList = some k.code := by cases k <;> decide +kernel

theorem g_ends {rest : List TTok} (he : Ends rest) (gs : List GMark) : Ends (gtoks gs ++ rest) := by
  cases gs with
  | nil => exact he
  | cons g gs => exact .key (g_key g) (by cases g <;> decide)

theorem lineLoop_line {cv : Conv} {valid : Yy.Text → Bool} {ncols : Int} {l : SLine} (hl : LineOk cv ncols l) {rest : List TTok}
    (he : LEnds rest) {st : St} (h : At (l.toks ++ rest) st) {n : Nat} (hn : (l.toks ++ rest).length + 1 < n) :
    ∃ st', lineLoop cv valid ncols n none st = .ok (.good (some (lineOf cv valid l)), st') ∧ At rest st' := by
  cases n with
  | zero => omega
  | succ n =>
  cases l with
  | cells cs gs =>
    obtain ⟨h1, h2, h3⟩ := hl
    obtain ⟨c, cs', rfl⟩ : ∃ c cs', cs = c :: cs' := by
      cases cs with
      | nil => exact absurd rfl h3
      | cons c cs' => exact ⟨c, cs', rfl⟩
    have hcols : ncols.toNat = (c :: cs').length := by omega
    simp only [SLine.toks, List.append_assoc] at h hn
    have step : ∃ st1, lineLoop cv valid ncols (n + 1) none st = ((readCells cv valid ncols.toNat st1).bind fun q =>
        match q.1 with
        | .good cs => lineLoop cv valid ncols n (some ⟨110, 0, false, cs⟩) q.2
        | .bad => .ok (.bad, q.2)
        | .thrown => .ok (.thrown, q.2)) ∧ At ((c :: cs').flatMap SCell.toks ++ (gtoks gs ++ rest)) st1 := by
      cases hf : c.formula with
      | false =>
        have hx : (c :: cs').flatMap SCell.toks ++ (gtoks gs ++ rest) = .str c.text :: (c.marks.map (fun m => kw m.name) ++
            (cs'.flatMap SCell.toks ++ (gtoks gs ++ rest))) := by
          simp [SCell.toks, hf]
        rw [hx] at h ⊢
        obtain ⟨st', k1, k2, k3⟩ := At.str h
        refine ⟨unread st', ?_, k3⟩
        rw [lineLoop, k1]
        rfl
      | true =>
        have hx : (c :: cs').flatMap SCell.toks ++ (gtoks gs ++ rest) = kw "LEC" :: (.str c.text :: (c.marks.map (fun m => kw m.name) ++
            (cs'.flatMap SCell.toks ++ (gtoks gs ++ rest)))) := by
          simp [SCell.toks, hf]
        rw [hx] at h ⊢
        obtain ⟨st', k1, k2, k3⟩ := At.key lec_key h
        refine ⟨unread st', ?_, k3⟩
        rw [lineLoop, k1]
        rfl
    obtain ⟨st1, e1, a1⟩ := step
    rw [hcols] at e1
    obtain ⟨st2, e2, a2⟩ := readCells_ok (valid := valid) h1 (g_ends he.ends gs) a1
    have hg : gs.length < n := by
      simp [gtoks] at hn
      omega
    obtain ⟨st3, e3, a3⟩ := lineLoop_graph (cv := cv) (valid := valid) (ncols := ncols) he (l := ⟨110, 0, false, (c :: cs').map (cellOf cv valid)⟩) a2 hg
    refine ⟨st3, ?_, a3⟩
    rw [e1, e2]
    simp only [Res.bind]
    exact e3
  | title c gs =>
    obtain ⟨h1, h2⟩ := hl
    simp only [SLine.toks, List.cons_append, List.append_assoc] at h hn
    obtain ⟨st1, k1, a1, _⟩ := At.key title_key h
    have a1' : At (.str c.text :: (c.marks.map (fun m => kw m.name) ++ (gtoks gs ++ rest))) st1 := by
      simpa [SCell.toks, h2] using a1
    obtain ⟨st2, k2, a2, _⟩ := At.str a1'
    have hlen := a2.length
    simp at hlen
    have : 1 ≤ rest.length := by cases he <;> simp
    obtain ⟨st3, k3, a3⟩ := cellLoop_str (valid := valid) h1 h2 (g_ends he.ends gs) a2 (n := st2.text.length + 2) (by omega)
    have hg : gs.length < n := by
      simp [gtoks] at hn
      omega
    obtain ⟨st4, k4, a4⟩ := lineLoop_graph (cv := cv) (valid := valid) (ncols := ncols) he (l := ⟨113, 0, false, [cellOf cv valid c]⟩) a3 hg
    refine ⟨st4, ?_, a4⟩
    have e : lineLoop cv valid ncols (n + 1) none st = ((readTitle cv valid st1).bind fun q =>
        match q.1 with
        | .good c => lineLoop cv valid ncols n (some ⟨113, 0, false, [c]⟩) q.2
        | .bad => .ok (.bad, q.2)
        | .thrown => .ok (.thrown, q.2)) := by
      rw [lineLoop, k1]
      rfl
    rw [e, readTitle, k2]
    simp only [Res.bind]
    rw [k3]
    exact k4
  | plain k gs =>
    simp only [SLine.toks, List.cons_append] at h hn
    obtain ⟨st1, k1, a1, _⟩ := At.key (plain_key k) h
    have hg : gs.length < n := by
      simp [gtoks] at hn
      omega
    obtain ⟨st2, k2, a2⟩ := lineLoop_graph (cv := cv) (valid := valid) (ncols := ncols) he (l := ⟨k.code, 0, false, []⟩) a1 hg
    refine ⟨st2, ?_, a2⟩
    have e : lineLoop cv valid ncols (n + 1) none st = lineLoop cv valid ncols n (some ⟨k.code, 0, false, []⟩) st1 := by
      rw [lineLoop, k1]
      cases k <;> rfl
    rw [e]
    exact k2

/-! ## Entries -/

theorem long_int {n : Nat} {ts : List TTok} {st : St} (h : At (.int n :: ts) st) :
    ∃ st', long st = .ok ((n : Int), st') ∧ At ts st' := by
  obtain ⟨d, st', h1, h2, h3⟩ := h.int
  refine ⟨st', ?_, h3⟩
  rw [long, readLong, h2]
  simp only [Res.bind, Bool.false_eq_true, if_false, h1]

theorem real_at {st st' : St} {r : Raw} {q : Rat} (h : lxs tblKeys st = .ok (.raw r, st')) (hr : IsNum r q) (n : Nat) (neg : Bool) :
    readReal tblKeys (n + 1) neg st = .ok (signed neg (ieee q), st') := by
  rw [readReal, h]
  simp only [Res.bind]
  rcases hr with ⟨d, rfl, h1, h2⟩ | ⟨t, rfl, h1⟩
  · simp only
    rw [← h2, ieee_whole h1]
  · simp only
    rw [h1]

theorem readFloat_num {neg : Bool} {q : Rat} {ts : List TTok} {st : St}
    (h : At ((if neg then [TTok.sign '-'] else []) ++ [.num q] ++ ts) st) :
    ∃ st', readFloat st = .ok (toFloat (ieee (if neg then -q else q)), st') ∧ At ts st' := by
  cases neg with
  | false =>
    simp only [Bool.false_eq_true, if_false, List.nil_append] at h ⊢
    obtain ⟨r, st', h1, h2, h3⟩ := At.num h
    refine ⟨st', ?_, h3⟩
    rw [readFloat, real, real_at h2 h1, signed_false]
    rfl
  | true =>
    simp only [if_true] at h ⊢
    obtain ⟨st1, h1, h2, _⟩ := At.sign h
    obtain ⟨r, st', h3, h4, h5⟩ := At.num h2
    refine ⟨st', ?_, h5⟩
    have e : readReal tblKeys (st.text.length + 2) false st = readReal tblKeys (st.text.length + 1) true st1 := by
      rw [readReal, h1]
      simp only [Res.bind]
      rw [if_pos (by decide)]
    rw [readFloat, real, e, real_at h4 h3, ieee_neg]
    rfl

theorem readFloat_na {ts : List TTok} {st : St} (h : At (kw "na" :: ts) st) :
    ∃ st', readFloat st = .ok (toFloat na, st') ∧ At ts st' := by
  obtain ⟨st', h1, h2, _⟩ := At.name (w := "na".toList) (by decide +kernel) h
  refine ⟨st', ?_, h2⟩
  rw [readFloat, real, readReal, h1]
  simp only [Res.bind]
  rw [if_pos (by decide)]

def setBound (t : Tab) (v : Dbl) : Bound → Tab
  | .ymin => { t with ymin := v }
  | .ymax => { t with ymax := v }
  | .zmin => { t with zmin := v }
  | .zmax => { t with zmax := v }

def setNum (t : Tab) (v : Int) : Setting → Tab
  | .box => { t with box := v }
  | .axis => { t with axis := v }
  | .xgrid => { t with gridx := v }
  | .ygrid => { t with gridy := v }

/-- The table after an entry. -/
def applyEntry (cv : Conv) (valid : Yy.Text → Bool) (t : Tab) : SEntry → Tab
  | .lang l => { t with language := l.code }
  | .div cs => { t with divider := cs.map (cellOf cv valid) ++ t.divider.drop cs.length }
  | .set s n => setNum t (toChar8 n) s
  | .bound b neg r => setBound t (toFloat (ieee (if neg then -r else r))) b
  | .nobound b => setBound t (toFloat na) b
  | .align a => { t with align := a.code }
  | .line l => { t with lines := t.lines ++ [lineOf cv valid l] }

/-- Entries that can be read. -/
def EntryOk (cv : Conv) (ncols : Int) : SEntry → Prop
  | .div cs => (∀ c ∈ cs, CellOk cv c) ∧ (cs.length : Int) = ncols
  | .line l => LineOk cv ncols l
  | _ => True

def setKey : Setting → Nat
  | .box => 123
  | .axis => 124
  | .xgrid => 121
  | .ygrid => 122

def boundKey : Bound → Nat
  | .ymin => 117
  | .ymax => 118
  | .zmin => 119
  | .zmax => 120

/-- The key of an entry. -/
def entryKey : SEntry → Nat
  | .lang l => l.code
  | .div _ => 104
  | .set s _ => setKey s
  | .bound b _ _ => boundKey b
  | .nobound b => boundKey b
  | .align _ => 125
  | .line _ => 109

theorem lang_key (l : Lang) : findWord tblKeys l.name.toList = some l.code := by cases l <;> decide +kernel

theorem set_key (s : Setting) : findWord tblKeys s.name.toList = some (setKey s) := by cases s <;> decide +kernel

theorem bound_key (b : Bound) : findWord tblKeys b.name.toList = some (boundKey b) := by cases b <;> decide +kernel

theorem div_key : findWord tblKeys "DIV".toList = some 104 := by decide +kernel

theorem align_key : findWord tblKeys "ALIGN".toList = some 125 := by decide +kernel

theorem word_at {s : String} {k : Nat} (hk : findWord tblKeys s.toList = some k) {ts : List TTok} {st : St} (h : At (kw s :: ts) st) :
    ∃ st', lxs tblKeys st = .ok (.key k, st') ∧ At ts st' :=
  (At.key hk h).imp fun _ h => ⟨h.1, h.2.1⟩

/-- The first element of an entry. -/
theorem entry_key (e : SEntry) (ts : List TTok) {st : St} (h : At (e.toks ++ ts) st) :
    ∃ st', lxs tblKeys st = .ok (.key (entryKey e), st') ∧ At (e.toks.tail ++ ts) st' := by
  cases e with
  | lang l => exact word_at (lang_key l) h
  | div cs => exact word_at div_key h
  | set s n => exact word_at (set_key s) h
  | bound b neg r => exact word_at (bound_key b) h
  | nobound b => exact word_at (bound_key b) h
  | align a => exact word_at align_key h
  | line l => exact (At.sign h).imp fun _ h => ⟨h.1, h.2.1⟩

theorem entry_ends (e : SEntry) (ts : List TTok) : LEnds (e.toks ++ ts) := by
  cases e with
  | lang l => exact .key (lang_key l) (by cases l <;> decide) (by cases l <;> decide)
  | div cs => exact .key div_key (by decide) (by decide)
  | set s n => exact .key (set_key s) (by cases s <;> decide) (by cases s <;> decide)
  | bound b neg r => exact .key (bound_key b) (by cases b <;> decide) (by cases b <;> decide)
  | nobound b => exact .key (bound_key b) (by cases b <;> decide) (by cases b <;> decide)
  | align a => exact .key align_key (by decide) (by decide)
  | line l => exact .sign

theorem tblEntry_ok {cv : Conv} {valid : Yy.Text → Bool} {t : Tab} {e : SEntry} (hok : EntryOk cv t.ncols e) {rest : List TTok}
    (he : LEnds rest) {st : St} (h : At (e.toks.tail ++ rest) st) :
    ∃ st', tblEntry cv valid (entryKey e) t st = .ok (.good (applyEntry cv valid t e), st') ∧ At rest st' := by
  cases e with
  | lang l => cases l <;> exact ⟨st, rfl, h⟩
  | div cs =>
    obtain ⟨h1, h2⟩ := hok
    obtain ⟨st', h3, h4⟩ := readCells_ok (valid := valid) h1 he.ends h
    refine ⟨st', ?_, h4⟩
    have : t.ncols.toNat = cs.length := by omega
    rw [entryKey, tblEntry, if_neg (by omega), if_pos rfl, this, h3]
    simp only [Res.bind, applyEntry, List.length_map]
  | set s n =>
    obtain ⟨st', h1, h2⟩ := long_int h
    refine ⟨st', ?_, h2⟩
    cases s <;> simp [entryKey, setKey, tblEntry, h1, Res.bind, applyEntry, setNum]
  | bound b neg r =>
    obtain ⟨st', h1, h2⟩ := readFloat_num (neg := neg) (q := r) (ts := rest) (by simpa [SEntry.toks] using h)
    refine ⟨st', ?_, h2⟩
    cases b <;> simp [entryKey, boundKey, tblEntry, h1, Res.bind, applyEntry, setBound]
  | nobound b =>
    obtain ⟨st', h1, h2⟩ := readFloat_na h
    refine ⟨st', ?_, h2⟩
    cases b <;> simp [entryKey, boundKey, tblEntry, h1, Res.bind, applyEntry, setBound]
  | align a =>
    have : ∃ st', readAlign st = .ok (a.code, st') ∧ At rest st' := by
      cases a
      · obtain ⟨st', h1, h2, _⟩ := At.key (mark_key .left) h
        exact ⟨st', by rw [readAlign, h1]; rfl, h2⟩
      · obtain ⟨st', h1, h2, _⟩ := At.key (mark_key .center) h
        exact ⟨st', by rw [readAlign, h1]; rfl, h2⟩
      · obtain ⟨st', h1, h2, _⟩ := At.key (mark_key .right) h
        exact ⟨st', by rw [readAlign, h1]; rfl, h2⟩
    obtain ⟨st', h1, h2⟩ := this
    refine ⟨st', ?_, h2⟩
    simp [entryKey, tblEntry, h1, Res.bind, applyEntry]
  | line l =>
    have hx : At (l.toks ++ rest) st := h
    obtain ⟨st', h1, h2⟩ := lineLoop_line (valid := valid) hok he hx (n := st.text.length + 3) (by have := hx.length; omega)
    refine ⟨st', ?_, h2⟩
    simp [entryKey, tblEntry, h1, Res.bind, applyEntry]

theorem apply_ncols {cv : Conv} {valid : Yy.Text → Bool} (t : Tab) (e : SEntry) : (applyEntry cv valid t e).ncols = t.ncols := by
  cases e with
  | set s _ => cases s <;> rfl
  | bound b _ _ => cases b <;> rfl
  | nobound b => cases b <;> rfl
  | _ => rfl

theorem entryKey_ne (e : SEntry) : entryKey e ≠ 108 := by
  cases e with
  | lang l => cases l <;> decide
  | set s _ => cases s <;> simp [entryKey, setKey]
  | bound b _ _ => cases b <;> simp [entryKey, boundKey]
  | nobound b => cases b <;> simp [entryKey, boundKey]
  | _ => simp [entryKey]

theorem entry_length (e : SEntry) : 1 ≤ e.toks.length := by cases e <;> simp [SEntry.toks]

theorem tblLoop_ok {cv : Conv} {valid : Yy.Text → Bool} {es : List SEntry} {t : Tab} (hok : ∀ e ∈ es, EntryOk cv t.ncols e)
    {rest : List TTok} {st : St} (h : At (es.flatMap SEntry.toks ++ .sign '}' :: rest) st) {n : Nat} (hn : es.length < n) :
    ∃ st', tblLoop cv valid n t st = .ok (.good (es.foldl (applyEntry cv valid) t), st') ∧ At rest st' := by
  induction es generalizing t st n with
  | nil =>
    cases n with
    | zero => simp at hn
    | succ n =>
      obtain ⟨st', h1, h2, _⟩ := At.sign h
      refine ⟨st', ?_, h2⟩
      rw [tblLoop, h1]
      rfl
  | cons e es ih =>
    cases n with
    | zero => simp at hn
    | succ n =>
      rw [List.flatMap_cons, List.append_assoc] at h
      have he : LEnds (es.flatMap SEntry.toks ++ .sign '}' :: rest) := by
        cases es with
        | nil => exact .sign
        | cons e' es => rw [List.flatMap_cons, List.append_assoc]; exact entry_ends _ _
      obtain ⟨st1, h1, h2⟩ := entry_key e _ h
      obtain ⟨st2, h3, h4⟩ := tblEntry_ok (valid := valid) (hok e (by simp)) he h2
      obtain ⟨st3, h5, h6⟩ := ih (t := applyEntry cv valid t e) (by rw [apply_ncols]; exact fun e' he' => hok e' (by simp [he'])) h4
        (n := n) (by simp at hn; omega)
      refine ⟨st3, ?_, h6⟩
      rw [tblLoop, h1]
      simp only [Res.bind]
      rw [if_neg (entryKey_ne e), h3]
      exact h5

/-! ## Tables -/

/-- The table that is read. -/
def tabOf (cv : Conv) (valid : Yy.Text → Bool) (d : TDef) : Tab := d.entries.foldl (applyEntry cv valid) (newTab valid d.cols)

structure DefOk (cv : Conv) (d : TDef) : Prop where
  wf : d.Wf
  entries : ∀ e ∈ d.entries, EntryOk cv d.cols e

theorem toShort_small {n : Nat} (h : n < 2 ^ 15) : toShort n = n := by
  exact toShort_of_le (by omega) (by omega)

theorem newTab_ncols (valid : Yy.Text → Bool) (n : Nat) : (newTab valid n).ncols = toShort n := by simp only [newTab]

theorem flat_length (es : List SEntry) : es.length ≤ (es.flatMap SEntry.toks).length := by
  induction es with
  | nil => simp
  | cons e es ih =>
    have := entry_length e
    simp at ih ⊢
    omega

theorem dim_key : findWord tblKeys "DIM".toList = some 103 := by decide +kernel

theorem entryKey_dim (e : SEntry) : entryKey e ≠ 103 := by
  cases e with
  | lang l => cases l <;> decide
  | set s _ => cases s <;> simp [entryKey, setKey]
  | bound b _ _ => cases b <;> simp [entryKey, boundKey]
  | nobound b => cases b <;> simp [entryKey, boundKey]
  | _ => simp [entryKey]

/-- An element can be handed back. -/
theorem At.back {t : TTok} {ts : List TTok} {st : St} (h : At (t :: ts) st) :
    ∃ l st', lxs tblKeys st = .ok (l, st') ∧ At (t :: ts) (unread st') := by
  obtain ⟨l, r, st', h1, _, _, h4⟩ := h.lex
  exact ⟨l, st', h1, h4⟩

theorem entries_back {es : List SEntry} {rest : List TTok} {st : St} (h : At (es.flatMap SEntry.toks ++ .sign '}' :: rest) st) :
    ∃ k st', lxs tblKeys st = .ok (.key k, st') ∧ k ≠ 103 ∧ At (es.flatMap SEntry.toks ++ .sign '}' :: rest) (unread st') := by
  cases es with
  | nil =>
    obtain ⟨st', h1, _, h3⟩ := At.sign h
    exact ⟨_, st', h1, by decide, h3⟩
  | cons e es =>
    rw [List.flatMap_cons, List.append_assoc] at h ⊢
    obtain ⟨st1, h1, _⟩ := entry_key e _ h
    obtain ⟨a, as, ha⟩ : ∃ a as, e.toks = a :: as := by
      cases he : e.toks with
      | nil => have := entry_length e; rw [he] at this; simp at this
      | cons a as => exact ⟨a, as, rfl⟩
    rw [ha] at h ⊢
    obtain ⟨l, st', h3, h4⟩ := At.back h
    rw [h1] at h3
    cases h3
    exact ⟨_, _, h1, entryKey_dim e, h4⟩

theorem readTbl_ok {cv : Conv} {valid : Yy.Text → Bool} {d : TDef} (hd : DefOk cv d) {rest : List TTok} {st : St}
    (h : At (d.toks.tail ++ rest) st) : ∃ st', readTbl cv valid st = .ok (.good (tabOf cv valid d), st') ∧ At rest st' := by
  have hx : d.toks.tail ++ rest = .sign '{' :: (dimToks d.dim ++ (d.entries.flatMap SEntry.toks ++ .sign '}' :: rest)) := by
    simp only [TDef.toks, List.tail_cons, List.cons_append, List.append_assoc, List.nil_append]
  rw [hx] at h
  obtain ⟨st1, h1, h2, _⟩ := At.sign h
  have hdim : ∃ st2, readDim st1 = .ok (d.cols, st2) ∧ At (d.entries.flatMap SEntry.toks ++ .sign '}' :: rest) st2 := by
    cases hd0 : d.dim with
    | none =>
      rw [hd0] at h2
      obtain ⟨k, st2, h3, h4, h5⟩ := entries_back h2
      refine ⟨unread st2, ?_, h5⟩
      rw [readDim, h3]
      simp only [Res.bind, TDef.cols, hd0, Option.getD_none]
      rw [if_neg (fun e => h4 (by cases e; rfl))]
    | some n =>
      rw [hd0] at h2
      obtain ⟨st2, h3, h4, _⟩ := At.key dim_key h2
      obtain ⟨dd, st3, h5, h6, h7⟩ := At.int h4
      refine ⟨st3, ?_, h7⟩
      rw [readDim, h3]
      simp only [Res.bind, if_true]
      rw [h6]
      simp only [TDef.cols, hd0, Option.getD_some, h5]
  obtain ⟨st2, h3, h4⟩ := hdim
  have hn : (newTab valid d.cols).ncols = d.cols := by
    rw [newTab_ncols, toShort_small hd.wf.cols.2]
  obtain ⟨st3, h5, h6⟩ := tblLoop_ok (cv := cv) (valid := valid) (t := newTab valid d.cols) (by rw [hn]; exact hd.entries) h4
    (n := st2.text.length + 2) (by
      have := h4.length
      have := flat_length d.entries
      simp at *
      omega)
  refine ⟨st3, ?_, h6⟩
  rw [readTbl, h1]
  simp only [Res.bind]
  rw [if_pos (by decide), h3]
  exact h5

theorem key_tbl {w : Yy.Text} (h : ObjName w) :
    toKey .tables (w.take 20) = keyOf true w ∧ checkName .tables (keyOf true w) = true := by
  obtain ⟨h1, h2⟩ := key_name (ty := .identities) (.inr (.inr rfl)) h
  exact ⟨h1, h2⟩

/-- The database after a list of tables. -/
def putTbls (cv : Conv) (valid : Yy.Text → Bool) (defs : List TDef) (db : SMap Tab) : SMap Tab :=
  defs.foldl (fun db d => SMap.insert (keyOf true d.name) (tabOf cv valid d) db) db

theorem tblsLoop_ok {cv : Conv} {valid : Yy.Text → Bool} {defs : List TDef} (hd : ∀ d ∈ defs, DefOk cv d) {st : St}
    (h : At (defs.flatMap TDef.toks) st) {n : Nat} (hn : defs.length < n) (db : SMap Tab) :
    tblsLoop cv valid n st db = .ok (.good (), putTbls cv valid defs db) := by
  induction defs generalizing st n db with
  | nil =>
    cases n with
    | zero => simp at hn
    | succ n =>
      obtain ⟨st', h1⟩ := At.eof h
      rw [tblsLoop, h1]
      rfl
  | cons d defs ih =>
    cases n with
    | zero => simp at hn
    | succ n =>
      have hw := (hd d (by simp)).wf.name
      have hx : (d :: defs).flatMap TDef.toks = .word d.name :: (d.toks.tail ++ defs.flatMap TDef.toks) := rfl
      rw [hx] at h
      obtain ⟨st1, h1, h2, _⟩ := At.name (findKey_none hw.all hw.free) h
      obtain ⟨st2, h3, h4⟩ := readTbl_ok (valid := valid) (hd d (by simp)) h2
      obtain ⟨k1, k2⟩ := key_tbl hw.toObjName
      rw [tblsLoop, h1]
      simp only [Res.bind]
      rw [h3]
      simp only
      rw [k1, if_pos k2]
      exact ih (fun d hd' => hd d (by simp [hd'])) h4 (by simp at hn; omega) _

/-- A name that no table follows: what was read before is there. -/
theorem tblsLoop_stop {cv : Conv} {valid : Yy.Text → Bool} {defs : List TDef} (hd : ∀ d ∈ defs, DefOk cv d) {w : Yy.Text}
    (hw : TblName w) {rest : List TTok} (hr : ∀ t, rest.head? = some t → t ≠ .sign '{' ∧ ∀ v, t = .word v → TblName v) {st : St}
    (h : At (defs.flatMap TDef.toks ++ .word w :: rest) st) {n : Nat} (hn : defs.length < n) (db : SMap Tab) :
    tblsLoop cv valid n st db = .ok (.bad, putTbls cv valid defs db) := by
  induction defs generalizing st n db with
  | nil =>
    cases n with
    | zero => simp at hn
    | succ n =>
      rw [List.flatMap_nil, List.nil_append] at h
      obtain ⟨st1, h1, h2, _⟩ := At.name (findKey_none hw.all hw.free) h
      have hb : ∃ st2, readTbl cv valid st1 = .ok (.bad, st2) := by
        cases rest with
        | nil =>
          obtain ⟨st2, h3⟩ := At.eof h2
          exact ⟨st2, by rw [readTbl, h3]; rfl⟩
        | cons t rest =>
          obtain ⟨l, r, st2, h3, h4, _⟩ := h2.lex
          refine ⟨st2, ?_⟩
          obtain ⟨hs, hv⟩ := hr t rfl
          rw [readTbl, h3]
          simp only [Res.bind]
          rw [if_neg]
          intro e
          cases h4 with
          | key hk =>
            have := hv _ rfl
            rw [findKey_none this.all this.free] at hk
            cases hk
          | sign hc =>
            rcases hc with rfl | rfl | rfl
            · simp [signKey] at e
            · exact hs rfl
            · simp [signKey] at e
          | _ => cases e
      obtain ⟨st2, h3⟩ := hb
      rw [tblsLoop, h1]
      simp only [Res.bind]
      rw [h3]
      rfl
  | cons d defs ih =>
    cases n with
    | zero => simp at hn
    | succ n =>
      have hw := (hd d (by simp)).wf.name
      have hx : (d :: defs).flatMap TDef.toks ++ .word w :: rest =
          .word d.name :: (d.toks.tail ++ (defs.flatMap TDef.toks ++ .word w :: rest)) := by
        rw [List.flatMap_cons, List.append_assoc]; rfl
      rw [hx] at h
      obtain ⟨st1, h1, h2, _⟩ := At.name (findKey_none hw.all hw.free) h
      obtain ⟨st2, h3, h4⟩ := readTbl_ok (valid := valid) (hd d (by simp)) h2
      obtain ⟨k1, k2⟩ := key_tbl hw.toObjName
      rw [tblsLoop, h1]
      simp only [Res.bind]
      rw [h3]
      simp only
      rw [k1, if_pos k2]
      exact ih (fun d hd' => hd d (by simp [hd'])) h4 (by simp at hn; omega) _

theorem loadTbls_stop {cv : Conv} {valid : Yy.Text → Bool} {defs : List TDef} (hd : ∀ d ∈ defs, DefOk cv d) {w : Yy.Text}
    (hw : TblName w) {rest : List TTok} (hr : ∀ t, rest.head? = some t → t ≠ .sign '{' ∧ ∀ v, t = .word v → TblName v) {t : Yy.Text}
    (h : Toks (defs.flatMap TDef.toks ++ .word w :: rest) (expand 0 t)) :
    loadTbls cv valid t = .ok (.bad, putTbls cv valid defs []) := by
  have h1 := toks_length h
  refine tblsLoop_stop hd hw hr (st := ⟨.err, false, expand 0 t⟩) (.inl ⟨rfl, h⟩) ?_ []
  have h2 : defs.length ≤ (defs.flatMap TDef.toks).length := by
    clear h h1 hd
    induction defs with
    | nil => simp
    | cons d defs ih =>
      have : 1 ≤ d.toks.length := by simp [TDef.toks]
      simp only [List.flatMap_cons, List.length_append, List.length_cons]
      omega
  rw [List.length_append, List.length_cons] at h1
  show defs.length < (expand 0 t).length + 2
  omega

theorem loadTbls_ok {cv : Conv} {valid : Yy.Text → Bool} {defs : List TDef} (hd : ∀ d ∈ defs, DefOk cv d) {t : Yy.Text}
    (h : TblsLaid defs (expand 0 t)) : loadTbls cv valid t = .ok (.good (), putTbls cv valid defs []) := by
  have h1 := toks_length h
  refine tblsLoop_ok hd (st := ⟨.err, false, expand 0 t⟩) (.inl ⟨rfl, h⟩) ?_ []
  have h2 : defs.length ≤ (defs.flatMap TDef.toks).length := by
    clear h h1 hd
    induction defs with
    | nil => simp
    | cons d defs ih =>
      have : 1 ≤ d.toks.length := by simp [TDef.toks]
      simp only [List.flatMap_cons, List.length_append, List.length_cons]
      omega
  omega

/-! ## Tabs -/

theorem toks_expand {ts : List TTok} {x : Yy.Text} (h : Toks ts x) (hc : Lec.Clean x) (col : Nat) : Toks ts (expand col x) := by
  induction h generalizing col with
  | nil hg =>
    obtain ⟨g', c1, h1, e1⟩ := Lec.expand_gap hg hc col
    have := e1 []
    rw [List.append_nil] at this
    rw [this, expand, List.append_nil]
    exact .nil h1
  | @word g w ts s hg hne hh hw he _ ih =>
    obtain ⟨g', c1, h1, e1⟩ := Lec.expand_gap hg hc.left col
    obtain ⟨c2, e2⟩ := Lec.expand_plains (key_plain hw) c1
    have hs : Lec.Clean s := hc.right.right
    rw [e1, e2]
    exact .word h1 hne hh hw (Lec.nameEnd_expand he hs c2) (ih hs c2)
  | @int g d ts s hg hd hne hl he _ ih =>
    obtain ⟨g', c1, h1, e1⟩ := Lec.expand_gap hg hc.left col
    obtain ⟨c2, e2⟩ := Lec.expand_plains (t := d) (fun c hc => Lec.nameCh_plain (Lec.digit_nameCh (hd c hc))) c1
    have hs : Lec.Clean s := hc.right.right
    rw [e1, e2]
    exact .int h1 hd hne hl (Lec.numEnd_expand he hs c2) (ih hs c2)
  | @num g t r ts s hg hn hl he _ ih =>
    obtain ⟨g', c1, h1, e1⟩ := Lec.expand_gap hg hc.left col
    obtain ⟨c2, e2⟩ := Lec.expand_plains (numeral_plain hn) c1
    have hs : Lec.Clean s := hc.right.right
    rw [e1, e2]
    exact .num h1 hn hl (Lec.numEnd_expand he hs c2) (ih hs c2)
  | @sign g c ts s hg hs _ ih =>
    obtain ⟨g', c1, h1, e1⟩ := Lec.expand_gap hg hc.left col
    obtain ⟨c2, e2⟩ := Lec.expand_plain (c := c) (by rcases hs with rfl | rfl | rfl <;> decide) c1
    rw [e1, e2]
    exact .sign h1 hs (ih hc.right.tail c2)
  | @str g t b ts s hg hl _ ih =>
    obtain ⟨g', c1, h1, e1⟩ := lit_expand hg hl hc col
    rw [e1]
    exact .str h1 hl (ih hc.right.tail.right.tail c1)

theorem toks_clean {ts : List TTok} {x : Yy.Text} (h : Toks ts x) (hc : Lec.Clean x) :
    ∀ t, TTok.str t ∈ ts → ∀ c ∈ t, c.toNat ≠ 0 := by
  induction h with
  | nil => intro t ht; cases ht
  | @word g w ts s _ _ _ _ _ _ ih =>
    intro t ht
    rcases List.mem_cons.1 ht with h | h
    · cases h
    · exact ih hc.right.right t h
  | @int g w ts s _ _ _ _ _ _ ih =>
    intro t ht
    rcases List.mem_cons.1 ht with h | h
    · cases h
    · exact ih hc.right.right t h
  | @num g w r ts s _ _ _ _ _ ih =>
    intro t ht
    rcases List.mem_cons.1 ht with h | h
    · cases h
    · exact ih hc.right.right t h
  | @sign g w ts s _ _ _ ih =>
    intro t ht
    rcases List.mem_cons.1 ht with h | h
    · cases h
    · exact ih hc.right.tail t h
  | @str g t b ts s _ hl _ ih =>
    intro t' ht
    rcases List.mem_cons.1 ht with h | h
    · cases h
      exact lit_clean hl hc
    · exact ih hc.right.tail.right.tail t' h

/-! ## Results -/

theorem lastE_append {α : Type} (f : SEntry → Option α) (l : List SEntry) (e : SEntry) :
    lastE f (l ++ [e]) = (f e).or (lastE f l) := by
  rw [lastE, List.filterMap_append]
  cases h : f e with
  | none => simp [h, lastE]
  | some a => simp [h]

/-- The bound that is stored. -/
def boundVal (v : Option Rat) : Dbl := toFloat ((v.map ieee).getD na)

theorem tab_fields {cv : Conv} {valid : Yy.Text → Bool} (es : List SEntry) (n : Nat) :
    let t := es.foldl (applyEntry cv valid) (newTab valid n)
    t.language = ((lastE SEntry.lang? es).map Lang.code).getD 100 ∧
    t.gridx = ((lastE (SEntry.set? .xgrid) es).map fun n : Nat => toChar8 n).getD 0 ∧
    t.gridy = ((lastE (SEntry.set? .ygrid) es).map fun n : Nat => toChar8 n).getD 0 ∧
    t.axis = ((lastE (SEntry.set? .axis) es).map fun n : Nat => toChar8 n).getD 0 ∧
    t.box = ((lastE (SEntry.set? .box) es).map fun n : Nat => toChar8 n).getD 0 ∧
    t.align = ((lastE SEntry.align? es).map Side.code).getD 0 ∧
    t.ymin = ((lastE (SEntry.bound? .ymin) es).map boundVal).getD (toFloat na) ∧
    t.ymax = ((lastE (SEntry.bound? .ymax) es).map boundVal).getD (toFloat na) ∧
    t.zmin = ((lastE (SEntry.bound? .zmin) es).map boundVal).getD (toFloat na) ∧
    t.zmax = ((lastE (SEntry.bound? .zmax) es).map boundVal).getD (toFloat na) ∧
    t.lines = (es.filterMap SEntry.line?).map (lineOf cv valid) ∧ t.ncols = toShort n ∧ t.repeatCols = 0 ∧ t.attr = 0 ∧ t.shadow = 0 := by
  induction es using List.reverseRecOn with
  | nil => exact ⟨rfl, rfl, rfl, rfl, rfl, rfl, rfl, rfl, rfl, rfl, rfl, newTab_ncols valid n, rfl, rfl, rfl⟩
  | append_singleton l e ih =>
    simp only [List.foldl_append, List.foldl_cons, List.foldl_nil, lastE_append, List.filterMap_append, List.map_append]
    generalize l.foldl (applyEntry cv valid) (newTab valid n) = t at ih ⊢
    obtain ⟨h1, h2, h3, h4, h5, h6, h7, h8, h9, h10, h11, h12, h13, h14, h15⟩ := ih
    cases e with
    | lang a =>
      simp [applyEntry, SEntry.lang?, SEntry.set?, SEntry.align?, SEntry.bound?, SEntry.line?, h2, h3, h4, h5, h6, h7, h8, h9, h10, h11, h12, h13, h14, h15]
    | div a =>
      simp [applyEntry, SEntry.lang?, SEntry.set?, SEntry.align?, SEntry.bound?, SEntry.line?, h1, h2, h3, h4, h5, h6, h7, h8, h9, h10, h11, h12, h13, h14, h15]
    | set s a =>
      cases s <;> simp [applyEntry, setNum, SEntry.lang?, SEntry.set?, SEntry.align?, SEntry.bound?, SEntry.line?, h1, h2, h3, h4, h5, h6, h7, h8, h9, h10, h11, h12, h13, h14, h15]
    | bound b neg r =>
      cases b <;> simp [applyEntry, setBound, boundVal, SEntry.lang?, SEntry.set?, SEntry.align?, SEntry.bound?, SEntry.line?, h1, h2, h3, h4, h5, h6, h7, h8, h9, h10, h11, h12, h13, h14, h15]
    | nobound b =>
      cases b <;> simp [applyEntry, setBound, boundVal, SEntry.lang?, SEntry.set?, SEntry.align?, SEntry.bound?, SEntry.line?, h1, h2, h3, h4, h5, h6, h7, h8, h9, h10, h11, h12, h13, h14, h15]
    | align a =>
      simp [applyEntry, SEntry.lang?, SEntry.set?, SEntry.align?, SEntry.bound?, SEntry.line?, h1, h2, h3, h4, h5, h7, h8, h9, h10, h11, h12, h13, h14, h15]
    | line a =>
      simp [applyEntry, SEntry.lang?, SEntry.set?, SEntry.align?, SEntry.bound?, SEntry.line?, h1, h2, h3, h4, h5, h6, h7, h8, h9, h10, h11, h12, h13, h14, h15]

theorem tab_divider {cv : Conv} {valid : Yy.Text → Bool} {es : List SEntry} {n : Nat} (hn : 1 ≤ n)
    (h : ∀ e ∈ es, ∀ cs, e = .div cs → cs.length = n) :
    (es.foldl (applyEntry cv valid) (newTab valid n)).divider =
      ((lastE SEntry.div? es).map (List.map (cellOf cv valid))).getD (newTab valid n).divider ∧
    (es.foldl (applyEntry cv valid) (newTab valid n)).divider.length = n := by
  induction es using List.reverseRecOn with
  | nil => exact ⟨rfl, by simp [newTab]; omega⟩
  | append_singleton l e ih =>
    simp only [List.foldl_append, List.foldl_cons, List.foldl_nil, lastE_append]
    obtain ⟨h1, h2⟩ := ih fun e he => h e (by simp [he])
    generalize l.foldl (applyEntry cv valid) (newTab valid n) = t at h1 h2 ⊢
    cases e with
    | div cs =>
      have hl := h (.div cs) (by simp) cs rfl
      have : t.divider.drop cs.length = [] := List.drop_eq_nil_of_le (by omega)
      exact ⟨by simp [applyEntry, SEntry.div?, this], by rw [applyEntry]; simp only [this, List.append_nil, List.length_map]; exact hl⟩
    | set s a => cases s <;> exact ⟨by simpa [applyEntry, setNum, SEntry.div?] using h1, h2⟩
    | bound b neg r => cases b <;> exact ⟨by simpa [applyEntry, setBound, SEntry.div?] using h1, h2⟩
    | nobound b => cases b <;> exact ⟨by simpa [applyEntry, setBound, SEntry.div?] using h1, h2⟩
    | _ => exact ⟨by simpa [applyEntry, SEntry.div?] using h1, h2⟩

/-! ## The form of cells and lines -/

def fontBits (ms : List Mark) : Nat :=
  (if hasFont .bold ms then 1 else 0) + (if hasFont .italic ms then 2 else 0) + (if hasFont .underline ms then 4 else 0)

theorem hasFont_append (m : Mark) (ms : List Mark) (x : Mark) :
    hasFont m (ms ++ [x]) = if x = m then true else if x = .normal then decide (m = .normal) else hasFont m ms := by
  unfold hasFont
  rw [List.filter_append]
  by_cases h1 : x = m
  · simp [h1]
  · by_cases h2 : x = .normal
    · subst h2
      simp [h1, Ne.symm h1]
    · simp [h1, h2]

theorem marks_fold (ms : List Mark) (c : TCell) (hc : c.attr = 8 ∨ c.attr = 16 ∨ c.attr = 32 ∨ c.attr = 64) :
    ms.foldl applyMark c = ⟨c.body, formOf c.attr ms⟩ := by
  induction ms using List.reverseRecOn with
  | nil => simp [formOf, hasFont]
  | append_singleton l m ih =>
    rw [List.foldl_append, ih]
    simp only [List.foldl_cons, List.foldl_nil]
    have ha : ∃ a, (l.filterMap Mark.align?).getLast?.getD c.attr = a ∧ (a = 8 ∨ a = 16 ∨ a = 32 ∨ a = 64) := by
      cases hl : (l.filterMap Mark.align?).getLast? with
      | none => exact ⟨_, rfl, hc⟩
      | some a =>
        refine ⟨a, rfl, ?_⟩
        obtain ⟨x, _, hx⟩ := List.mem_filterMap.1 (List.mem_of_getLast? hl)
        cases x <;> simp [Mark.align?] at hx <;> omega
    obtain ⟨a, ha, ha4⟩ := ha
    simp only [formOf, List.filterMap_append, hasFont_append, ha]
    generalize hasFont .bold l = b1
    generalize hasFont .italic l = b2
    generalize hasFont .underline l = b3
    have hm : (l.filterMap Mark.align? ++ [m].filterMap Mark.align?).getLast?.getD c.attr = (Mark.align? m).getD a := by
      cases m <;> simp only [List.filterMap_cons, List.filterMap_nil, Mark.align?, List.append_nil, ha, Option.getD_none,
        List.getLast?_concat, Option.getD_some]
    rw [hm]
    have : ∀ (b1 b2 b3 : Bool), ∀ a ∈ [8, 16, 32, 64], ∀ m ∈ [Mark.bold, .italic, .underline, .normal, .left, .center, .right, .decimal],
        (applyMark ⟨.str [], a + ((if b1 then 1 else 0) + (if b2 then 2 else 0) + (if b3 then 4 else 0))⟩ m).attr =
        (Mark.align? m).getD a + ((if (if m = .bold then true else if m = .normal then decide (Mark.bold = .normal) else b1) then 1 else 0) +
          (if (if m = .italic then true else if m = .normal then decide (Mark.italic = .normal) else b2) then 2 else 0) +
          (if (if m = .underline then true else if m = .normal then decide (Mark.underline = .normal) else b3) then 4 else 0)) := by
      decide +kernel
    have h1 := this b1 b2 b3 a (by simpa using ha4) m (by cases m <;> simp)
    have h2 : ∀ x, applyMark ⟨c.body, x⟩ m = ⟨c.body, (applyMark ⟨.str [], x⟩ m).attr⟩ := by intro x; cases m <;> rfl
    rw [h2, h1]

/-- The last axis and the last kind of graph. -/
theorem graph_fold (gs : List GMark) (ty : Nat) (cs : List TCell) :
    gs.foldl applyG ⟨ty, 0, false, cs⟩ = ⟨ty, graphOf gs, rightOf gs, cs⟩ := by
  induction gs using List.reverseRecOn with
  | nil => rfl
  | append_singleton l g ih =>
    rw [List.foldl_append, ih]
    cases g <;> simp [applyG, graphOf, rightOf, GMark.right?, GMark.graph?]

end Tables
end Asc
end Iode
