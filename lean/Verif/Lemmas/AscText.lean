import Verif.Model.AscText
import Verif.Spec.AscText
import Verif.Lemmas.Ascii
import Verif.Lemmas.YyLen

/-! # Lines, strings and the loops of comments, lists and identities -/
namespace Iode
namespace Asc
open Yy Lec.Written Written

/-! ## Lines -/

theorem blank_space {c : Char} : isSpace c = true ↔ Blank c := by
  simp only [isSpace, Blank, White, Bool.or_eq_true, decide_eq_true_eq]
  tauto

theorem not_blank {c : Char} (h : ¬ Blank c) : isSpace c = false := by
  cases h' : isSpace c with
  | false => rfl
  | true => exact absurd (blank_space.1 h') h

theorem sep_mem {c : Char} : wrapSeps.contains c = true ↔ Sep c := by
  rw [List.contains_iff_mem]
  rfl

theorem skip_blanks {b : Yy.Text} (hb : ∀ x ∈ b, Blank x) (s : Yy.Text) : skipSpaces (b ++ s) = skipSpaces s := by
  induction b with
  | nil => rfl
  | cons c b ih =>
    rw [skipSpaces, List.cons_append, List.dropWhile_cons, if_pos (blank_space.2 (hb c (by simp)))]
    exact ih fun x hx => hb x (by simp [hx])

theorem lastSep_none {l : Yy.Text} (h : ∀ x ∈ l, ¬ Sep x) (p i : Nat) : lastSep p i l = p := by
  induction l generalizing i with
  | nil => rfl
  | cons c l ih =>
    rw [lastSep, if_neg (fun hc => h c (by simp) (sep_mem.1 hc))]
    exact ih (fun x hx => h x (by simp [hx])) _

theorem lastSep_some {d : Char} (hd : Sep d) {r : Yy.Text} (hr : ∀ x ∈ r, ¬ Sep x) (a : Yy.Text) (p i : Nat) :
    lastSep p i (a ++ d :: r) = i + a.length := by
  induction a generalizing p i with
  | nil =>
    rw [List.nil_append, lastSep, if_pos (sep_mem.2 hd), lastSep_none hr]
    rfl
  | cons c a ih =>
    rw [List.cons_append, lastSep, ih, List.length_cons]
    omega

theorem nl_eq {c : Char} (h : c.toNat = 10) : c = '\n' := Char.ext (UInt32.toNat_inj.1 h)

theorem takeWhile_nl {s : Yy.Text} (h : '\n' ∉ s) : s.takeWhile (fun c => decide (c.toNat ≠ 10)) = s := by
  induction s with
  | nil => rfl
  | cons c s ih =>
    rw [List.takeWhile_cons, if_pos, ih (fun h' => h (by simp [h']))]
    simp only [decide_eq_true_eq]
    intro e
    exact h (by simp [nl_eq e])

theorem cut_last {lg : Nat} {s : Yy.Text} (hn : '\n' ∉ s) (h : s.length ≤ lg) : cut lg s = s.length := by
  rw [cut, takeWhile_nl hn, List.take_of_length_le h]
  simp

theorem cut_sep {lg : Nat} {c d : Char} {l r : Yy.Text} (hn : '\n' ∉ c :: (l ++ d :: r)) (hd : Sep d) (h1 : l.length + 2 ≤ lg)
    (h2 : lg < l.length + 2 + r.length) (h3 : ∀ x ∈ r.take (lg - (l.length + 2)), ¬ Sep x) :
    cut lg (c :: (l ++ d :: r)) = l.length + 2 := by
  rw [cut, takeWhile_nl hn]
  have e : (c :: (l ++ d :: r)).take lg = (c :: l) ++ d :: r.take (lg - (l.length + 2)) := by
    obtain ⟨k, rfl⟩ : ∃ k, lg = l.length + 2 + k := ⟨lg - (l.length + 2), by omega⟩
    rw [show l.length + 2 + k = (l.length + (k + 1)) + 1 by omega, List.take_succ_cons, List.take_length_add_append,
      List.take_succ_cons]
    simp
    congr 1
    omega
  simp only [e, lastSep_some hd h3]
  rw [if_pos]
  · simp
  · simp
    omega

theorem cut_hard {lg : Nat} {c : Char} {l r : Yy.Text} (hn : '\n' ∉ c :: (l ++ r)) (h1 : l.length + 1 = lg)
    (h3 : ∀ x ∈ l, ¬ Sep x) : cut lg (c :: (l ++ r)) = lg := by
  rw [cut, takeWhile_nl hn]
  have e : (c :: (l ++ r)).take lg = c :: l := by
    rw [← h1, List.take_succ_cons]
    simp
  have hp : lastSep 0 0 (c :: l) = 0 := by
    rw [lastSep, lastSep_none h3]
    simp
  simp only [e, hp]
  simp [h1]

theorem wrapLines_of {lg : Nat} {t : Yy.Text} {ls : List Yy.Text} (h : Lines lg t ls) (hn : '\n' ∉ t) :
    ∀ n, t.length < n → wrapLines lg n t = ls := by
  induction h with
  | @none b hb =>
    intro n h
    cases n with
    | zero => omega
    | succ n =>
      have := skip_blanks hb []
      rw [List.append_nil] at this
      rw [wrapLines, this]
      rfl
  | @last b c l hb hc hl =>
    intro n h
    cases n with
    | zero => omega
    | succ n =>
      have hs : skipSpaces (c :: l) = c :: l := skipSpaces_stop (not_blank hc) l
      have hk := cut_last (lg := lg) (s := c :: l) (fun h => hn (by simp at h ⊢; tauto)) (by simpa using hl)
      rw [wrapLines, skip_blanks hb, hs]
      simp only [hk]
      simp
  | @sep b c l d r ls hb hc hd h1 h2 h3 _ ih =>
    intro n h
    cases n with
    | zero => omega
    | succ n =>
      have hs : skipSpaces (c :: (l ++ d :: r)) = c :: (l ++ d :: r) :=
        skipSpaces_stop (not_blank hc) _
      have hk := cut_sep (lg := lg) (c := c) (d := d) (l := l) (r := r) (fun h => hn (by simp at h ⊢; tauto)) hd h1 h2 h3
      rw [wrapLines, skip_blanks hb, hs]
      simp only [hk]
      have e1 : (c :: (l ++ d :: r)).take (l.length + 2) = c :: (l ++ [d]) := by
        rw [List.take_succ_cons, List.take_length_add_append]
        rfl
      have e2 : (c :: (l ++ d :: r)).drop (l.length + 2) = r := by
        rw [List.drop_succ_cons, List.drop_length_add_append]
        rfl
      have hr : r ≠ [] := by
        rintro rfl
        simp at h2
        omega
      rw [e1, e2, if_neg hr, ih (fun h => hn (by simp [h])) n (by simp at h; omega)]
  | @hard b c l r ls hb hc h1 hr h3 _ ih =>
    intro n h
    cases n with
    | zero => omega
    | succ n =>
      have hs : skipSpaces (c :: (l ++ r)) = c :: (l ++ r) :=
        skipSpaces_stop (not_blank hc) _
      have hk := cut_hard (lg := lg) (c := c) (l := l) (r := r) (fun h => hn (by simp at h ⊢; tauto)) h1 h3
      rw [wrapLines, skip_blanks hb, hs]
      simp only [hk]
      have e1 : (c :: (l ++ r)).take lg = c :: l := by
        rw [← h1, List.take_succ_cons]
        simp
      have e2 : (c :: (l ++ r)).drop lg = r := by
        rw [← h1, List.drop_succ_cons]
        simp
      rw [e1, e2, if_neg hr, ih (fun h => hn (by simp [h])) n (by simp at h; omega)]

theorem split_sep (l : Yy.Text) : (∀ x ∈ l, ¬ Sep x) ∨ ∃ a d r, l = a ++ d :: r ∧ Sep d ∧ ∀ x ∈ r, ¬ Sep x := by
  induction l with
  | nil => exact .inl (by simp)
  | cons c l ih =>
    rcases ih with h | ⟨a, d, r, rfl, h⟩
    · by_cases hc : Sep c
      · exact .inr ⟨[], c, l, rfl, hc, h⟩
      · exact .inl (by simpa [hc] using h)
    · exact .inr ⟨c :: a, d, r, rfl, h⟩

theorem split_blank (t : Yy.Text) : ∃ b s, t = b ++ s ∧ (∀ x ∈ b, Blank x) ∧ ∀ c, s.head? = some c → ¬ Blank c := by
  induction t with
  | nil => exact ⟨[], [], rfl, by simp, by simp⟩
  | cons c t ih =>
    by_cases hc : Blank c
    · obtain ⟨b, s, rfl, h1, h2⟩ := ih
      exact ⟨c :: b, s, rfl, by simpa [hc] using h1, h2⟩
    · exact ⟨[], c :: t, rfl, by simp, by rintro x h; cases h; exact hc⟩

/-- Every text can be cut into lines. -/
theorem lines_exist {lg : Nat} (hlg : 0 < lg) (t : Yy.Text) : ∃ ls, Lines lg t ls := by
  induction hn : t.length using Nat.strong_induction_on generalizing t with
  | _ n ih =>
    obtain ⟨b, s, rfl, hb, hs⟩ := split_blank t
    cases s with
    | nil => exact ⟨[], by rw [List.append_nil]; exact .none hb⟩
    | cons c s =>
      have hc := hs c rfl
      by_cases hle : s.length + 1 ≤ lg
      · exact ⟨_, .last hb hc hle⟩
      · have es : s = s.take (lg - 1) ++ s.drop (lg - 1) := (List.take_append_drop _ _).symm
        have el : (s.take (lg - 1)).length = lg - 1 := by rw [List.length_take]; omega
        have er : (s.drop (lg - 1)).length = s.length - (lg - 1) := by rw [List.length_drop]
        rcases split_sep (s.take (lg - 1)) with h | ⟨a, d, r, e, hd, hr⟩
        · obtain ⟨ls, h'⟩ := ih (s.drop (lg - 1)).length (by simp at hn; omega) _ rfl
          have := Lines.hard hb hc (by omega) (by intro e0; rw [e0] at er; simp at er; omega) h h'
          rw [← es] at this
          exact ⟨_, this⟩
        · obtain ⟨ls, h'⟩ := ih (r ++ s.drop (lg - 1)).length (by
            have := congrArg List.length e
            simp at hn this
            simp
            omega) _ rfl
          have hlen := congrArg List.length e
          rw [el] at hlen
          simp at hlen
          have := Lines.sep (lg := lg) (b := b) (c := c) (l := a) (d := d) (r := r ++ s.drop (lg - 1)) hb hc hd (by omega)
            (by simp; omega) (by
              have : lg - (a.length + 2) = r.length := by omega
              rw [this, List.take_left']
              · exact hr
              · rfl) h'
          have e2 : s = a ++ d :: (r ++ s.drop (lg - 1)) := by
            conv => lhs; rw [es, e]
            simp
          rw [← e2] at this
          exact ⟨_, this⟩

theorem join_lines (ls : List Yy.Text) : joinLines ls = List.intercalate ['\n'] ls := by
  induction ls with
  | nil => rfl
  | cons l ls ih =>
    cases ls with
    | nil => simp [joinLines, List.intercalate]
    | cons m ls =>
      rw [joinLines, ih]
      simp [List.intercalate]
      simp

/-- `K_wrap` does what is described. -/
theorem wrap_iff {t u : Yy.Text} : wrap 60 t = u ↔ Wrapped 60 t u := by
  have key : ∀ u, Wrapped 60 t u → wrap 60 t = u := by
    rintro u (⟨h1, rfl⟩ | ⟨h1, ls, h2, rfl⟩)
    · rw [wrap, if_pos (by simpa using h1)]
    · rw [wrap, if_neg (by simpa using h1), wrapLines_of h2 h1 _ (by omega), join_lines]
  refine ⟨?_, key u⟩
  rintro rfl
  have : ∃ u, Wrapped 60 t u := by
    by_cases h : '\n' ∈ t
    · exact ⟨t, .inl ⟨h, rfl⟩⟩
    · obtain ⟨ls, h'⟩ := lines_exist (lg := 60) (by omega) t
      exact ⟨_, .inr ⟨h, ls, h', rfl⟩⟩
  obtain ⟨u, hu⟩ := this
  rw [key u hu]
  exact hu

/-! ## Strings -/

theorem escape_self {c : Char} (h : c = '"' ∨ c = '\\' ∨ c = '^' ∨ c = '\'') (r : Yy.Text) : readEscape (c :: r) = (c, r) := by
  rw [readEscape.eq_def]
  rcases h with rfl | rfl | rfl | rfl <;> rfl

theorem control_caret {r : Yy.Text} (h : ∀ c, r.head? = some c → ¬ Letter c ∧ c ≠ '[') : readControl r = ('^', r) := by
  cases r with
  | nil => rfl
  | cons c r =>
    obtain ⟨h1, h2⟩ := h c rfl
    simp only [Letter, Lower, Upper, not_or] at h1
    rw [readControl, if_neg h2, if_neg, if_neg]
    · simp only [Bool.and_eq_true, decide_eq_true_eq]; tauto
    · simp only [Bool.and_eq_true, decide_eq_true_eq]; tauto

theorem readString_lit {t b : Yy.Text} (h : Lit t b) (s : Yy.Text) : ∀ n, b.length < n →
    readString '"' n (b ++ '"' :: s) = (t, s) := by
  induction h with
  | nil =>
    intro n hn
    cases n with
    | zero => omega
    | succ n => rfl
  | @plain c t b h1 h2 h3 _ _ ih =>
    intro n hn
    cases n with
    | zero => omega
    | succ n =>
      rw [List.cons_append, readString.eq_def]
      simp only
      rw [if_neg h2, if_neg h3, if_neg h1, ih n (by simp at hn; omega)]
  | @esc c t b h1 _ ih =>
    intro n hn
    cases n with
    | zero => omega
    | succ n =>
      rw [List.cons_append, List.cons_append, readString.eq_def]
      simp only
      rw [if_pos trivial, escape_self h1]
      simp only
      rw [ih n (by simp at hn; omega)]
  | @newline t b _ ih =>
    intro n hn
    cases n with
    | zero => omega
    | succ n =>
      rw [List.cons_append, List.cons_append, readString.eq_def]
      simp only
      rw [if_pos trivial, show readEscape ('n' :: (b ++ '"' :: s)) = ('\n', b ++ '"' :: s) by rw [readEscape.eq_def]; rfl]
      simp only
      rw [ih n (by simp at hn; omega)]
  | @caret t b h1 _ ih =>
    intro n hn
    cases n with
    | zero => omega
    | succ n =>
      rw [List.cons_append, readString.eq_def]
      simp only
      rw [if_neg (by decide), if_pos trivial, control_caret]
      · simp only
        rw [ih n (by simp at hn; omega)]
      · intro c hc
        cases b with
        | nil => cases hc; simp only [Letter]; decide
        | cons x b => exact h1 c hc

theorem reads_string {κ : Type} {tbl : Keys κ} {t b : Yy.Text} (h : Lit t b) (s : Yy.Text) :
    Reads tbl ('"' :: (b ++ '"' :: s)) (.raw (.string t)) (.string t) s := by
  refine reads_of (r := .string t) ?_ (by simp) (by simp) (by simp) rfl
  rw [Yy.read, skipSpaces_stop (by decide)]
  simp only
  rw [if_neg (by decide), readFrom.eq_def, if_pos rfl]
  simp only
  rw [readString_lit h s _ (by simp; omega)]

theorem lit_noNul {t b : Yy.Text} (h : Lit t b) (hb : ∀ c ∈ b, c.toNat ≠ 0) : ∀ c ∈ t, c.toNat ≠ 0 := by
  induction h with
  | nil => simp
  | plain _ _ _ _ _ ih =>
    intro c hc
    rcases List.mem_cons.1 hc with rfl | hc
    · exact hb _ (by simp)
    · exact ih (fun c hc => hb c (by simp [hc])) c hc
  | esc _ _ ih =>
    intro c hc
    rcases List.mem_cons.1 hc with rfl | hc
    · exact hb _ (by simp)
    · exact ih (fun c hc => hb c (by simp [hc])) c hc
  | newline _ ih =>
    intro c hc
    rcases List.mem_cons.1 hc with rfl | hc
    · decide
    · exact ih (fun c hc => hb c (by simp [hc])) c hc
  | caret _ _ ih =>
    intro c hc
    rcases List.mem_cons.1 hc with rfl | hc
    · exact hb _ (by simp)
    · exact ih (fun c hc => hb c (by simp [hc])) c hc

theorem cstr_self {t : Yy.Text} (h : ∀ c ∈ t, c.toNat ≠ 0) : cstr t = t := by
  induction t with
  | nil => rfl
  | cons c t ih =>
    rw [cstr, List.takeWhile_cons, if_pos (by simpa using h c (by simp))]
    rw [← cstr, ih fun c hc => h c (by simp [hc])]

/-! ## The loops -/

theorem noKeys_word (w : Yy.Text) : findWord noKeys w = none := rfl

theorem reads_objName {w s : Yy.Text} (h : ObjName w) (hs : NameEnd s) : Reads noKeys (w ++ s) (.raw (.word w)) (.word w) s := by
  have := reads_word (tbl := noKeys) h.ne h.head h.all hs
  rwa [noKeys_word] at this

/-- The end of an object: a name, or the end of the text. -/
def Halt (r : Raw) : Prop := r = .eof ∨ ∃ w, r = .word w

theorem halt_back {r : Raw} (h : Halt r) (s : Yy.Text) : lxs noKeys ⟨r, true, s⟩ = .ok (.raw r, ⟨r, false, s⟩) := by
  rw [lxs, lx, rd]
  rcases h with rfl | ⟨w, rfl⟩ <;> rfl

theorem skipText_halt {st : St} {r : Raw} {s : Yy.Text} (hl : lxs noKeys st = .ok (.raw r, ⟨r, false, s⟩)) (h : Halt r)
    (n : Nat) : skipText (n + 1) st = .ok ⟨r, true, s⟩ := by
  rw [skipText, hl]
  rcases h with rfl | ⟨w, rfl⟩ <;> rfl

/-- The element a text of objects begins with, and what is behind it. -/
def TEntry : List (Yy.Text × Yy.Text) → Raw → Yy.Text → Prop
  | [], r, _ => r = .eof
  | (w, t) :: rest, r, s => r = .word w ∧ ObjName w ∧ ∃ g b s', s = g ++ '"' :: (b ++ '"' :: s') ∧ Gap g ∧ Lit t b ∧ TLaid rest s'

theorem gap_quote {g : Yy.Text} (hg : Gap g) (s : Yy.Text) : NameEnd (g ++ '"' :: s) := by
  by_cases h : g = []
  · subst h
    intro c hc
    cases hc
    decide
  · exact (gap_ends hg h _).1

theorem tlaid_entry {defs : List (Yy.Text × Yy.Text)} {x : Yy.Text} (h : TLaid defs x) :
    ∃ r s, Reads noKeys x (.raw r) r s ∧ Halt r ∧ TEntry defs r s := by
  cases h with
  | nil hg =>
    have := reads_gap (reads_eof noKeys) hg
    rw [List.append_nil] at this
    exact ⟨_, _, this, .inl rfl, rfl⟩
  | @obj g w g' t b rest s hg hw hg' hl hr =>
    exact ⟨_, _, reads_gap (reads_objName hw (gap_quote hg' _)) hg, .inr ⟨w, rfl⟩, rfl, hw, g', b, s, rfl, hg', hl, hr⟩

/-- The database after a list of objects. -/
def putAll (ty : ObjType) (cv : Conv) (defs : List (Yy.Text × Yy.Text)) (db : SMap Yy.Text) : SMap Yy.Text :=
  defs.foldl (fun db e => putText ty cv e.1 (wrap 60 (cstr e.2)) db) db

theorem textLoop_entry {ty : ObjType} {cv : Conv} : ∀ {defs : List (Yy.Text × Yy.Text)} {st : St} {r : Raw} {s : Yy.Text}
    (_ : lxs noKeys st = .ok (.raw r, ⟨r, false, s⟩)) (_ : TEntry defs r s) (n : Nat) (_ : defs.length < n) (db : SMap Yy.Text),
    textLoop ty cv n st db = .ok (putAll ty cv defs db) := by
  intro defs
  induction defs with
  | nil =>
    intro st r s hl he n hn db
    cases he
    cases n with
    | zero => omega
    | succ n =>
      rw [textLoop, hl]
      rfl
  | cons e rest ih =>
    obtain ⟨w, t⟩ := e
    intro st r s hl he n hn db
    obtain ⟨rfl, hw, g, b, s', rfl, hg, ht, hrest⟩ := he
    obtain ⟨r', s'', h1, h2, h3⟩ := tlaid_entry hrest
    cases n with
    | zero => omega
    | succ n =>
      rw [textLoop, hl]
      simp only [Res.bind]
      rw [readText, (reads_gap (reads_string ht s') hg).lxs]
      simp only [Res.bind]
      rw [skipText_halt (h1.lxs _) h2]
      simp only
      rw [ih (halt_back h2 s'') h3 n (by simp at hn; omega)]
      rfl

theorem tlaid_length {defs : List (Yy.Text × Yy.Text)} {s : Yy.Text} (h : TLaid defs s) : defs.length ≤ s.length := by
  induction h with
  | nil => simp
  | obj _ _ _ _ _ ih => simp; omega

theorem loadTexts_laid {ty : ObjType} {cv : Conv} {defs : List (Yy.Text × Yy.Text)} {t : Yy.Text} (h : TLaid defs (expand 0 t)) :
    loadTexts ty cv t = .ok (putAll ty cv defs []) := by
  obtain ⟨r, s, h1, _, h3⟩ := tlaid_entry h
  have := tlaid_length h
  rw [loadTexts, textLoop_entry (h1.lxs .err) h3 _ (by omega)]

/-! ## Identities -/

/-- The identities after a list of definitions, and whether all could be read. -/
def putIdts (cv : Conv) (valid : Yy.Text → Bool) : List (Yy.Text × Yy.Text) → SMap Yy.Text → Bool × SMap Yy.Text
  | [], db => (true, db)
  | e :: rest, db =>
    match toUtf8 cv (wrap 60 (cstr e.2)) with
    | none => (false, db)
    | some u =>
      if checkName .identities (toKey .identities (e.1.take 20)) then
        putIdts cv valid rest (SMap.insert (toKey .identities (e.1.take 20)) (setLec valid u) db)
      else (false, db)

theorem idtLoop_entry {cv : Conv} {valid : Yy.Text → Bool} : ∀ {defs : List (Yy.Text × Yy.Text)} {x : Yy.Text} (_ : TLaid defs x)
    (typ : Raw) (n : Nat) (_ : defs.length < n) (db : SMap Yy.Text),
    idtLoop cv valid n ⟨typ, false, x⟩ db = .ok (putIdts cv valid defs db) := by
  intro defs
  induction defs with
  | nil =>
    intro x h typ n hn db
    obtain ⟨r, s, h1, _, h3⟩ := tlaid_entry h
    cases h3
    cases n with
    | zero => omega
    | succ n =>
      rw [idtLoop, h1.lxs]
      rfl
  | cons e rest ih =>
    obtain ⟨w, t⟩ := e
    intro x h typ n hn db
    obtain ⟨r, s, h1, _, rfl, hw, g, b, s', rfl, hg, ht, hrest⟩ := tlaid_entry h
    cases n with
    | zero => omega
    | succ n =>
      rw [idtLoop, h1.lxs]
      simp only [Res.bind]
      rw [(reads_gap (reads_string ht s') hg).lxs, putIdts]
      simp only [Res.bind]
      cases toUtf8 cv (wrap 60 (cstr t)) with
      | none => rfl
      | some u =>
        simp only
        split
        · rw [ih hrest _ n (by simp at hn; omega)]
        · rfl

theorem loadIdts_laid {cv : Conv} {valid : Yy.Text → Bool} {defs : List (Yy.Text × Yy.Text)} {t : Yy.Text}
    (h : TLaid defs (expand 0 t)) : loadIdts cv valid t = .ok (putIdts cv valid defs []) := by
  have := tlaid_length h
  rw [loadIdts, idtLoop_entry h _ _ (by omega)]

/-! ## Tabs -/

theorem lit_tab {t b : Yy.Text} (h : Lit t b) : ∀ c ∈ b, c.toNat ≠ 9 := by
  induction h with
  | nil => simp
  | plain _ _ _ h _ ih => simp; exact ⟨h, ih⟩
  | esc h _ ih =>
    simp
    exact ⟨by rcases h with rfl | rfl | rfl | rfl <;> decide, ih⟩
  | newline _ ih => simp; exact ih
  | caret _ _ ih => simp; exact ih

theorem tlaid_expand {defs : List (Yy.Text × Yy.Text)} {s : Yy.Text} (h : TLaid defs s) (hc : Lec.Clean s) (col : Nat) :
    TLaid defs (expand col s) := by
  induction h generalizing col with
  | nil hg =>
    obtain ⟨g', c1, h1, e1⟩ := Lec.expand_gap hg hc col
    have := e1 []
    rw [List.append_nil] at this
    rw [this, expand, List.append_nil]
    exact .nil h1
  | @obj g w g0 t b r s hg hw hg0 hl _ ih =>
    obtain ⟨g', c1, h1, e1⟩ := Lec.expand_gap hg hc.left col
    obtain ⟨c2, e2⟩ := Lec.expand_plains (fun c hc => Lec.nameCh_plain (hw.all c hc)) c1
    have hc1 := hc.right.right
    obtain ⟨g1, c3, h3, e3⟩ := Lec.expand_gap hg0 hc1.left c2
    obtain ⟨c4, e4⟩ := Lec.expand_plain (c := '"') (by decide) c3
    have hc2 := hc1.right.tail
    obtain ⟨c5, e5⟩ := Lec.expand_plains (t := b) (fun c hb => Lec.plain_of (hc2.left c hb) (lit_tab hl c hb)) c4
    obtain ⟨c6, e6⟩ := Lec.expand_plain (c := '"') (by decide) c5
    rw [e1, e2, e3, e4, e5, e6]
    exact .obj h1 hw h3 hl (ih hc2.right.tail c6)

/-! ## Names -/

theorem tlaid_names {defs : List (Yy.Text × Yy.Text)} {s : Yy.Text} (h : TLaid defs s) : ∀ e ∈ defs, ObjName e.1 := by
  induction h with
  | nil => intro e he; cases he
  | obj _ hw _ _ _ ih =>
    intro e he
    rcases List.mem_cons.1 he with rfl | he
    · exact hw
    · exact ih e he

/-- Comments keep the case of their names. -/
def upOf (ty : ObjType) : Bool :=
  match ty with
  | .comments => false
  | _ => true

/-- The types of objects that are stored as a name and a string. -/
def IsText (ty : ObjType) : Prop := ty = .comments ∨ ty = .lists ∨ ty = .identities

theorem mixed_name {c : Char} (h : NameCh c) : (isUpperC c = true ∨ isLowerC c = true) ∨ isDigitC c = true ∨ c = '_' := by
  have : ∀ n < 128, NameCh (Char.ofNat n) → ((isUpperC (Char.ofNat n) = true ∨ isLowerC (Char.ofNat n) = true) ∨
      isDigitC (Char.ofNat n) = true ∨ Char.ofNat n = '_') := by
    decide +kernel
  have h1 := this c.toNat (Lec.nameCh_lt h)
  rw [Char.ofNat_toNat] at h1
  exact h1 h

theorem mixed_digit {c : Char} (h : NameCh c) (hd : ¬ Digit c) : (isUpperC c = true ∨ isLowerC c = true) ∨ c = '_' := by
  rcases mixed_name h with h1 | h1 | h1
  · exact .inl h1
  · exact absurd (by simpa [isDigitC, Digit] using h1) hd
  · exact .inr h1

theorem key_name {ty : ObjType} (ht : IsText ty) {w : Yy.Text} (h : ObjName w) :
    toKey ty (w.take 20) = keyOf (upOf ty) w ∧ checkName ty (keyOf (upOf ty) w) = true := by
  rw [List.take_of_length_le h.short]
  have hs := h.short
  have hup : ∀ ty, isLetterFor ty = isUpperC → checkName ty (w.map toUpperC) = true := by
    intro ty he
    cases w with
    | nil => exact absurd rfl h.ne
    | cons c r =>
      simp only [List.length_cons] at hs
      simp only [List.map_cons, checkName, List.length_cons, List.length_map, Bool.and_eq_true, decide_eq_true_eq, List.all_eq_true]
      refine ⟨⟨⟨by omega, ?_⟩, ?_⟩, by omega⟩
      · rcases upper_digit (h.all c (by simp)) (h.head c rfl) with h1 | h1 <;> simp [nameHeadOk, he, h1]
      · intro x hx
        obtain ⟨y, hy, rfl⟩ := List.mem_map.1 hx
        rcases upper_name (h.all y (by simp [hy])) with h1 | h1 | h1 <;> simp [nameTailOk, he, h1]
  rcases ht with rfl | rfl | rfl
  · refine ⟨by simp only [toKey, ObjType.mode, trim_name h.all]; rfl, ?_⟩
    simp only [upOf, keyOf, Bool.false_eq_true, if_false]
    cases w with
    | nil => exact absurd rfl h.ne
    | cons c r =>
      simp only [List.length_cons] at hs
      simp only [checkName, List.length_cons, Bool.and_eq_true, decide_eq_true_eq, List.all_eq_true]
      refine ⟨⟨⟨by omega, ?_⟩, ?_⟩, by omega⟩
      · rcases mixed_digit (h.all c (by simp)) (h.head c rfl) with (h1 | h1) | h1 <;> simp [nameHeadOk, isLetterFor, h1]
      · intro x hx
        rcases mixed_name (h.all x (by simp [hx])) with (h1 | h1) | h1 | h1 <;> simp [nameTailOk, isLetterFor, h1]
  · exact ⟨by simp only [toKey, ObjType.mode, toUpper, trim_name h.all]; rfl, hup _ rfl⟩
  · exact ⟨by simp only [toKey, ObjType.mode, toUpper, trim_name h.all]; rfl, hup _ rfl⟩

end Asc
end Iode
