import Verif.Lemmas.LecLex
import Verif.Props.C24
import Mathlib.Tactic.NormNum
import Mathlib.Data.Nat.Prime.Basic

/-!
# C47: a formula is read token by token as it is written

The reference is `Verif/Spec/LecLex.lean`: the spelling of the tokens, the gaps between them (white space and comments) and
when a token ends (`Laid`).  Every text made of tokens and gaps is read as these tokens, and reading it leaves the lists as
they are; a reference `$LIST` is read as the content of the list.

The full claim is false of the code:
* reading `$LIST` changes the list: its semicolons become commas (`C47_list_changed_counterexample`);
* decimal numbers, and whole numbers of ten digits or more, are rounded to single precision (`C47_single_partial`);
* a name of more than 20 characters is read as another name (`C47_long_name_counterexample`);
* variables named like `_1` are read as scalars, variables with `#` in their name and scalars named like a function cannot be
  used (`C47_names_counterexample`, `C47_hash_counterexample`, `C47_keyword_counterexample`);
* a comment in front of `$LIST` is an error (`C47_comment_counterexample`);
* a list that refers to itself is read without end (`C47_endless_counterexample`);
* a number of 255 characters or more overflows an array (`C47_long_number_counterexample`).
-/
namespace Iode
namespace Lec
open Yy Written

/-! ## Texts without lists -/

/-- Every text made of tokens and gaps, with tabs and returns anywhere in the gaps (returns even inside tokens), is read as
    these tokens; the lists stay as they are. -/
theorem C47_tokens (E : LexEnv) (ls : List (Name × Text)) {ts : List RTok} {s : Text} (h : Laid E.rnd ts (s.filter kept))
    (h0 : ∀ c ∈ s, c.toNat ≠ 0) {n : Nat} (hn : ts.length < n) : lexText E ls n s = .done ts ls := by
  have hc : Clean (s.filter kept) := by
    intro c hc
    obtain ⟨h1, h2⟩ := List.mem_filter.1 hc
    simp only [kept, decide_eq_true_eq] at h2
    exact ⟨h0 c h1, h2⟩
  rw [lexText, File.stream]
  simp only [List.nil_append, List.replicate_zero]
  rw [expand_kept]
  exact laid_lex E ls (laid_expand h hc _) (expand_noCr _ _) n hn

/-- A text is made of tokens and gaps in one way only. -/
theorem C47_unambiguous {rnd : Rat → Rat} {ts ts' : List RTok} {s : Text} (h : Laid rnd ts s) (h' : Laid rnd ts' s)
    (hc : NoCr s) : ts = ts' := by
  have h1 := laid_lex ⟨rnd, fun _ => none⟩ [] h hc (ts.length + ts'.length + 1) (by omega)
  have h2 := laid_lex ⟨rnd, fun _ => none⟩ [] h' hc (ts.length + ts'.length + 1) (by omega)
  rw [h1] at h2
  cases h2
  rfl

/-- From the text of a formula to its value: read, compile, link and execute. -/
theorem C47_value {F : Type} (A : Arith F) (V : Env F) (hna : A.isNum A.na = false) (E : LexEnv) (ls : List (Name × Text))
    {ts : List RTok} {s : Text} (h : Laid E.rnd ts (s.filter kept)) (h0 : ∀ c ∈ s, c.toNat ≠ 0) {e : Expr}
    (hr : Reads (group ts) e) (hs : Simple A V e) {t : Int} {v : F} (hv : eval A V e t = some v) :
    ∃ n ts', lexText E ls n s = .done ts' ls ∧ evalText A V [] ts' t = .ok v :=
  ⟨ts.length + 1, ts, C47_tokens E ls h h0 (by omega), C24_simple_value A V hna hr hs hv⟩

/-! ## Lists -/

theorem comment_length (s : Text) : (comment s).2.length ≤ s.length := by
  fun_induction comment s with
  | case1 => simp
  | case2 => simp; omega
  | case3 _ _ ih => simp only [List.length_cons]; omega
  | case4 _ _ _ ih => simp only [List.length_cons]; omega

theorem skipToEol_length (s : Text) : (skipToEol s).length ≤ s.length := by
  induction s with
  | nil => simp [skipToEol]
  | cons c r ih =>
    rw [skipToEol]
    split <;> simp only [List.length_cons] <;> omega

theorem skipSpaces_length (s : Text) : (skipSpaces s).length ≤ s.length := (List.dropWhile_sublist _).length_le

theorem numRaw_ne (p : Text × Bool × Text) : (numRaw p).1 ≠ .comment := by
  rw [numRaw]; simp only; split <;> simp

theorem readFrom_ne (c : Char) (r : Text) : (readFrom c r).1 ≠ .comment := by
  rw [readFrom.eq_def]
  repeat' split
  all_goals first | exact numRaw_ne _ | simp [readLetter]

theorem read_comment_length {s : Text} (h : (Yy.read s).1 = .comment) : (Yy.read s).2.length < s.length := by
  have hl := skipSpaces_length s
  rw [Yy.read] at h ⊢
  cases hk : skipSpaces s with
  | nil => rw [hk] at h; cases h
  | cons c r =>
    rw [hk] at h hl
    simp only [List.length_cons] at hl
    simp only at h ⊢
    split at h
    · rename_i hc
      rw [if_pos hc]
      split at h
      · rename_i r'
        have := comment_length r'
        simp only [List.length_cons] at hl
        omega
      · rename_i r'
        have := skipToEol_length r'
        simp only [List.length_cons] at hl
        simp only
        omega
      · exact absurd h (readFrom_ne _ _)
    · exact absurd h (readFrom_ne _ _)

theorem lex_fuel {κ : Type} (tbl : Keys κ) {n m : Nat} {s : Text} (hn : s.length < n) (hm : s.length < m) :
    lex tbl n s = lex tbl m s := by
  induction n generalizing m s with
  | zero => omega
  | succ n ih =>
    obtain ⟨k, rfl⟩ : ∃ k, m = k + 1 := ⟨m - 1, by omega⟩
    rw [lex, lex]
    split
    · rename_i h
      have := read_comment_length h
      exact ih (by omega) (by omega)
    · rfl

theorem lexTok_skip (E : LexEnv) (ls : List (Name × Text)) (s : Text) : lexTok E ls (skipSpaces s) = lexTok E ls s := by
  have := skipSpaces_length s
  rw [lexTok, lexTok, lex_fuel lecTable (n := (skipSpaces s).length + 1) (m := s.length + 1) (by omega) (by omega), lex_skip]

theorem lexAll_skip (E : LexEnv) (n : Nat) (ls : List (Name × Text)) (s : Text) :
    lexAll E n ⟨ls, skipSpaces s⟩ = lexAll E n ⟨ls, s⟩ := by
  cases n with
  | zero => rfl
  | succ n =>
    have : getToken E ⟨ls, skipSpaces s⟩ = getToken E ⟨ls, s⟩ := by
      rw [getToken, getToken]
      simp only [skipSpaces_idem]
    rw [lexAll, lexAll, this]

/-- Texts with references to lists, the tokens they stand for, and the lists afterwards.  A reference stands for the content
    of the list with its semicolons turned into commas; the list keeps this content.  Only white space may be between the
    token in front and the reference, and the content may not begin with another reference. -/
inductive LaidL (rnd : Rat → Rat) : List (Name × Text) → List RTok → Text → List (Name × Text) → Prop where
  | plain {ls ts s} : Laid rnd ts s → LaidL rnd ls ts s ls
  | item {ls g txt tok ts s ls'} : Gap g → Item rnd txt tok s → LaidL rnd ls ts s ls' →
      LaidL rnd ls (tok :: ts) (g ++ (txt ++ s)) ls'
  | list {ls w0 c w t ts s ls'} : (∀ x ∈ w0, White x) → ¬ Digit c → (∀ x ∈ c :: w, NameCh x) → NameEnd s →
      findList ls (c :: w) = some t → next (commas t ++ s) ≠ some '$' → next (commas t ++ s) ≠ some '\'' →
      LaidL rnd (setList ls (c :: w) (commas t)) ts (commas t ++ s) ls' →
      LaidL rnd ls ts (w0 ++ '$' :: (c :: w ++ s)) ls'

theorem commas_noCr {t : Text} (h : NoCr t) : NoCr (commas t) := by
  intro c hc
  obtain ⟨a, ha, rfl⟩ := List.mem_map.1 hc
  split
  · decide
  · exact h a ha

theorem findList_mem {ls : List (Name × Text)} {w : Name} {t : Text} (h : findList ls w = some t) :
    (toKey .lists w, t) ∈ ls := by
  rw [findList] at h
  cases hf : ls.find? (fun l => decide (l.1 = toKey .lists w)) with
  | none => rw [hf] at h; cases h
  | some l =>
    rw [hf] at h
    simp only [Option.map_some, Option.some.injEq] at h
    have h1 := List.find?_some hf
    simp only [decide_eq_true_eq] at h1
    rw [← h1, ← h]
    exact List.mem_of_find?_eq_some hf

theorem setList_noCr {ls : List (Name × Text)} (h : ∀ l ∈ ls, NoCr l.2) (w : Name) {t : Text} (ht : NoCr t) :
    ∀ l ∈ setList ls w t, NoCr l.2 := by
  intro l hl
  obtain ⟨a, ha, rfl⟩ := List.mem_map.1 hl
  split
  · exact ht
  · exact h a ha

/-- A text with references to lists is read as the tokens it stands for. -/
theorem C47_lists (E : LexEnv) {ls ls' : List (Name × Text)} {ts : List RTok} {s : Text} (h : LaidL E.rnd ls ts s ls')
    (hs : NoCr s) (hl : ∀ l ∈ ls, NoCr l.2) {n : Nat} (hn : ts.length < n) : lexAll E n ⟨ls, s⟩ = .done ts ls' := by
  induction h generalizing n with
  | plain h => exact laid_lex E _ h hs n hn
  | @item ls g txt tok ts s ls' hg hi _ ih =>
    obtain ⟨k, rfl⟩ : ∃ k, n = k + 1 := ⟨n - 1, by simp at hn; omega⟩
    have hcr' := hs.right.right
    obtain ⟨⟨c, r, rfl, hS⟩, ht, hnc, s', htok, hs'⟩ := item_token E hi hcr'
    obtain ⟨m, _, h2⟩ := getToken_gap E ls hg (x := c :: r ++ s) (.inr ⟨c, r ++ s, rfl, hS⟩)
    rw [lex, if_neg hnc, htok] at h2
    simp only [Res.bind] at h2
    rw [lexAll, h2]
    simp only
    rw [if_neg (by simp [ht.1, ht.2])]
    have : lexAll E k ⟨ls, s'⟩ = .done ts ls' := by
      have := ih hcr' hl (n := k) (by simp at hn; omega)
      rcases hs' with rfl | rfl
      · exact this
      · rw [lexAll_skip, this]
    rw [this, LexOut.cons]
  | @list ls w0 c w t ts s ls' hw hc hall hend hf h1 h2 _ ih =>
    have ht : NoCr (commas t) := commas_noCr (hl _ (findList_mem hf))
    have hcr : NoCr (commas t ++ s) := by
      intro x hx
      rcases List.mem_append.1 hx with hx | hx
      · exact ht x hx
      · exact hs x (by simp [hx])
    rw [← ih hcr (setList_noCr hl _ ht) hn]
    cases n with
    | zero => omega
    | succ n =>
      have e1 : skipSpaces (w0 ++ '$' :: (c :: w ++ s)) = '$' :: (c :: w ++ s) := by
        rw [skipSpaces_append fun x hx => isSpace_of_white (hw x hx), skipSpaces_stop (by decide)]
      have e2 : getToken E ⟨ls, w0 ++ '$' :: (c :: w ++ s)⟩ = lexTok E (setList ls (c :: w) (commas t)) (commas t ++ s) := by
        rw [getToken]
        simp only [e1]
        rw [if_pos trivial, List.cons_append, read_word hc hall hend, listRef]
        simp only [hf]
      have e3 : getToken E ⟨setList ls (c :: w) (commas t), commas t ++ s⟩ =
          lexTok E (setList ls (c :: w) (commas t)) (commas t ++ s) := by
        rw [getToken_ready E _ rfl, lexTok_skip]
        cases hk : skipSpaces (commas t ++ s) with
        | nil => exact .inl rfl
        | cons a r =>
          have hn := next_eq hcr
          rw [hk] at hn
          refine .inr ⟨a, r, rfl, ?_, ?_, ?_⟩
          · exact skip_head (s := commas t ++ s) (by rw [hk]; rfl)
          · rintro rfl; exact h1 hn.symm
          · rintro rfl; exact h2 hn.symm
      rw [lexAll, lexAll, e2, e3]

/-- The content of a list, with commas for semicolons. -/
def shown (l : Name × Text) : Name × Text := (l.1, commas l.2)

theorem commas_idem (t : Text) : commas (commas t) = commas t := by
  rw [commas, commas, List.map_map]
  refine List.map_congr_left fun c _ => ?_
  simp only [Function.comp]
  by_cases h : c = ';'
  · subst h; decide
  · rw [if_neg h, if_neg h]

theorem setList_names (ls : List (Name × Text)) (w : Name) (t : Text) : (setList ls w t).map (·.1) = ls.map (·.1) := by
  rw [setList, List.map_map]
  refine List.map_congr_left fun l _ => ?_
  simp only [Function.comp]
  split <;> rfl

theorem pair_eq {α β : Type} {ls : List (α × β)} (hd : (ls.map (·.1)).Nodup) {a b : α × β} (ha : a ∈ ls) (hb : b ∈ ls)
    (h : a.1 = b.1) : a = b := by
  induction ls with
  | nil => cases ha
  | cons x r ih =>
    simp only [List.map_cons, List.nodup_cons] at hd
    rcases List.mem_cons.1 ha with rfl | ha' <;> rcases List.mem_cons.1 hb with rfl | hb'
    · rfl
    · exact absurd (List.mem_map.2 ⟨b, hb', h.symm⟩) hd.1
    · exact absurd (List.mem_map.2 ⟨a, ha', h⟩) hd.1
    · exact ih hd.2 ha' hb'

theorem setList_shown {ls : List (Name × Text)} (hd : (ls.map (·.1)).Nodup) {w : Name} {t : Text} (h : findList ls w = some t) :
    (setList ls w (commas t)).map shown = ls.map shown := by
  have hm := findList_mem h
  rw [setList, List.map_map]
  refine List.map_congr_left fun l hl => ?_
  simp only [Function.comp]
  split
  · rename_i he
    have : l = (toKey .lists w, t) := by
      exact pair_eq hd hl hm he
    rw [this, shown, shown, commas_idem]
  · rfl

theorem getToken_lists (E : LexEnv) {st st' : LexState} {t : Option RTok} (hd : (st.lists.map (·.1)).Nodup)
    (h : getToken E st = .ok (t, st')) : st'.lists.map shown = st.lists.map shown ∧ (st'.lists.map (·.1)).Nodup := by
  have hx : ∀ ls s, lexTok E ls s = .ok (t, st') → st'.lists = ls := by
    intro ls s h
    rw [lexTok] at h
    cases hk : token E (lex lecTable (s.length + 1) s) with
    | ok r =>
      rw [hk] at h
      simp only [Res.bind, Res.ok.injEq, Prod.mk.injEq] at h
      rw [← h.2]
    | err => rw [hk] at h; cases h
    | ub => rw [hk] at h; cases h
  rw [getToken] at h
  split at h
  · rw [hx _ _ h]; exact ⟨rfl, hd⟩
  · split at h
    · rw [listRef] at h
      split at h
      · split at h
        · rename_i w _ _ hf
          rw [hx _ _ h]
          exact ⟨setList_shown hd hf, by rw [setList_names]; exact hd⟩
        · cases h; exact ⟨rfl, hd⟩
      · cases h; exact ⟨rfl, hd⟩
    · split at h
      · rw [pattern] at h
        split at h
        · rw [hx _ _ h]; exact ⟨rfl, hd⟩
        · cases h; exact ⟨rfl, hd⟩
      · rw [hx _ _ h]; exact ⟨rfl, hd⟩

/-- Whatever the text, reading it does nothing to the lists but turn semicolons into commas. -/
theorem C47_lists_kept (E : LexEnv) {n : Nat} {ls ls' : List (Name × Text)} {s : Text} {ts : List RTok}
    (hd : (ls.map (·.1)).Nodup) (h : lexText E ls n s = .done ts ls') :
    ls'.map (fun l => (l.1, commas l.2)) = ls.map (fun l => (l.1, commas l.2)) := by
  show ls'.map shown = ls.map shown
  rw [lexText] at h
  generalize (File.mk [] 0 0 s).stream = x at h
  induction n generalizing ls x ts with
  | zero => cases h
  | succ n ih =>
    rw [lexAll] at h
    cases hg : getToken E ⟨ls, x⟩ with
    | err => rw [hg] at h; cases h
    | ub => rw [hg] at h; cases h
    | ok r =>
      obtain ⟨o, st'⟩ := r
      obtain ⟨h1, h2⟩ := getToken_lists E hd hg
      rw [hg] at h
      cases o with
      | none => cases h; exact h1
      | some t =>
        simp only at h
        split at h
        · cases h; exact h1
        · obtain ⟨ls1, x1⟩ := st'
          cases hr : lexAll E n ⟨ls1, x1⟩ with
          | done ts1 ls2 =>
            rw [hr, LexOut.cons] at h
            cases h
            rw [ih h2 x1 hr]
            exact h1
          | ub => rw [hr] at h; cases h
          | more => rw [hr] at h; cases h

/-! ## What is no token -/

/-- Characters that begin no token: neither space nor letter nor digit nor one of the listed symbols. -/
def Foreign (c : Char) : Prop :=
  Special c ∧ c ∉ simple.map (·.1) ∧ c ∉ longer.map (·.1) ∧ c ≠ ';'

instance (c : Char) : Decidable (Foreign c) := inferInstanceAs (Decidable (_ ∧ _))

theorem table_foreign : ∀ e ∈ lecTable, ∀ c, e.1 = [c] → e.2 = .bad ∨ ¬ Foreign c := by
  have : ∀ e ∈ lecTable, e.2 = .bad ∨ (e.1.length = 1 → ∀ c ∈ e.1, ¬ Foreign c) := by decide +kernel
  intro e he c hc
  rcases this e he with h | h
  · exact .inl h
  · exact .inr (h (by rw [hc]; rfl) c (by rw [hc]; simp))

theorem colon_key : operKeys lecTable ':' = some (.bad, []) := by decide +kernel

theorem foreign_oper {c : Char} (h : Foreign c) (s : Text) :
    findOper lecTable c s = (none, s) ∨ findOper lecTable c s = (some .bad, s) := by
  by_cases hc : c = ':'
  · subst hc
    right
    rw [findOper, colon_key]
  · left
    have : operKeys lecTable c = none := by
      rw [operKeys]
      cases hd : lecTable.dropWhile (fun e => decide (e.1 ≠ [c])) with
      | nil => rfl
      | cons e es =>
        exfalso
        have hm : e ∈ lecTable := (List.dropWhile_sublist (p := fun e => decide (e.1 ≠ [c]))).subset (by rw [hd]; simp)
        have he : e.1 = [c] := by
          have := List.head?_dropWhile_not (p := fun e : Text × RTok => decide (e.1 ≠ [c])) (l := lecTable)
          rw [hd] at this
          simpa using this
        rcases table_foreign e hm c he with hb | hb
        · have : ∀ e ∈ lecTable, e.2 = .bad → e.1 = [':'] := by decide +kernel
          rw [this e hm hb] at he
          simp at he
          exact hc he.symm
        · exact hb h
    rw [findOper, this]

/-- A character that begins no token is an error, whatever is behind it. -/
theorem C47_foreign (E : LexEnv) (ls : List (Name × Text)) {g : Text} (hg : Gap g) {c : Char} (hc : Foreign c) (s : Text)
    (n : Nat) : lexAll E (n + 1) ⟨ls, g ++ c :: s⟩ = .done [.bad] ls := by
  obtain ⟨m, _, h2⟩ := getToken_gap E ls hg (x := c :: s) (.inr (hc.1.starts s))
  have hr := read_special hc.1 s
  have hl : token E (lex lecTable (m + 1) (c :: s)) = .ok (some .bad, s) := by
    rw [lex, if_neg (by rw [hr]; simp), hr, classify]
    rcases foreign_oper hc s with h | h <;> simp only [h] <;> rfl
  rw [hl] at h2
  simp only [Res.bind] at h2
  rw [lexAll, h2]
  rfl

/-- A period that does not exist (step 0 or above the number of periods of a year) is an error. -/
theorem C47_no_period (E : LexEnv) (ls : List (Name × Text)) {g y st s : Text} {c : Char} (hg : Gap g) (hy : Digits y)
    (hne : y ≠ []) (hyl : y.length ≤ 9) (hc : c ∈ periodLetters) (hst : Digits st) (hst0 : st ≠ []) (hstl : st.length ≤ 9)
    (hbad : dec st = 0 ∨ (perYear c).2 < dec st) (hend : NumEnd s) (n : Nat) :
    lexAll E (n + 1) ⟨ls, g ++ (y ++ c :: (st ++ s))⟩ = .done [.bad] ls := by
  obtain ⟨p1, p2, p3, p4⟩ := per_some c hc
  have hr : Yy.read (y ++ c :: (st ++ s)) = (.long y, c :: (st ++ s)) := by
    refine read_long hy hne hyl ?_
    intro x hx
    cases hx
    exact ⟨p3, p4⟩
  have hr2 := read_long hst hst0 hstl hend
  have hS : Ready (y ++ c :: (st ++ s)) := by
    cases y with
    | nil => exact absurd rfl hne
    | cons a r => exact .inr (nameCh_starts (digit_nameCh (hy a (by simp))) _)
  obtain ⟨m, _, h2⟩ := getToken_gap E ls hg hS
  have hl : token E (lex lecTable (m + 1) (y ++ c :: (st ++ s))) = .ok (some .bad, s) := by
    rw [lex, if_neg (by rw [hr]; simp), hr, classify]
    simp only [token, getInt, p1, hr2, getStep]
    rw [if_neg (by rw [natOf_eq]; omega)]
  rw [hl] at h2
  simp only [Res.bind] at h2
  rw [lexAll, h2]
  rfl

/-- A pattern between quotes is read as the names it stands for, separated by commas: the text is read as if they were
    written instead of the pattern. -/
theorem C47_patterns (E : LexEnv) (ls : List (Name × Text)) {w0 p t s : Text} (hw : ∀ x ∈ w0, White x)
    (hp : ∀ x ∈ p, x ≠ '\'') (ht : E.wild p = some t) (hs : NoCr (commas t ++ s)) (h1 : next (commas t ++ s) ≠ some '$')
    (h2 : next (commas t ++ s) ≠ some '\'') (n : Nat) :
    lexAll E n ⟨ls, w0 ++ '\'' :: (p ++ '\'' :: s)⟩ = lexAll E n ⟨ls, commas t ++ s⟩ := by
  cases n with
  | zero => rfl
  | succ n =>
    have e1 : skipSpaces (w0 ++ '\'' :: (p ++ '\'' :: s)) = '\'' :: (p ++ '\'' :: s) := by
      rw [skipSpaces_append fun x hx => isSpace_of_white (hw x hx), skipSpaces_stop (by decide)]
    have t1 : (p ++ '\'' :: s).takeWhile (fun c => decide (c ≠ '\'')) = p := by
      rw [List.takeWhile_append_of_pos (by simpa using hp)]
      simp
    have t2 : (p ++ '\'' :: s).dropWhile (fun c => decide (c ≠ '\'')) = '\'' :: s := by
      rw [List.dropWhile_append_of_pos (by simpa using hp)]
      simp
    have e2 : getToken E ⟨ls, w0 ++ '\'' :: (p ++ '\'' :: s)⟩ = lexTok E ls (commas t ++ s) := by
      rw [getToken]
      simp only [e1]
      rw [if_neg (by decide), if_pos trivial, pattern, t1, t2]
      simp only [ht, List.drop_succ_cons, List.drop_zero]
    have e3 : getToken E ⟨ls, commas t ++ s⟩ = lexTok E ls (commas t ++ s) := by
      rw [getToken_ready E _ rfl, lexTok_skip]
      cases hk : skipSpaces (commas t ++ s) with
      | nil => exact .inl rfl
      | cons a r =>
        have hn := next_eq hs
        rw [hk] at hn
        refine .inr ⟨a, r, rfl, ?_, ?_, ?_⟩
        · exact skip_head (s := commas t ++ s) (by rw [hk]; rfl)
        · rintro rfl; exact h1 hn.symm
        · rintro rfl; exact h2 hn.symm
    rw [lexAll, lexAll, e2, e3]

/-! ## Examples -/

/-- `max('A*')` with the variables `A1` and `A2`. -/
example : lexAll ⟨id, fun p => if p = ['A', '*'] then some ['A', '1', ';', 'A', '2'] else none⟩ 7 ⟨[], [' ', '\'', 'A', '*', '\'', ')']⟩ =
    lexAll ⟨id, fun p => if p = ['A', '*'] then some ['A', '1', ';', 'A', '2'] else none⟩ 7 ⟨[], ['A', '1', ',', 'A', '2', ')']⟩ :=
  C47_patterns _ [] (w0 := [' ']) (p := ['A', '*']) (t := ['A', '1', ';', 'A', '2']) (s := [')']) (by decide) (by decide)
    (by decide) (by unfold NoCr; decide) (by decide) (by decide) 7

/-- `2000Q5` and `2000Y0`. -/
example (E : LexEnv) : lexAll E 1 ⟨[], ['2', '0', '0', '0', 'Q', '5', '+', '1']⟩ = .done [.bad] [] :=
  C47_no_period E [] (g := []) (y := ['2', '0', '0', '0']) (c := 'Q') (st := ['5']) (s := ['+', '1']) .nil (by decide) (by decide)
    (by decide) (by decide) (by decide) (by decide) (by decide) (by decide) (by decide) 0
example (E : LexEnv) : lexAll E 1 ⟨[], ['2', '0', '0', '0', 'Y', '0']⟩ = .done [.bad] [] :=
  C47_no_period E [] (g := []) (y := ['2', '0', '0', '0']) (c := 'Y') (st := ['0']) (s := []) .nil (by decide) (by decide)
    (by decide) (by decide) (by decide) (by decide) (by decide) (by decide) (by decide) 0

theorem laidEx : Laid id [.fun (.fn .ln), .openp, .var ['G', 'D', 'P'], .openb, .op .minus, .cst (.long 1), .closeb, .closep,
    .op .times, .cst (.real 3 2), .op .exp, .coef ['b', '_', '1']]
    [' ', 'l', 'n', '(', 'G', 'D', 'P', '[', '-', '1', ']', ')', '\n', '*', ' ', '1', '.', '5', '0', '/', '*', ' ',
      'p', 'o', 'w', 'e', 'r', ' ', '*', '/', '*', ' ', '*', 'b', '_', '1', ' ', '/', '/', ' ', 't', 'h', 'e', ' ', 'e', 'n', 'd'] :=
  .cons (g := [' ']) (txt := ['l', 'n']) (.white (by decide) .nil) (.keyword (w := "ln") (by decide) (by decide)) <|
  .cons (g := []) (txt := ['(']) .nil (.longer (c := '(') (ext := [')']) (by decide) (by decide)) <|
  .cons (g := []) (txt := ['G', 'D', 'P']) .nil (.var (by decide) (by decide) (by decide) (by decide) (by decide)) <|
  .cons (g := []) (txt := ['[']) .nil (.simple (c := '[') (by decide)) <|
  .cons (g := []) (txt := ['-']) .nil (.simple (c := '-') (by decide)) <|
  .cons (g := []) (txt := ['1']) .nil (.long (d := ['1']) (by decide) (by decide) (by decide) (by decide) (by decide)) <|
  .cons (g := []) (txt := [']']) .nil (.simple (c := ']') (by decide)) <|
  .cons (g := []) (txt := [')']) .nil (.simple (c := ')') (by decide)) <|
  .cons (g := ['\n']) (txt := ['*']) (.white (by decide) .nil)
    (.longer (c := '*') (ext := ['*']) (by decide) (by decide)) <|
  .cons (g := [' ']) (txt := ['1', '.', '5', '0']) (.white (by decide) .nil) (by
    have h : Decimal ['1', '.', '5', '0'] (number ['1'] ['5', '0'] 0) :=
      .point (i := ['1']) (f := ['5', '0']) (x := []) (by decide) (by decide) (by decide) .none
    have := Item.real (rnd := id) (rest := ['/', '*', ' ',
      'p', 'o', 'w', 'e', 'r', ' ', '*', '/', '*', ' ', '*', 'b', '_', '1', ' ', '/', '/', ' ', 't', 'h', 'e', ' ', 'e', 'n', 'd']) h (by decide) (by decide)
    have e : (number ['1'] ['5', '0'] 0) = (3 : Rat) / 2 := by decide +kernel
    rw [e, show (id (3 / 2 : Rat)).num = 3 by decide +kernel, show (id (3 / 2 : Rat)).den = 2 by decide +kernel] at this
    exact this) <|
  .cons (g := ['/', '*', ' ', 'p', 'o', 'w', 'e', 'r', ' ', '*', '/']) (txt := ['*', ' ', '*']) 
    (.block (b := [' ', 'p', 'o', 'w', 'e', 'r', ' ']) (by decide) .nil)
    (.pair (c := '*') (w := [' ']) (d := '*') (by decide) (by decide)) <|
  .cons (g := []) (txt := ['b', '_', '1']) .nil (.coef (by decide) (by decide) (by decide) (by decide) (by decide)) <|
  .last (g := [' ']) (b := [' ', 't', 'h', 'e', ' ', 'e', 'n', 'd']) (.white (by decide) .nil) (by decide)

example : lexText ⟨id, fun _ => none⟩ [] 13 " ln(GDP[-1])\r\n* 1.50/* power */* *b_1 // the end".toList =
    .done [.fun (.fn .ln), .openp, .var "GDP".toList, .openb, .op .minus, .cst (.long 1), .closeb, .closep,
      .op .times, .cst (.real 3 2), .op .exp, .coef "b_1".toList] [] :=
  C47_tokens ⟨id, fun _ => none⟩ [] laidEx (by decide) (by decide)

/-- `$L` with the list `L` = `A;b`. -/
theorem laidLEx : LaidL id [(['L'], ['A', ';', 'b'])]
    [.fun (.fn .max), .openp, .var ['A'], .comma, .coef ['b'], .closep] ['m', 'a', 'x', '(', ' ', '$', 'L', ')']
    [(['L'], ['A', ',', 'b'])] :=
  .item (g := []) (txt := ['m', 'a', 'x']) .nil (.keyword (w := "max") (by decide) (by decide)) <|
  .item (g := []) (txt := ['(']) .nil (.longer (c := '(') (ext := [')']) (by decide) (by decide)) <|
  .list (w0 := [' ']) (c := 'L') (w := []) (t := ['A', ';', 'b']) (s := [')']) (by decide) (by decide) (by decide) (by decide)
    (by decide) (by decide) (by decide) <|
  .plain <|
  .cons (g := []) (txt := ['A']) .nil (.var (by decide) (by decide) (by decide) (by decide) (by decide)) <|
  .cons (g := []) (txt := [',']) .nil (.simple (c := ',') (by decide)) <|
  .cons (g := []) (txt := ['b']) .nil (.coef (by decide) (by decide) (by decide) (by decide) (by decide)) <|
  .cons (g := []) (txt := [')']) .nil (.simple (c := ')') (by decide)) <|
  .nil .nil

example : lexAll ⟨id, fun _ => none⟩ 7 ⟨[(['L'], ['A', ';', 'b'])], ['m', 'a', 'x', '(', ' ', '$', 'L', ')']⟩ =
    .done [.fun (.fn .max), .openp, .var ['A'], .comma, .coef ['b'], .closep] [(['L'], ['A', ',', 'b'])] :=
  C47_lists ⟨id, fun _ => none⟩ laidLEx (by simp only [NoCr]; decide) (by simp only [NoCr]; decide) (by decide)

/-- The value of `A + 2*3` read from a text. -/
example : ∃ n ts', lexText ⟨id, fun _ => none⟩ [] n ['A', '+', ' ', '2', '*', '3'] = .done ts' [] ∧
    ts' = [.var ['A'], .op .plus, .cst (.long 2), .op .times, .cst (.long 3)] :=
  ⟨6, _, C47_tokens ⟨id, fun _ => none⟩ []
    (.cons (g := []) (txt := ['A']) .nil (.var (by decide) (by decide) (by decide) (by decide) (by decide)) <|
     .cons (g := []) (txt := ['+']) .nil (.simple (c := '+') (by decide)) <|
     .cons (g := [' ']) (txt := ['2']) (.white (by decide) .nil)
      (.long (d := ['2']) (by decide) (by decide) (by decide) (by decide) (by decide)) <|
     .cons (g := []) (txt := ['*']) .nil (.longer (c := '*') (ext := ['*']) (by decide) (by decide)) <|
     .cons (g := []) (txt := ['3']) .nil (.long (d := ['3']) (by decide) (by decide) (by decide) (by decide) (by decide)) <|
     .nil .nil) (by decide) (by decide), rfl⟩

example (E : LexEnv) (s : Text) : lexAll E 1 ⟨[], ' ' :: '@' :: s⟩ = .done [.bad] [] :=
  C47_foreign E [] (g := [' ']) (.white (by decide) .nil) (c := '@') (by decide) s 0

/-! ## Where the code does not read what is written -/

/-- Reading `max($L)` changes the list `L`: `A;B` has become `A,B`. -/
theorem C47_list_changed_counterexample (E : LexEnv) :
    lexText E [(['L'], ['A', ';', 'B'])] 7 ['m', 'a', 'x', '(', '$', 'L', ')'] =
      .done [.fun (.fn .max), .openp, .var ['A'], .comma, .var ['B'], .closep] [(['L'], ['A', ',', 'B'])] := by
  rw [lexText, show (File.mk [] 0 0 ['m', 'a', 'x', '(', '$', 'L', ')']).stream = ['m', 'a', 'x', '(', '$', 'L', ')'] by decide]
  refine C47_lists E ?_ (by simp only [NoCr]; decide) (by simp only [NoCr]; decide) (by decide)
  exact
    .item (g := []) (txt := ['m', 'a', 'x']) .nil (.keyword (w := "max") (by decide) (by decide)) <|
    .item (g := []) (txt := ['(']) .nil (.longer (c := '(') (ext := [')']) (by decide) (by decide)) <|
    .list (w0 := []) (c := 'L') (w := []) (t := ['A', ';', 'B']) (s := [')']) (by decide) (by decide) (by decide) (by decide)
      (by decide) (by decide) (by decide) <|
    .plain <|
    .cons (g := []) (txt := ['A']) .nil (.var (by decide) (by decide) (by decide) (by decide) (by decide)) <|
    .cons (g := []) (txt := [',']) .nil (.simple (c := ',') (by decide)) <|
    .cons (g := []) (txt := ['B']) .nil (.var (by decide) (by decide) (by decide) (by decide) (by decide)) <|
    .cons (g := []) (txt := [')']) .nil (.simple (c := ')') (by decide)) <|
    .nil .nil

/-- Non-negative numbers in single precision: 24 binary digits. -/
def Single (q : Rat) : Prop := ∃ m k : Nat, m < 2 ^ 24 ∧ (q = m * 2 ^ k ∨ q = m / 2 ^ k)

/-- A decimal number that has no single precision value is not read as what it says, however it is rounded to single
    precision. -/
theorem C47_single_partial (E : LexEnv) (hE : ∀ q, 0 ≤ q → Single (E.rnd q)) {d : Text} {q : Rat} (hd : Decimal d q)
    (h0 : 0 ≤ q) (hl : d.length < 255) (hq : ¬ Single q) :
    ∃ (a : Int) (b : Nat), lexText E [] 2 d = .done [.cst (.real a b)] [] ∧ (a : Rat) / b ≠ q := by
  refine ⟨(E.rnd q).num, (E.rnd q).den, ?_, ?_⟩
  · have hf : d.filter kept = d := by
      refine List.filter_eq_self.2 fun c hc => ?_
      obtain ⟨_, _, h1, h2⟩ := decimal_plain hd c hc
      simp only [kept, decide_eq_true_eq]
      exact ⟨h1, h2⟩
    refine C47_tokens E [] ?_ (fun c hc => (decimal_plain hd c hc).1) (by simp)
    rw [hf]
    have := Laid.cons (rnd := E.rnd) (g := []) (s := []) .nil (Item.real hd hl (fun _ h => by cases h)) (.nil .nil)
    simpa using this
  · intro he
    rw [Rat.num_div_den] at he
    exact hq (he ▸ hE q h0)

theorem tenth_single : ¬ Single (1 / 10) := by
  rintro ⟨m, k, hm, h | h⟩
  · have h2 : (1 : Rat) = ((10 * (m * 2 ^ k) : Nat) : Rat) := by
      push_cast
      rw [← h]; norm_num
    have h3 : 1 = 10 * (m * 2 ^ k) := by exact_mod_cast h2
    omega
  · have h2 : (((2 ^ k : Nat) : Rat)) = ((10 * m : Nat) : Rat) := by
      push_cast
      have hk : (2 : Rat) ^ k ≠ 0 := by positivity
      field_simp at h
      exact h
    have h3 : 2 ^ k = 10 * m := by exact_mod_cast h2
    have h5 : 5 ∣ 2 ^ k := ⟨2 * m, by omega⟩
    exact absurd (Nat.Prime.dvd_of_dvd_pow (by decide) h5) (by norm_num)

theorem big_single : ¬ Single 16777217 := by
  rintro ⟨m, k, hm, h | h⟩
  · have h3 : 16777217 = m * 2 ^ k := by exact_mod_cast h
    cases k with
    | zero => omega
    | succ k => rw [Nat.pow_succ, ← Nat.mul_assoc] at h3; omega
  · have hk : (2 : Rat) ^ k ≠ 0 := by positivity
    have h2 : (16777217 : Rat) * 2 ^ k = m := by field_simp at h; exact h
    have h3 : 16777217 * 2 ^ k = m := by exact_mod_cast h2
    have := Nat.one_le_two_pow (n := k)
    omega

/-- `0.1` and `16777217.` are such numbers. -/
example (E : LexEnv) (hE : ∀ q, 0 ≤ q → Single (E.rnd q)) :
    ∃ (a : Int) (b : Nat), lexText E [] 2 ['0', '.', '1'] = .done [.cst (.real a b)] [] ∧ (a : Rat) / b ≠ 1 / 10 := by
  have h : Decimal ['0', '.', '1'] (number ['0'] ['1'] 0) :=
    .point (i := ['0']) (f := ['1']) (x := []) (by decide) (by decide) (by decide) .none
  rw [show number ['0'] ['1'] 0 = (1 : Rat) / 10 by decide +kernel] at h
  exact C47_single_partial E hE h (by norm_num) (by decide) tenth_single

example (E : LexEnv) (hE : ∀ q, 0 ≤ q → Single (E.rnd q)) :
    ∃ (a : Int) (b : Nat), lexText E [] 2 ['1', '6', '7', '7', '7', '2', '1', '7', '.'] = .done [.cst (.real a b)] [] ∧
      (a : Rat) / b ≠ 16777217 := by
  have h : Decimal ['1', '6', '7', '7', '7', '2', '1', '7', '.'] (number ['1', '6', '7', '7', '7', '2', '1', '7'] [] 0) :=
    .point (i := ['1', '6', '7', '7', '7', '2', '1', '7']) (f := []) (x := []) (by decide) (by decide) (by decide) .none
  rw [show number ['1', '6', '7', '7', '7', '2', '1', '7'] [] 0 = (16777217 : Rat) by decide +kernel] at h
  exact C47_single_partial E hE h (by norm_num) (by decide) big_single

/-- What a word that is no key word is read as, whatever its length. -/
theorem word_read (E : LexEnv) (ls : List (Name × Text)) {c : Char} {w : Text} (hc : ¬ Digit c) (hw : ∀ x ∈ c :: w, NameCh x)
    (hk : ∀ k ∈ keywords, k.1.toList ≠ c :: w) {s : Text} (hs : NameEnd s) :
    getToken E ⟨ls, c :: (w ++ s)⟩ = .ok (some (wordTok (c :: w)), ⟨ls, s⟩) := by
  have hS := nameCh_starts (hw c (by simp)) (w ++ s)
  rw [getToken_ready E ls (s := c :: (w ++ s)) (x := c :: (w ++ s)) ?_ (.inr hS), lexTok]
  · have hr := read_word hc hw hs
    rw [lex, if_neg (by rw [hr]; simp), hr, classify]
    simp only [findWord_none hw hk, token]
    rfl
  · exact skipSpaces_stop (nameCh_not_space (hw c (by simp))) _

/-- Any name of more than 20 characters is read as the variable made of its first 20 characters. -/
theorem C47_long_name_counterexample (E : LexEnv) (ls : List (Name × Text)) {c : Char} {w : Text} (hc : ¬ Digit c)
    (hw : ∀ x ∈ c :: w, NameCh x) (hl : 20 ≤ w.length) (hk : ∀ k ∈ keywords, k.1.toList ≠ c :: w) {s : Text}
    (hs : NameEnd s) : getToken E ⟨ls, c :: (w ++ s)⟩ = .ok (some (.var (c :: w.take 19)), ⟨ls, s⟩) := by
  rw [word_read E ls hc hw hk hs, wordTok, if_neg]
  · rfl
  · intro h
    simp only [checkName, Bool.and_eq_true, decide_eq_true_eq, List.length_cons] at h
    omega

example (E : LexEnv) : getToken E ⟨[], "gross_domestic_product_1".toList ++ "+1".toList⟩ =
    .ok (some (.var "gross_domestic_produ".toList), ⟨[], "+1".toList⟩) :=
  C47_long_name_counterexample E [] (c := 'g') (w := "ross_domestic_product_1".toList) (by decide) (by decide) (by decide)
    (by decide +kernel) (by decide)

/-- `_1` may be the name of a variable; a formula takes it for a scalar. -/
theorem C47_names_counterexample (E : LexEnv) (ls : List (Name × Text)) :
    checkName .variables ['_', '1'] = true ∧
      getToken E ⟨ls, ['_', '1']⟩ = .ok (some (.coef ['_', '1']), ⟨ls, []⟩) :=
  ⟨by decide, word_read E ls (c := '_') (w := ['1']) (by decide) (by decide) (by decide +kernel) (s := []) (by decide)⟩

/-- `A#` may be the name of a variable; a formula takes `#` for an error. -/
theorem C47_hash_counterexample (E : LexEnv) (ls : List (Name × Text)) :
    checkName .variables ['A', '#'] = true ∧ lexText E ls 3 ['A', '#'] = .done [.var ['A'], .bad] ls := by
  refine ⟨by decide, ?_⟩
  rw [lexText, show (File.mk [] 0 0 ['A', '#']).stream = ['A', '#'] by decide, lexAll,
    show getToken E ⟨ls, ['A', '#']⟩ = .ok (some (.var ['A']), ⟨ls, ['#']⟩) from
      word_read E ls (c := 'A') (w := []) (by decide) (by decide) (by decide +kernel) (s := ['#']) (by decide)]
  rfl

/-- Every key word may be the name of a scalar; a formula takes it for the key word. -/
theorem C47_keyword_counterexample (E : LexEnv) (ls : List (Name × Text)) {k : String × RTok} (hk : k ∈ keywords) :
    checkName .scalars k.1.toList = true ∧
      lexText E ls 2 k.1.toList = .done [k.2] ls ∧ ∀ n, k.2 ≠ .coef n := by
  have h1 : ∀ k ∈ keywords, checkName .scalars k.1.toList = true ∧ k.1.toList.filter kept = k.1.toList ∧
      (∀ c ∈ k.1.toList, c.toNat ≠ 0) := by decide +kernel
  obtain ⟨a, b, c⟩ := h1 k hk
  refine ⟨a, ?_, ?_⟩
  · refine C47_tokens E ls ?_ c (by simp)
    rw [b]
    have := Laid.cons (rnd := E.rnd) (g := []) (s := []) .nil (Item.keyword (w := k.1) (tok := k.2) hk (by decide)) (.nil .nil)
    simpa using this
  · intro n hn
    have h2 : ∀ k ∈ keywords, ∀ n, k.2 ≠ .coef n := by
      intro k hk
      simp only [keywords, List.mem_cons, List.not_mem_nil, or_false] at hk
      repeat' (rcases hk with rfl | hk <;> first | (intro n h; cases h) | skip)
    exact h2 k hk n hn

example : ("e", RTok.val .e) ∈ keywords := by decide

/-- A comment in front of `$LIST` is an error. -/
theorem C47_comment_counterexample (E : LexEnv) :
    lexText E [(['L'], ['B'])] 9 ['A', '+', '/', '*', 'c', '*', '/', '$', 'L'] =
      .done [.var ['A'], .op .plus, .bad] [(['L'], ['B'])] := by
  obtain ⟨rnd, wild⟩ := E
  rfl

theorem endless_steps (E : LexEnv) :
    getToken E ⟨[(['A'], ['X', '+', '$', 'A'])], ['$', 'A']⟩ =
      .ok (some (.var ['X']), ⟨[(['A'], ['X', '+', '$', 'A'])], ['+', '$', 'A']⟩) ∧
    getToken E ⟨[(['A'], ['X', '+', '$', 'A'])], ['+', '$', 'A']⟩ =
      .ok (some (.op .plus), ⟨[(['A'], ['X', '+', '$', 'A'])], ['$', 'A']⟩) := by
  obtain ⟨rnd, wild⟩ := E
  exact ⟨rfl, rfl⟩

/-- A list that refers to itself: the tokens never end. -/
theorem C47_endless_counterexample (E : LexEnv) (n : Nat) :
    lexText E [(['A'], ['X', '+', '$', 'A'])] n ['$', 'A'] = .more := by
  rw [lexText, show (File.mk [] 0 0 ['$', 'A']).stream = ['$', 'A'] by decide]
  induction n using Nat.strongRecOn with
  | ind n ih =>
    match n, ih with
    | 0, _ => rfl
    | 1, _ => rw [lexAll, (endless_steps E).1]; rfl
    | n + 2, ih =>
      rw [lexAll, (endless_steps E).1]
      simp only
      rw [if_neg (by simp), lexAll, (endless_steps E).2]
      simp only
      rw [if_neg (by simp), ih n (by omega)]
      rfl

theorem decimal_starts {d : Text} {q : Rat} (h : Decimal d q) : Starts d := by
  have hp : ∀ r, Starts ('.' :: r) := fun r => ⟨_, _, rfl, by decide, by decide, by decide⟩
  cases h with
  | @whole i _ _ hi hne _ _ =>
    cases i with
    | nil => exact absurd rfl hne
    | cons c r => exact nameCh_starts (digit_nameCh (hi c (by simp))) _
  | @point i _ _ _ hi _ _ _ =>
    cases i with
    | nil => exact hp _
    | cons c r => exact nameCh_starts (digit_nameCh (hi c (by simp))) _

/-- A decimal number of 255 characters or more overflows the array of `SCR_atof`. -/
theorem C47_long_number_counterexample (E : LexEnv) (ls : List (Name × Text)) {d : Text} {q : Rat} (hd : Decimal d q)
    (hl : 255 ≤ d.length) (n : Nat) : lexAll E (n + 1) ⟨ls, d⟩ = .ub := by
  obtain ⟨t, hlen, _, hr⟩ := read_decimal hd (s := []) (fun _ h => by cases h)
  rw [List.append_nil] at hr
  obtain ⟨c, r, rfl, hc, h2, h3⟩ := decimal_starts hd
  rw [lexAll, getToken_ready E ls (skipSpaces_stop hc r) (.inr ⟨c, r, rfl, hc, h2, h3⟩), lexTok, lex,
    if_neg (by rw [hr]; simp), hr, classify]
  simp only [token]
  rw [if_neg (by omega)]
  rfl

example (E : LexEnv) : lexAll E 1 ⟨[], '.' :: List.replicate 254 '3'⟩ = .ub := by
  have h : Decimal ([] ++ '.' :: (List.replicate 254 '3' ++ [])) (number [] (List.replicate 254 '3') 0) :=
    .point (i := []) (by decide) (fun c hc => (List.eq_of_mem_replicate hc) ▸ (by decide)) (.inr (List.cons_ne_nil _ _)) .none
  rw [List.nil_append, List.append_nil] at h
  exact C47_long_number_counterexample E [] h (by rw [List.length_cons, List.length_replicate]) 0

end Lec
end Iode
