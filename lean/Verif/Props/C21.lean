import Verif.Lemmas.Lists

/-!
# C21 — storing a list of names in chunks and expanding it gives the names back

`Expands` says what expanding means, without tables of pointers: every term `$NAME` naming a list is replaced by
the expansion of the contents of that list, the other terms are kept.

* `C21_expand_sound`: whenever `KL_expand` ends normally, its result is that expansion.
* `C21_expand_unique`: there is at most one expansion.
* `C21_expand_total`: the conditions under which it does end normally (`Tame`).
* `C21_chunks_partial`, `C21_single`: the round trip through `KL_lst`.
* the counterexamples: what happens outside these conditions.
-/
namespace Iode.Lists

/-- What expanding a sequence of terms means. -/
inductive Expands (st : Store) : List Word → List Word → Prop where
  | nil : Expands st [] []
  | keep {w rs out} : listOf st w = none → Expands st rs out → Expands st (w :: rs) (w :: out)
  | list {w content rs a b} : listOf st w = some content → Expands st (words content) a → Expands st rs b →
      Expands st (w :: rs) (a ++ b)

/-- An expansion in which no list is empty and every list is replaced by one term or by more terms than there
    are terms after it. -/
inductive Tame (st : Store) : List Word → List Word → Prop where
  | nil : Tame st [] []
  | keep {w rs out} : listOf st w = none → Tame st rs out → Tame st (w :: rs) (w :: out)
  | list {w content rs a b} : listOf st w = some content → a ≠ [] → (a.length = 1 ∨ rs.length < a.length) →
      Tame st (words content) a → Tame st rs b → Tame st (w :: rs) (a ++ b)

theorem Tame.expands {st : Store} {ws out : List Word} (h : Tame st ws out) : Expands st ws out := by
  induction h with
  | nil => exact .nil
  | keep h _ ih => exact .keep h ih
  | list h _ _ _ _ iha ihb => exact .list h iha ihb

theorem Expands.plain {st : Store} {ws out : List Word} (h : Expands st ws out) :
    ∀ w ∈ out, listOf st w = none := by
  induction h with
  | nil => simp
  | keep h _ ih =>
    intro w hw
    rcases List.mem_cons.mp hw with hw | hw
    · rw [hw]; exact h
    · exact ih w hw
  | list h _ _ iha ihb =>
    intro w hw
    rcases List.mem_append.mp hw with hw | hw
    · exact iha w hw
    · exact ihb w hw

/-- C21: a sequence of terms has at most one expansion. -/
theorem C21_expand_unique {st : Store} {ws a b : List Word} (ha : Expands st ws a) (hb : Expands st ws b) :
    a = b := by
  induction ha generalizing b with
  | nil => cases hb; rfl
  | keep h _ ih =>
    cases hb with
    | keep h' hb => rw [ih hb]
    | list h' _ _ => rw [h] at h'; cases h'
  | list h _ _ iha ihb =>
    cases hb with
    | keep h' _ => rw [h] at h'; cases h'
    | list h' h1 h2 =>
      rw [h] at h'
      cases h'
      rw [iha h1, ihb h2]

theorem Expands.append_plain {st : Store} {t rs out : List Word} (ht : ∀ w ∈ t, listOf st w = none)
    (h : Expands st (t ++ rs) out) : ∃ b, out = t ++ b ∧ Expands st rs b := by
  induction t generalizing out with
  | nil => exact ⟨out, rfl, h⟩
  | cons w t ih =>
    cases h with
    | keep _ h =>
      obtain ⟨b, hb, hr⟩ := ih (fun v hv => ht v (List.mem_cons_of_mem _ hv)) h
      exact ⟨b, by rw [hb]; rfl, hr⟩
    | list h' _ _ => rw [ht w (by simp)] at h'; cases h'

theorem table_get {pre : List Word} {w : Word} {rs : List Word} :
    (table (pre ++ w :: rs))[pre.length]? = some (.str w) := by
  simp [table]

theorem table_get_end {pre : List Word} : (table pre)[pre.length]? = some .null := by
  simp [table]

theorem table_set {pre : List Word} {w : Word} {rs : List Word} :
    (table (pre ++ w :: rs)).set pre.length .freed = pre.map .str ++ .freed :: (rs.map .str ++ [.null]) := by
  simp [table]

theorem Res.bind_eq_ok {α β : Type} {x : Res α} {f : α → Res β} {b : β} (h : x.bind f = .ok b) :
    ∃ a, x = .ok a ∧ f a = .ok b := by
  cases x with
  | ok a => exact ⟨a, rfl, h⟩
  | err => cases h
  | ub => cases h

/-- After an empty list has been inserted, the loop always runs off the table. -/
theorem scan_after_empty {st : Store} {n : Nat} {pre rs : List Word} {arr res : List Cell}
    (hi : insertTbl (pre.map .str ++ .freed :: (rs.map .str ++ [.null])) (pre.length + rs.length + 1) pre.length
      (table []) 0 = .ok arr)
    (h : exec st n (.scan arr (pre.length + rs.length + 1 + 0 - 1) (pre.length + 1)) = .ok res) : False := by
  match rs with
  | [] =>
    have harr : arr = pre.map .str ++ [.freed] := by
      simp [insertTbl, resize, blit] at hi
      exact hi.symm.trans (by simp [List.take_append, List.drop_append, List.take_of_length_le])
    cases n with
    | zero => cases h
    | succ n =>
      rw [exec, harr, List.getElem?_eq_none (by simp)] at h
      cases h
  | [r] =>
    have harr : arr = pre.map .str ++ [.str r, .str r] := by
      have e : pre.length + [r].length + 1 - pre.length - 1 = 1 := by simp; omega
      rw [insertTbl, if_neg (by omega), if_neg (by omega), if_neg (by omega), e] at hi
      injection hi with hi
      rw [← hi]
      simp [resize, blit, List.take_append, List.drop_append, List.take_of_length_le, List.drop_of_length_le]
    cases n with
    | zero => cases h
    | succ n =>
      have hg : arr[pre.length + 1]? = some (.str r) := by
        rw [harr, List.getElem?_append_right (by simp)]; simp
      rw [exec, hg] at h
      simp only at h
      split at h
      · cases n with
        | zero => cases h
        | succ n =>
          rw [exec, harr, List.getElem?_eq_none (by simp)] at h
          cases h
      · obtain ⟨t2, -, h⟩ := Res.bind_eq_ok h
        obtain ⟨n2, -, h⟩ := Res.bind_eq_ok h
        obtain ⟨a2, h2, -⟩ := Res.bind_eq_ok h
        rw [insertTbl, if_pos (by simp)] at h2
        cases h2
  | r1 :: r2 :: rs =>
    rw [insertTbl, if_neg (by omega), if_pos (by simp; omega)] at hi
    cases hi

theorem exec_sound (st : Store) (n : Nat) :
    (∀ s res, exec st n (.text s) = .ok res → ∃ out, res = table out ∧ Expands st (words s) out) ∧
    (∀ pre rs res, exec st n (.scan (table (pre ++ rs)) (pre.length + rs.length) pre.length) = .ok res →
      ∃ out, res = table (pre ++ out) ∧ Expands st rs out) := by
  induction n with
  | zero => exact ⟨(fun s res h => by cases h), (fun pre rs res h => by cases h)⟩
  | succ n ih =>
    obtain ⟨iht, ihs⟩ := ih
    refine ⟨fun s res h => ?_, fun pre rs res h => ?_⟩
    · rw [exec] at h
      split at h
      · rename_i h0
        have hw : words s = [] := List.length_eq_zero_iff.mp h0
        injection h with h
        exact ⟨[], h.symm, by rw [hw]; exact .nil⟩
      · have h' : exec st n (.scan (table ([] ++ words s)) (([] : List Word).length + (words s).length)
            ([] : List Word).length) = .ok res := by simpa [table] using h
        simpa using ihs [] (words s) res h'
    · match rs with
      | [] =>
        rw [exec, List.append_nil, table_get_end] at h
        injection h with h
        exact ⟨[], by rw [List.append_nil]; exact h.symm, .nil⟩
      | w :: rs =>
        rw [exec, table_get] at h
        simp only at h
        split at h
        · rename_i hl
          have h' : exec st n (.scan (table ((pre ++ [w]) ++ rs)) ((pre ++ [w]).length + rs.length)
              (pre ++ [w]).length) = .ok res := by
            simpa [Nat.add_assoc, Nat.add_comm 1] using h
          obtain ⟨out, ho, he⟩ := ihs _ _ _ h'
          exact ⟨w :: out, by simpa using ho, .keep hl he⟩
        · rename_i content hl
          obtain ⟨t2, ht2, h⟩ := Res.bind_eq_ok h
          obtain ⟨a, rfl, ha⟩ := iht _ _ ht2
          obtain ⟨n2, hn2, h⟩ := Res.bind_eq_ok h
          rw [tblSize_table] at hn2
          injection hn2 with hn2
          obtain ⟨arr, harr, h⟩ := Res.bind_eq_ok h
          rw [table_set, List.length_cons, ← Nat.add_assoc, ← hn2] at harr
          rw [List.length_cons, ← Nat.add_assoc, ← hn2] at h
          by_cases hne : a = []
          · subst hne
            exact (scan_after_empty harr h).elim
          · have hal : 0 < a.length := List.length_pos_iff.mpr hne
            have hc : a.length = 1 ∨ rs.length < a.length := by
              apply Decidable.byContradiction
              intro hc
              rw [insertTbl, if_neg (by omega), if_neg (by omega), if_pos (by omega)] at harr
              cases harr
            rw [insertTbl_table hne hc] at harr
            injection harr with harr
            obtain ⟨x, t, rfl⟩ : ∃ x t, a = x :: t := by
              cases a with
              | nil => exact absurd rfl hne
              | cons x t => exact ⟨x, t, rfl⟩
            have h' : exec st n (.scan (table ((pre ++ [x]) ++ (t ++ rs))) ((pre ++ [x]).length + (t ++ rs).length)
                (pre ++ [x]).length) = .ok res := by
              rw [← h, ← harr]
              simp only [List.append_assoc, List.cons_append, List.nil_append, List.length_append, List.length_cons,
                List.length_nil]
              congr 2
              omega
            obtain ⟨out, ho, he⟩ := ihs _ _ _ h'
            obtain ⟨b, rfl, hb⟩ := Expands.append_plain (fun v hv => ha.plain v (List.mem_cons_of_mem _ hv)) he
            exact ⟨(x :: t) ++ b, by simpa using ho, .list hl ha hb⟩

/-- C21: whenever `KL_expand` ends normally, for any text and any lists, it returns the expansion of the terms
    of the text. -/
theorem C21_expand_sound (st : Store) (n : Nat) (s : List Char) (res : List Cell)
    (h : expand st n s = .ok res) : ∃ out, res = table out ∧ Expands st (words s) out :=
  (exec_sound st n).1 s res h

theorem scan_plain {st : Store} (t : List Word) (ht : ∀ w ∈ t, listOf st w = none) (n : Nat) (pre rs : List Word) :
    exec st (n + t.length) (.scan (table (pre ++ t ++ rs)) (pre.length + t.length + rs.length) pre.length) =
      exec st n (.scan (table (pre ++ t ++ rs)) (pre.length + t.length + rs.length) (pre.length + t.length)) := by
  induction t generalizing pre with
  | nil => simp
  | cons w t ih =>
    have h1 : (table (pre ++ (w :: t) ++ rs))[pre.length]? = some (.str w) := by simp [table]
    rw [List.length_cons, ← Nat.add_assoc, exec, h1]
    simp only [ht w (by simp)]
    have := ih (fun v hv => ht v (List.mem_cons_of_mem _ hv)) (pre ++ [w])
    simpa [Nat.add_assoc, Nat.add_comm 1, Nat.add_left_comm 1] using this

theorem scan_tame {st : Store} {rs out : List Word} (h : Tame st rs out) :
    ∃ N, ∀ n, N ≤ n → ∀ pre : List Word,
      exec st n (.scan (table (pre ++ rs)) (pre.length + rs.length) pre.length) = .ok (table (pre ++ out)) := by
  induction h with
  | nil =>
    refine ⟨1, fun n hn pre => ?_⟩
    obtain ⟨m, rfl⟩ : ∃ m, n = m + 1 := ⟨n - 1, by omega⟩
    rw [exec, List.append_nil, table_get_end]
  | @keep w rs out hl _ ih =>
    obtain ⟨N, hN⟩ := ih
    refine ⟨N + 1, fun n hn pre => ?_⟩
    obtain ⟨m, rfl⟩ : ∃ m, n = m + 1 := ⟨n - 1, by omega⟩
    rw [exec, table_get]
    simp only [hl]
    have := hN m (by omega) (pre ++ [w])
    simpa [Nat.add_assoc, Nat.add_comm 1] using this
  | @list w content rs a b hl hne hc hta htb iha ihb =>
    obtain ⟨Na, hNa⟩ := iha
    obtain ⟨Nb, hNb⟩ := ihb
    refine ⟨Na + Nb + a.length + 2, fun n hn pre => ?_⟩
    obtain ⟨m, rfl⟩ : ∃ m, n = m + 1 := ⟨n - 1, by omega⟩
    have htext : exec st m (.text content) = .ok (table a) := by
      obtain ⟨k, rfl⟩ : ∃ k, m = k + 1 := ⟨m - 1, by omega⟩
      rw [exec]
      have hwne : (words content).length ≠ 0 := by
        intro h0
        rw [List.length_eq_zero_iff.mp h0] at hta
        cases hta
        exact hne rfl
      rw [if_neg hwne]
      have := hNa k (by omega) []
      simpa [table] using this
    rw [exec, table_get]
    simp only [hl, htext, Res.bind, tblSize_table]
    rw [table_set, List.length_cons, ← Nat.add_assoc, insertTbl_table hne hc]
    simp only
    obtain ⟨x, t, rfl⟩ : ∃ x t, a = x :: t := by
      cases a with
      | nil => exact absurd rfl hne
      | cons x t => exact ⟨x, t, rfl⟩
    have hplain : ∀ v ∈ t, listOf st v = none :=
      fun v hv => hta.expands.plain v (List.mem_cons_of_mem _ hv)
    obtain ⟨k, rfl⟩ : ∃ k, m = k + t.length := ⟨m - t.length, by simp at hn; omega⟩
    have h1 := scan_plain (st := st) t hplain k (pre ++ [x]) rs
    have h2 := hNb k (by simp at hn; omega) (pre ++ (x :: t))
    have e1 : pre.length + rs.length + 1 + (x :: t).length - 1 = (pre ++ [x]).length + t.length + rs.length := by
      simp; omega
    have e2 : pre.length + 1 = (pre ++ [x]).length := by simp
    have e3 : pre ++ x :: t ++ rs = pre ++ [x] ++ t ++ rs := by simp
    rw [e1, e2, e3, h1]
    have e4 : pre ++ [x] ++ t = pre ++ x :: t := by simp
    have e5 : (pre ++ [x]).length + t.length = (pre ++ x :: t).length := by simp; omega
    rw [e4, e5, h2]
    simp

/-- C21: `KL_expand` does end normally, with the expansion as result, when no list met is empty and each list
    is replaced by one term or by more terms than there are terms after it. -/
theorem C21_expand_total {st : Store} {s : List Char} {out : List Word} (h : Tame st (words s) out) :
    ∃ N, ∀ n, N ≤ n → expand st n s = .ok (table out) := by
  by_cases h0 : (words s).length = 0
  · refine ⟨1, fun n hn => ?_⟩
    obtain ⟨m, rfl⟩ : ∃ m, n = m + 1 := ⟨n - 1, by omega⟩
    rw [List.length_eq_zero_iff.mp h0] at h
    cases h
    rw [expand, exec, if_pos h0]
    rfl
  · obtain ⟨N, hN⟩ := scan_tame h
    refine ⟨N + 1, fun n hn => ?_⟩
    obtain ⟨m, rfl⟩ : ∃ m, n = m + 1 := ⟨n - 1, by omega⟩
    rw [expand, exec, if_neg h0]
    have := hN m (by omega) []
    simpa [table] using this

/-! ## Texts and words -/

/-- A word that survives being written in a list: not empty, without separator, not starting with '$'. -/
def GoodWord (w : Word) : Prop := w ≠ [] ∧ (∀ c ∈ w, isSep c = false) ∧ w.head? ≠ some '$'

theorem wordsFrom_append {w : Word} (hw : ∀ c ∈ w, isSep c = false) (cur rest : List Char) :
    wordsFrom cur (w ++ rest) = wordsFrom (w.reverse ++ cur) rest := by
  induction w generalizing cur with
  | nil => rfl
  | cons c w ih =>
    rw [List.cons_append, wordsFrom, if_neg (by simp [hw c (by simp)]),
      ih (fun d hd => hw d (List.mem_cons_of_mem _ hd))]
    simp

theorem words_cons {w : Word} (hne : w ≠ []) (hw : ∀ c ∈ w, isSep c = false) (rest : List Char) :
    words (w ++ ';' :: rest) = w :: words rest := by
  have hs : isSep ';' = true := by decide
  unfold words
  rw [wordsFrom_append hw, wordsFrom, if_pos hs, List.append_nil, if_neg (by simp [hne])]
  simp

theorem words_single {w : Word} (hne : w ≠ []) (hw : ∀ c ∈ w, isSep c = false) : words w = [w] := by
  have := wordsFrom_append hw [] []
  rw [List.append_nil] at this
  unfold words
  rw [this, wordsFrom, List.append_nil, if_neg (by simp [hne])]
  simp

theorem words_join {ws : List Word} (h : ∀ w ∈ ws, GoodWord w) : words (join ws) = ws := by
  induction ws with
  | nil => rfl
  | cons w ws ih =>
    obtain ⟨hne, hs, -⟩ := h w (by simp)
    have ih := ih (fun v hv => h v (List.mem_cons_of_mem _ hv))
    cases ws with
    | nil => exact words_single hne hs
    | cons v vs =>
      have e : join (w :: v :: vs) = w ++ ';' :: join (v :: vs) := rfl
      rw [e, words_cons hne hs, ih]

theorem GoodWord.plain {st : Store} {w : Word} (h : GoodWord w) : listOf st w = none := by
  obtain ⟨-, -, h⟩ := h
  unfold listOf
  split
  · rw [if_neg (by simpa using h)]
  · rfl

theorem tame_plain {st : Store} {ws : List Word} (h : ∀ w ∈ ws, listOf st w = none) : Tame st ws ws := by
  induction ws with
  | nil => exact .nil
  | cons w ws ih => exact .keep (h w (by simp)) (ih (fun v hv => h v (List.mem_cons_of_mem _ hv)))

/-! ## Names of the sublists -/

/-- An identifier, in whatever case: a letter or '_', then letters, digits, '_' or '#'. -/
def Ident (name : Name) : Prop :=
  name ≠ [] ∧ (∀ c ∈ name, nameTailOk .comments c = true) ∧ ∀ c, name.head? = some c → nameHeadOk .comments c = true

theorem isLetter_upper {c : Char} (h : isLetterFor .comments c = true) : isLetterFor .lists (toUpperC c) = true := by
  simp only [isLetterFor, isUpperC, isLowerC, Bool.or_eq_true, Bool.and_eq_true, decide_eq_true_eq] at h ⊢
  rw [toNat_toUpperC]
  split <;> omega

theorem upper_keep {c : Char} (h : ¬ (97 ≤ c.toNat ∧ c.toNat ≤ 122)) : toUpperC c = c := by
  unfold toUpperC
  rw [if_neg h]

theorem tailOk_upper {c : Char} (h : nameTailOk .comments c = true) : nameTailOk .lists (toUpperC c) = true := by
  unfold nameTailOk at h ⊢
  simp only [Bool.or_eq_true, beq_iff_eq] at h ⊢
  rcases h with ((h | h) | h) | h
  · exact Or.inl (Or.inl (Or.inl (isLetter_upper h)))
  · refine Or.inl (Or.inl (Or.inr ?_))
    rw [upper_keep]
    · exact h
    · simp only [isDigitC, Bool.and_eq_true, decide_eq_true_eq] at h; omega
  · exact Or.inl (Or.inr (by rw [h]; decide))
  · exact Or.inr (by rw [h]; decide)

theorem headOk_upper {c : Char} (h : nameHeadOk .comments c = true) : nameHeadOk .lists (toUpperC c) = true := by
  unfold nameHeadOk at h ⊢
  simp only [Bool.or_eq_true, beq_iff_eq] at h ⊢
  rcases h with h | h
  · exact Or.inl (isLetter_upper h)
  · exact Or.inr (by rw [h]; decide)

theorem tailOk_facts {c : Char} (h : nameTailOk .comments c = true) :
    isTrimC c = false ∧ isSep c = false := by
  refine ⟨(nameTailOk_facts h).1, ?_⟩
  rcases nameTailOk_cases h with h | h | h | h
  · simp only [isLetterFor, isUpperC, isLowerC, Bool.or_eq_true, Bool.and_eq_true, decide_eq_true_eq] at h
    simp only [isSep, Bool.or_eq_false_iff, decide_eq_false_iff_not]
    omega
  · simp only [isSep, Bool.or_eq_false_iff, decide_eq_false_iff_not]; omega
  · simp only [isSep, Bool.or_eq_false_iff, decide_eq_false_iff_not]; omega
  · simp only [isSep, Bool.or_eq_false_iff, decide_eq_false_iff_not]; omega

theorem Ident.key {name : Name} (h : Ident name) : toKey .lists name = toUpper name := by
  have : trim name = name := trim_eq_self (fun c hc => (tailOk_facts (h.2.1 c hc)).1)
  simp [toKey, ObjType.mode, this]

theorem Ident.valid {name : Name} (h : Ident name) (hl : name.length ≤ 20) :
    checkName .lists (toKey .lists name) = true := by
  rw [h.key]
  obtain ⟨hne, htail, hhead⟩ := h
  cases name with
  | nil => exact absurd rfl hne
  | cons c cs =>
    have hl' : cs.length ≤ 19 := by simp at hl; omega
    have hl2 : (toUpper (c :: cs)).length ≤ 20 := by simpa [toUpper] using hl
    have e : toUpper (c :: cs) = toUpperC c :: toUpper cs := rfl
    rw [e, checkName]
    rw [← e]
    simp only [Bool.and_eq_true, decide_eq_true_eq, List.all_eq_true]
    refine ⟨⟨⟨hl2, headOk_upper (hhead c rfl)⟩, ?_⟩, by simpa [toUpper] using hl'⟩
    intro d hd
    obtain ⟨d', hd', rfl⟩ := List.mem_map.mp hd
    exact tailOk_upper (htail d' (List.mem_cons_of_mem _ hd'))

theorem Ident.sub {name : Name} (h : Ident name) (j : Nat) : Ident (name ++ natToChars j) := by
  obtain ⟨hne, htail, hhead⟩ := h
  refine ⟨by simp [hne], ?_, ?_⟩
  · intro c hc
    rcases List.mem_append.mp hc with hc | hc
    · exact htail c hc
    · simp [nameTailOk, natToChars_isDigit j c hc]
  · intro c hc
    cases name with
    | nil => exact absurd rfl hne
    | cons d ds => exact hhead c (by simpa using hc)

theorem upper_digits (j : Nat) : toUpper (natToChars j) = natToChars j := by
  unfold toUpper
  conv => rhs; rw [← List.map_id (natToChars j)]
  apply List.map_congr_left
  intro c hc
  have := natToChars_isDigit j c hc
  simp only [isDigitC, Bool.and_eq_true, decide_eq_true_eq] at this
  exact upper_keep (by omega)

theorem subKey_eq {name : Name} (h : Ident name) (j : Nat) :
    toKey .lists (name ++ natToChars j) = toUpper name ++ natToChars j := by
  rw [(h.sub j).key]
  conv => rhs; rw [← upper_digits j]
  simp [toUpper]

theorem natToChars_inj {i j : Nat} (h : natToChars i = natToChars j) : i = j := by
  have := congrArg (digitsVal 0) h
  rwa [digitsVal_natToChars, digitsVal_natToChars] at this

theorem subKey_inj {name : Name} (h : Ident name) {i j : Nat}
    (e : toKey .lists (name ++ natToChars i) = toKey .lists (name ++ natToChars j)) : i = j := by
  rw [subKey_eq h, subKey_eq h] at e
  exact natToChars_inj (List.append_cancel_left e)

theorem subKey_ne {name : Name} (h : Ident name) (j : Nat) :
    toKey .lists (name ++ natToChars j) ≠ toKey .lists name := by
  rw [subKey_eq h, h.key]
  intro e
  have := congrArg List.length e
  have h2 : 0 < (natToChars j).length := List.length_pos_iff.mpr (natToChars_ne_nil j)
  simp at this
  exact natToChars_ne_nil j this

/-! ## The chunks -/

/-- The consecutive runs of `c` elements. -/
def chunks (c : Nat) : Nat → List Word → List (List Word)
  | 0, _ => []
  | _ + 1, [] => []
  | fuel + 1, w :: ws => (w :: ws).take c :: chunks c fuel ((w :: ws).drop c)

theorem chunks_flatten {c : Nat} (hc : 1 ≤ c) : ∀ (fuel : Nat) (l : List Word), l.length ≤ fuel →
    (chunks c fuel l).flatten = l
  | 0, l, h => by
    have : l = [] := List.length_eq_zero_iff.mp (by omega)
    rw [this]; rfl
  | _ + 1, [], _ => rfl
  | fuel + 1, w :: ws, h => by
    rw [chunks, List.flatten_cons, chunks_flatten hc fuel _ (by simp at h ⊢; omega), List.take_append_drop]

theorem chunks_ne {c : Nat} (hc : 1 ≤ c) : ∀ (fuel : Nat) (l : List Word), ∀ x ∈ chunks c fuel l, x ≠ []
  | 0, _ => by simp [chunks]
  | _ + 1, [] => by simp [chunks]
  | fuel + 1, w :: ws => by
    intro x hx
    rw [chunks] at hx
    rcases List.mem_cons.mp hx with hx | hx
    · rw [hx]
      obtain ⟨k, rfl⟩ : ∃ k, c = k + 1 := ⟨c - 1, by omega⟩
      simp
    · exact chunks_ne hc fuel _ x hx

theorem chunks_length {c : Nat} (hc : 1 ≤ c) : ∀ (fuel m : Nat) (l : List Word), l.length ≤ m * c →
    (chunks c fuel l).length ≤ m
  | 0, m, _, _ => by simp [chunks]
  | _ + 1, m, [], _ => by simp [chunks]
  | fuel + 1, 0, w :: ws, h => by simp at h
  | fuel + 1, m + 1, w :: ws, h => by
    rw [chunks, List.length_cons]
    have := chunks_length hc fuel m ((w :: ws).drop c) (by
      rw [List.length_drop, Nat.succ_mul] at *; omega)
    omega

theorem chunks_index {c : Nat} (hc : 1 ≤ c) : ∀ (fuel : Nat) (l : List Word) (i : Nat),
    i < (chunks c fuel l).length → i * c < l.length
  | 0, _, _, h => by simp [chunks] at h
  | _ + 1, [], _, h => by simp [chunks] at h
  | fuel + 1, w :: ws, 0, _ => by simp
  | fuel + 1, w :: ws, i + 1, h => by
    rw [chunks, List.length_cons] at h
    have := chunks_index hc fuel ((w :: ws).drop c) i (by omega)
    rw [List.length_drop] at this
    rw [Nat.succ_mul]
    omega

/-- Every chunk has one element, or more elements than there are chunks after it. -/
inductive Spaced : List (List Word) → Prop where
  | nil : Spaced []
  | cons {x xs} : (x.length = 1 ∨ xs.length < x.length) → Spaced xs → Spaced (x :: xs)

theorem chunks_spaced {c : Nat} (hc : 1 ≤ c) : ∀ (fuel : Nat) (l : List Word),
    (c = 1 ∨ l.length ≤ c * c) → Spaced (chunks c fuel l)
  | 0, _, _ => .nil
  | _ + 1, [], _ => .nil
  | fuel + 1, w :: ws, h => by
    rw [chunks]
    refine .cons ?_ (chunks_spaced hc fuel _ ?_)
    · rcases h with h | h
      · left; subst h; simp
      · right
        by_cases hle : (w :: ws).length ≤ c
        · rw [List.drop_of_length_le hle]
          have : chunks c fuel [] = [] := by cases fuel <;> rfl
          rw [this, List.length_take]
          simp
          omega
        · have := chunks_length hc fuel (c - 1) ((w :: ws).drop c) (by
            rw [List.length_drop, Nat.sub_mul, Nat.one_mul]; omega)
          rw [List.length_take]
          omega
    · rcases h with h | h
      · exact Or.inl h
      · right; rw [List.length_drop]; omega

/-! ## `KL_lst` -/

theorem subLoop_spec {name : Name} (hid : Ident name) {c : Nat} (fuel j : Nat) (l : List Word) (st : Store)
    (hlen : ∀ i, i < (chunks c fuel l).length → (name ++ natToChars (j + i)).length ≤ 20) :
    ∃ st', subLoop name c fuel j l st = .ok (⟨st', true⟩, j + (chunks c fuel l).length) ∧
      (∀ i (hi : i < (chunks c fuel l).length),
        st'.find (toKey .lists (name ++ natToChars (j + i))) = some (join ((chunks c fuel l)[i]))) ∧
      (∀ k, (∀ i, j ≤ i → k ≠ toKey .lists (name ++ natToChars i)) → st'.find k = st.find k) := by
  induction fuel generalizing j l st with
  | zero => exact ⟨st, rfl, fun i hi => by simp [chunks] at hi, fun _ _ => rfl⟩
  | succ fuel ih =>
    cases l with
    | nil => exact ⟨st, rfl, fun i hi => by simp [chunks] at hi, fun _ _ => rfl⟩
    | cons w ws =>
      rw [chunks] at hlen
      have h0 : (name ++ natToChars j).length ≤ 20 := hlen 0 (by simp)
      have hbuf : inBuf (name ++ natToChars j) = .ok (name ++ natToChars j) := by
        rw [inBuf, if_neg (by omega), List.take_of_length_le h0]
      have hput : put st (name ++ natToChars j) (join ((w :: ws).take c)) =
          some (st.insert (toKey .lists (name ++ natToChars j)) (join ((w :: ws).take c))) := by
        rw [put, if_pos ((hid.sub j).valid h0)]
      obtain ⟨st', hst', hin, hout⟩ := ih (j + 1) ((w :: ws).drop c)
        (st.insert (toKey .lists (name ++ natToChars j)) (join ((w :: ws).take c))) (by
          intro i hi
          have := hlen (i + 1) (by simpa using hi)
          rwa [show j + 1 + i = j + (i + 1) from by omega])
      refine ⟨st', ?_, ?_, ?_⟩
      · rw [subLoop, hbuf]
        simp only [Res.bind, hput, hst', chunks, List.length_cons]
        congr 2
        omega
      · intro i hi
        cases i with
        | zero =>
          have : st'.find (toKey .lists (name ++ natToChars j)) = some (join ((w :: ws).take c)) := by
            rw [hout _ (fun i hi e => by have := subKey_inj hid e; omega), SMap.find_insert, if_pos rfl]
          simpa [chunks] using this
        | succ i =>
          have := hin i (by simpa [chunks] using hi)
          rw [show j + 1 + i = j + (i + 1) from by omega] at this
          simpa [chunks] using this
      · intro k hk
        rw [hout k (fun i hi => hk i (by omega)), SMap.find_insert, if_neg (hk j (Nat.le_refl j))]

/-- The terms `$name<i>`. -/
def refWords (name : Name) : Nat → Nat → List Word
  | _, 0 => []
  | i, n + 1 => ('$' :: (name ++ natToChars i)) :: refWords name (i + 1) n

theorem refs_spec {name : Name} (hid : Ident name) (n i : Nat)
    (hlen : ∀ k, k < n → (name ++ natToChars (i + k)).length ≤ 18) :
    ∃ s, refs name i n = .ok s ∧ words s = refWords name i n := by
  induction n generalizing i with
  | zero => exact ⟨[], rfl, rfl⟩
  | succ n ih =>
    obtain ⟨s, hs, hw⟩ := ih (i + 1) (fun k hk => by
      have := hlen (k + 1) (by omega)
      rwa [show i + 1 + k = i + (k + 1) from by omega])
    have h0 : (name ++ natToChars i).length ≤ 18 := hlen 0 (by omega)
    have hl : ('$' :: (name ++ natToChars i ++ [';'])).length ≤ 20 := by
      simp only [List.length_cons, List.length_append, List.length_nil] at h0 ⊢; omega
    refine ⟨'$' :: (name ++ natToChars i ++ [';']) ++ s, ?_, ?_⟩
    · rw [refs, inBuf, if_neg (by omega), List.take_of_length_le hl, hs]
      rfl
    · have hsep : ∀ c ∈ '$' :: (name ++ natToChars i), isSep c = false := by
        intro c hc
        rcases List.mem_cons.mp hc with hc | hc
        · rw [hc]; decide
        · exact (tailOk_facts ((hid.sub i).2.1 c hc)).2
      have e : '$' :: (name ++ natToChars i ++ [';']) ++ s = ('$' :: (name ++ natToChars i)) ++ ';' :: s := by simp
      rw [e, words_cons (by simp) hsep, hw, refWords]

theorem listOf_ref {st : Store} {name : Name} : listOf st ('$' :: name) = st.find (toKey .lists name) := by
  simp [listOf]

theorem tame_refs {st : Store} {name : Name} (L : List (List Word)) (j : Nat)
    (hfind : ∀ i (hi : i < L.length), st.find (toKey .lists (name ++ natToChars (j + i))) = some (join L[i]))
    (hgood : ∀ x ∈ L, x ≠ [] ∧ ∀ w ∈ x, GoodWord w) (hsp : Spaced L) :
    Tame st (refWords name j L.length) L.flatten ∧ (refWords name j L.length).length = L.length := by
  induction L generalizing j with
  | nil => exact ⟨.nil, rfl⟩
  | cons x xs ih =>
    cases hsp with
    | cons hx hsp =>
      obtain ⟨hne, hg⟩ := hgood x (by simp)
      obtain ⟨ih, ihl⟩ := ih (j + 1) (fun i hi => by
        have := hfind (i + 1) (by simp; omega)
        rw [show j + (i + 1) = j + 1 + i from by omega] at this
        simpa using this) (fun y hy => hgood y (List.mem_cons_of_mem _ hy)) hsp
      refine ⟨?_, by simp [refWords, ihl]⟩
      rw [List.length_cons, refWords, List.flatten_cons]
      refine .list (content := join x) ?_ hne (by rwa [ihl]) ?_ ih
      · rw [listOf_ref]; exact hfind 0 (by simp)
      · rw [words_join hg]
        exact tame_plain (fun w hw => (hg w hw).plain)

/-- The text `$name` has the single term `$name`. -/
theorem words_name {name : Name} (hid : Ident name) : words ('$' :: name) = ['$' :: name] := by
  apply words_single (by simp)
  intro c hc
  rcases List.mem_cons.mp hc with hc | hc
  · rw [hc]; decide
  · exact (tailOk_facts (hid.2.1 c hc)).2

/-- C21 (partial): a non-empty list of words stored under an identifier in chunks of `c ≥ 1` is given back by
    expanding `$name`, provided no name `$name<j>;` exceeds the 20 characters kept by the code and the number of
    chunks does not exceed the size of a chunk (`c = 1` or at most `c * c` words).
    Missing: the cases excluded by these two conditions, where the code loses the list or overlaps a `memcpy`
    (see the counterexamples). -/
theorem C21_chunks_partial (st : Store) (name : Name) (lst : List Word) (c : Nat) (hid : Ident name)
    (hc : 1 ≤ c) (hcl : c ≤ lst.length) (hgood : ∀ w ∈ lst, GoodWord w)
    (hlen : ∀ j, j * c < lst.length → name.length + (natToChars j).length ≤ 18)
    (hsq : c = 1 ∨ lst.length ≤ c * c) :
    ∃ st', split st name lst c = .ok ⟨st', true⟩ ∧
      ∃ N, ∀ n, N ≤ n → expand st' n ('$' :: name) = .ok (table lst) := by
  have hl0 : lst.length ≠ 0 := by omega
  have hidx : ∀ i, i < (chunks c lst.length lst).length → (name ++ natToChars (0 + i)).length ≤ 18 := by
    intro i hi
    rw [Nat.zero_add, List.length_append]
    exact hlen i (chunks_index hc _ _ i hi)
  obtain ⟨st1, h1, hin, hout⟩ := subLoop_spec hid (c := c) lst.length 0 lst st
    (fun i hi => by have := hidx i hi; omega)
  obtain ⟨s, hs, hw⟩ := refs_spec hid (chunks c lst.length lst).length 0 hidx
  have hname : name.length ≤ 20 := by
    have := hlen 0 (by omega); omega
  have hput : put st1 name s = some (st1.insert (toKey .lists name) s) := by
    rw [put, if_pos (hid.valid hname)]
  refine ⟨st1.insert (toKey .lists name) s, ?_, ?_⟩
  · rw [split, if_neg hl0, if_neg (by omega), if_neg (by omega), Int.toNat_natCast, h1]
    simp only [Res.bind, if_true, Nat.zero_add, hs, setOut, hput]
  · apply C21_expand_total
    rw [words_name hid]
    have hflat := chunks_flatten hc lst.length lst (Nat.le_refl _)
    obtain ⟨ht, -⟩ := tame_refs (st := st1.insert (toKey .lists name) s) (name := name) (chunks c lst.length lst) 0
      (fun i hi => by
        rw [SMap.find_insert, if_neg (subKey_ne hid (0 + i))]
        exact hin i hi)
      (fun x hx => ⟨chunks_ne hc _ _ x hx, fun w hw => hgood w (by
        rw [← hflat]; exact List.mem_flatten.mpr ⟨x, hx, hw⟩)⟩)
      (chunks_spaced hc _ _ hsq)
    rw [hflat] at ht
    have h2 : Tame (st1.insert (toKey .lists name) s) ['$' :: name] (lst ++ []) := by
      refine .list (content := s) ?_ (by intro e; rw [e] at hl0; simp at hl0) (Or.inr ?_) (by rw [hw]; exact ht) .nil
      · rw [listOf_ref, SMap.find_insert, if_pos rfl]
      · simp; omega
    rwa [List.append_nil] at h2

/-- C21: a non-empty list of words stored without chunks (negative size, or size above the number of words)
    under a valid name is given back by expanding `$name`. -/
theorem C21_single (st : Store) (name : Name) (lst : List Word) (c : Int) (hid : Ident name)
    (hname : name.length ≤ 20) (hne : lst ≠ []) (hc : c < 0 ∨ (lst.length : Int) < c)
    (hgood : ∀ w ∈ lst, GoodWord w) :
    ∃ st', split st name lst c = .ok ⟨st', true⟩ ∧
      ∃ N, ∀ n, N ≤ n → expand st' n ('$' :: name) = .ok (table lst) := by
  have hl0 : lst.length ≠ 0 := fun h => hne (List.length_eq_zero_iff.mp h)
  have hput : put st name (join lst) = some (st.insert (toKey .lists name) (join lst)) := by
    rw [put, if_pos (hid.valid hname)]
  refine ⟨st.insert (toKey .lists name) (join lst), ?_, ?_⟩
  · rw [split, if_neg hl0, if_pos hc.symm, setOut, hput]
  · apply C21_expand_total
    rw [words_name hid]
    have h2 : Tame (st.insert (toKey .lists name) (join lst)) ['$' :: name] (lst ++ []) := by
      refine .list (content := join lst) ?_ hne (Or.inr ?_) ?_ .nil
      · rw [listOf_ref, SMap.find_insert, if_pos rfl]
      · simp; omega
      · rw [words_join hgood]
        exact tame_plain (fun w hw => (hgood w hw).plain)
    rwa [List.append_nil] at h2

/-- C21: `KL_lst` leaves the lists that are neither `name` nor one of its sublists as they were. -/
theorem C21_frame (st : Store) (name : Name) (lst : List Word) (c : Nat) (hid : Ident name) (hc : 1 ≤ c)
    (hlen : ∀ j, j * c < lst.length → name.length + (natToChars j).length ≤ 18) (st' : Store) (r : Bool)
    (h : split st name lst c = .ok ⟨st', r⟩) (k : Name) (hk : k ≠ toKey .lists name)
    (hsub : ∀ j, k ≠ toKey .lists (name ++ natToChars j)) : st'.find k = st.find k := by
  have hset : ∀ (a b : Store) (s : List Char) (q : Bool), setOut a name s = ⟨b, q⟩ → b.find k = a.find k := by
    intro a b s q hq
    unfold setOut put at hq
    split at hq
    · rename_i e
      injection hq with hq _
      rw [← hq]
      split at e
      · injection e with e
        rw [← e, SMap.find_insert, if_neg hk]
      · cases e
    · injection hq with hq _
      rw [← hq]
  unfold split at h
  split at h
  · injection h with h; exact hset _ _ _ _ h
  · split at h
    · injection h with h; exact hset _ _ _ _ h
    · rw [if_neg (by omega), Int.toNat_natCast] at h
      obtain ⟨st1, h1, -, hout⟩ := subLoop_spec hid (c := c) lst.length 0 lst st (fun i hi => by
        have := hlen i (chunks_index hc _ _ i hi)
        rw [Nat.zero_add, List.length_append]; omega)
      rw [h1] at h
      simp only [Res.bind, if_true] at h
      obtain ⟨s, hs, h⟩ := Res.bind_eq_ok h
      injection h with h
      rw [hset _ _ _ _ h]
      exact hout k (fun i _ => hsub i)

/-! ## Where it fails -/

/-- C21: a list stored empty cannot be expanded: whatever the workspace, the name and the chunk size, after
    `KL_lst(name, {}, c)` the call `KL_expand("$name")` reads beyond its table. -/
theorem C21_empty_undefined (st : Store) (name : Name) (c : Int) (hid : Ident name) (hname : name.length ≤ 20) :
    ∃ st', split st name [] c = .ok ⟨st', true⟩ ∧ ∀ n res, expand st' n ('$' :: name) ≠ .ok res := by
  have hput : put st name [] = some (st.insert (toKey .lists name) []) := by
    rw [put, if_pos (hid.valid hname)]
  refine ⟨st.insert (toKey .lists name) [], by rw [split, if_pos (List.length_nil), setOut, hput], ?_⟩
  intro n res h
  obtain _ | n := n
  · cases h
  rw [expand, exec, words_name hid, if_neg (by simp)] at h
  obtain _ | n := n
  · cases h
  have hg : ((List.map Cell.str ['$' :: name]) ++ [Cell.null])[0]? = some (.str ('$' :: name)) := rfl
  rw [exec, hg] at h
  simp only [listOf_ref, SMap.find_insert, if_true] at h
  obtain ⟨t2, h2, h⟩ := Res.bind_eq_ok h
  have ht2 : t2 = [.null] := by
    obtain _ | n := n
    · cases h2
    · rw [exec, if_pos (by rfl)] at h2; injection h2 with h2; exact h2.symm
  subst ht2
  obtain ⟨n2, hn2, h⟩ := Res.bind_eq_ok h
  injection hn2 with hn2
  subst hn2
  obtain ⟨arr, ha, h⟩ := Res.bind_eq_ok h
  exact scan_after_empty (pre := []) (rs := []) ha h

/-- C21 counterexample: five words in chunks of two make three sublists; expanding them needs a `memcpy` between
    overlapping areas. -/
theorem C21_overlap_counterexample :
    ∃ st', split [] "L".toList ["A".toList, "B".toList, "C".toList, "D".toList, "E".toList] 2 = .ok ⟨st', true⟩ ∧
      expand st' 50 "$L".toList = .ub :=
  ⟨[("L".toList, "$L0;$L1;$L2;".toList), ("L0".toList, "A;B".toList), ("L1".toList, "C;D".toList),
    ("L2".toList, "E".toList)], by decide +kernel, by decide +kernel⟩

/-- C21 counterexample: a valid name of 19 characters. The references are cut after 20 characters and run
    together, so the list expands to one meaningless term. -/
theorem C21_long_name_counterexample :
    ∃ st' res, split [] "LIST_OF_COUNTRIES_1".toList ["A".toList, "B".toList, "C".toList] 2 = .ok ⟨st', true⟩ ∧
      expand st' 50 "$LIST_OF_COUNTRIES_1".toList = .ok (table [res]) ∧
      res = "$LIST_OF_COUNTRIES_1$LIST_OF_COUNTRIES_1".toList :=
  ⟨[("LIST_OF_COUNTRIES_1".toList, "$LIST_OF_COUNTRIES_1$LIST_OF_COUNTRIES_1".toList),
    ("LIST_OF_COUNTRIES_10".toList, "A;B".toList), ("LIST_OF_COUNTRIES_11".toList, "C".toList)],
   _, by decide +kernel, by decide +kernel, rfl⟩

/-- C21 counterexample: a list containing a reference to itself makes the expansion endless, whatever the depth
    allowed. -/
theorem C21_cycle_counterexample (n : Nat) : expand [("A".toList, "$A".toList)] n "$A".toList = .ub := by
  have key : ∀ n, exec [("A".toList, "$A".toList)] n (.text "$A".toList) = .ub ∧
      exec [("A".toList, "$A".toList)] n (.scan [.str "$A".toList, .null] 1 0) = .ub := by
    intro n
    induction n with
    | zero => exact ⟨rfl, rfl⟩
    | succ n ih =>
      refine ⟨?_, ?_⟩
      · rw [exec]
        have e : words "$A".toList = ["$A".toList] := by decide +kernel
        rw [e, if_neg (by simp)]
        exact ih.2
      · rw [exec]
        have e : listOf [("A".toList, "$A".toList)] "$A".toList = some "$A".toList := by decide +kernel
        have g : ([Cell.str "$A".toList, Cell.null] : List Cell)[0]? = some (.str "$A".toList) := rfl
        rw [g]
        simp only [e, ih.1, Res.bind]
  exact (key n).1

/-- Eight names in chunks of five, as in the documentation of `KL_lst`, around an existing list. -/
example :
    ∃ st', split [("OTHER".toList, "X".toList)] "mylist".toList
      (["A", "B", "C", "D", "E", "F", "G", "H"].map String.toList) 5 = .ok ⟨st', true⟩ ∧
      expand st' 50 "$MYLIST".toList = .ok (table (["A", "B", "C", "D", "E", "F", "G", "H"].map String.toList)) :=
  ⟨[("MYLIST".toList, "$mylist0;$mylist1;".toList), ("MYLIST0".toList, "A;B;C;D;E".toList),
    ("MYLIST1".toList, "F;G;H".toList), ("OTHER".toList, "X".toList)], by decide +kernel, by decide +kernel⟩

/-- The hypotheses of `C21_chunks_partial` hold there. -/
example : Ident "mylist".toList ∧
    (∀ w ∈ ["A", "B", "C", "D", "E", "F", "G", "H"].map String.toList, GoodWord w) ∧
    (∀ j, j * 5 < 8 → "mylist".toList.length + (natToChars j).length ≤ 18) := by
  refine ⟨⟨by decide, by decide, ?_⟩, ?_, ?_⟩
  · intro c hc
    have : c = 'm' := by simpa using hc.symm
    subst this; decide
  · intro w hw
    simp only [List.map_cons, List.map_nil, List.mem_cons, List.not_mem_nil, or_false] at hw
    rcases hw with h | h | h | h | h | h | h | h <;> subst h <;> exact ⟨by decide, by decide, by decide⟩
  · intro j hj
    have : j = 0 ∨ j = 1 := by omega
    rcases this with h | h <;> subst h <;> decide +kernel

/-- Nested lists expand in order. -/
example : expand [("A".toList, "$A1;$A2".toList), ("A1".toList, "X;Y".toList), ("A2".toList, "Z".toList)] 50
    "$A B C".toList = .ok (table (["X", "Y", "Z", "B", "C"].map String.toList)) := by decide +kernel

end Iode.Lists
