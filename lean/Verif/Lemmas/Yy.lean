import Verif.Model.Yy

/-! # Reading texts: the file delivers its stream; characters, words and numbers -/
namespace Iode
namespace Yy

/-! ## The file and its stream -/

theorem getcStr_spec (col : Nat) (s : Text) :
    (getcStr col s).1 = (expand col s).head? ∧ (getcStr col s).2.stream = (expand col s).tail := by
  induction s with
  | nil => exact ⟨rfl, rfl⟩
  | cons c r ih =>
    rw [getcStr.eq_def, expand.eq_def]
    simp only
    split
    · rename_i h0
      refine ⟨rfl, ?_⟩
      simp [File.stream, expand, h0]
    · split
      · have e : 8 - col % 8 = (7 - col % 8) + 1 := by omega
        rw [e, List.replicate_succ]
        exact ⟨rfl, by simp [File.stream, Nat.add_assoc]⟩
      · split
        · exact ⟨rfl, by simp [File.stream]⟩
        · split
          · exact ih
          · exact ⟨rfl, by simp [File.stream]⟩

/-- `YY_getc` delivers the first character of the stream and leaves the others. -/
theorem getc_stream (f : File) : (getc f).1 = f.stream.head? ∧ (getc f).2.stream = f.stream.tail := by
  obtain ⟨p, b, col, rest⟩ := f
  cases p with
  | cons c r => exact ⟨rfl, rfl⟩
  | nil =>
    cases b with
    | succ n =>
      refine ⟨by simp [getc, File.stream, List.replicate_succ], ?_⟩
      simp only [getc, File.stream, List.nil_append, List.replicate_succ, List.cons_append, List.tail_cons]
      rw [show col + 1 + n = col + (n + 1) by omega]
    | zero => simpa [getc, File.stream] using getcStr_spec col rest

/-- `YY_record` puts a text in front of the stream. -/
theorem record_stream (t : Text) (f : File) : (record t f).stream = t ++ f.stream := by
  simp [record, File.stream]

/-- `YY_ungetc` puts a character in front of the stream. -/
theorem ungetc_stream (c : Option Char) (f : File) : (ungetc c f).stream = c.toList ++ f.stream := by
  cases c with
  | none => rfl
  | some c => exact record_stream [c] f

/-! ## Spaces -/

theorem skipSpaces_cons {c : Char} (h : isSpace c = true) (s : Text) : skipSpaces (c :: s) = skipSpaces s := by
  simp [skipSpaces, List.dropWhile_cons, h]

theorem skipSpaces_stop {c : Char} (h : isSpace c = false) (s : Text) : skipSpaces (c :: s) = c :: s := by
  simp [skipSpaces, List.dropWhile_cons, h]

theorem skipSpaces_nil : skipSpaces [] = [] := rfl

theorem skipSpaces_idem (s : Text) : skipSpaces (skipSpaces s) = skipSpaces s := by
  induction s with
  | nil => rfl
  | cons c r ih =>
    cases h : isSpace c with
    | true => rw [skipSpaces_cons h, ih]
    | false => rw [skipSpaces_stop h, skipSpaces_stop h]

theorem skipSpaces_append {w : Text} (h : ∀ c ∈ w, isSpace c = true) (s : Text) : skipSpaces (w ++ s) = skipSpaces s := by
  induction w with
  | nil => rfl
  | cons c r ih =>
    rw [List.cons_append, skipSpaces_cons (h c (by simp)), ih fun c hc => h c (by simp [hc])]

theorem read_skip (s : Text) : read (skipSpaces s) = read s := by
  rw [read, read, skipSpaces_idem]

theorem read_space {c : Char} (h : isSpace c = true) (s : Text) : read (c :: s) = read s := by
  rw [read, read, skipSpaces_cons h]

theorem lex_skip {κ : Type} (tbl : Keys κ) (n : Nat) (s : Text) : lex tbl (n + 1) (skipSpaces s) = lex tbl (n + 1) s := by
  rw [lex, lex, read_skip]

theorem lex_space {κ : Type} (tbl : Keys κ) {c : Char} (h : isSpace c = true) (n : Nat) (s : Text) :
    lex tbl (n + 1) (c :: s) = lex tbl (n + 1) s := by
  rw [lex, lex, read_space h]

/-! ## Numbers -/

theorem readNum_digits {d : Text} (hd : ∀ c ∈ d, isNum c = true) (dbl ee sg : Bool) (acc s : Text) :
    readNum dbl ee sg acc (d ++ s) = readNum dbl ee (sg && d.isEmpty) (acc ++ d) s := by
  induction d generalizing sg acc with
  | nil => simp
  | cons c r ih =>
    rw [List.cons_append, readNum, if_pos (hd c (by simp)), ih fun c hc => hd c (by simp [hc])]
    simp

theorem readNum_end {s : Text} (h : ∀ c, s.head? = some c → isNum c = false ∧ c ≠ 'e' ∧ c ≠ 'E' ∧ c ≠ '.') (dbl ee : Bool)
    (acc : Text) : readNum dbl ee false acc s = (acc, dbl, s) := by
  cases s with
  | nil => rfl
  | cons c r =>
    obtain ⟨h1, h2, h3, h4⟩ := h c rfl
    simp [readNum, h1, h2, h3, h4]

end Yy
end Iode
