import Verif.Model.Res

/-!
# Reading texts: the `YY` functions of scr4

`YY_open`, `YY_getc`, `YY_read` and `YY_lex` (scr4/s_ybase.c, s_yread.c, s_ylex.c) cut a text into words, numbers, strings and
special characters; formulas and the ascii formats of all objects are read with them.

A `YYFILE` on a string is modelled as it is (`File`) together with the sequence of characters that `YY_getc` will still
deliver (`File.stream`); `getc_stream` and `ungetc_stream` (Lemmas/Yy.lean) prove that all that matters is this sequence, and
the functions below work on it.

Simplifications
* a byte is written as a `Char`;
* the directives `#include`, `#define`, `#ifdef` ... and the macros they define are not modelled: `#` gives an error and no
  macro is defined;
* `YY_MAX_STRING_LG` and `YY_MAX_RECORD` (40000 characters in one element, 40000 characters pushed back) are not modelled.
-/
namespace Iode
namespace Yy

abbrev Text := List Char

/-! ## Characters -/

/-- `SCR_is_space` (scr4/s_stuppr.c:115-120). -/
def isSpace (c : Char) : Bool :=
  c.toNat = 32 || c.toNat = 9 || c.toNat = 10 || c.toNat = 13 || c.toNat = 11 || c.toNat = 12

/-- The accented letters of `SCR_upper_char` (scr4/s_stuppr.c:46-87), bytes of the OEM code page. -/
def accents : List Nat :=
  [210, 211, 212, 144, 130, 138, 137, 136, 160, 133, 131, 181, 183, 182, 142, 132, 214, 222, 215, 216, 161, 141, 140, 139,
   224, 227, 226, 153, 162, 149, 148, 147, 233, 235, 234, 154, 163, 150, 151, 129, 135]

/-- `SCR_is_alpha` (scr4/s_stisal.c:17-24). -/
def isAlpha (c : Char) : Bool :=
  (65 ≤ c.toNat && c.toNat ≤ 90) || (97 ≤ c.toNat && c.toNat ≤ 122) || accents.contains c.toNat

/-- `SCR_is_num` (scr4/s_stisal.c:38-42). -/
def isNum (c : Char) : Bool := 48 ≤ c.toNat && c.toNat ≤ 57

/-- Characters of a word (scr4/s_yread.c:595). -/
def isWord (c : Char) : Bool := isAlpha c || isNum c || c = '_'

/-! ## The file -/

/-- The members of `YYFILE` (scr4/s_yy.h:51-82) used by `YY_getc` on a string: the characters pushed back (next one first),
    the blanks still due for a tab, the column, and the rest of the string. -/
structure File where
  pushed : Text
  blks : Nat
  col : Nat
  rest : Text

/-- The part of `YY_getc` that takes a character from the string (scr4/s_ybase.c:300-337). -/
def getcStr (col : Nat) : Text → Option Char × File
  | [] => (none, ⟨[], 0, col, []⟩)
  | c :: r =>
    if c.toNat = 0 then (none, ⟨[], 0, col, c :: r⟩)
    else if c.toNat = 9 then (some ' ', ⟨[], 7 - col % 8, col + 1, r⟩)
    else if c.toNat = 10 then (some c, ⟨[], 0, 0, r⟩)
    else if c.toNat = 26 || c.toNat = 13 then getcStr col r
    else (some c, ⟨[], 0, col + 1, r⟩)

/-- `YY_getc` (scr4/s_ybase.c:285-338); `none` is `YY_EOF`. -/
def getc (f : File) : Option Char × File :=
  match f.pushed with
  | c :: r => (some c, { f with pushed := r })
  | [] =>
    match f.blks with
    | n + 1 => (some ' ', { f with blks := n, col := f.col + 1 })
    | 0 => getcStr f.col f.rest

/-- `YY_record` (scr4/s_ybase.c:198-233): the text will be read next. -/
def record (t : Text) (f : File) : File := { f with pushed := t ++ f.pushed }

/-- `YY_ungetc` (scr4/s_ybase.c:246-255). -/
def ungetc (c : Option Char) (f : File) : File :=
  match c with
  | none => f
  | some c => record [c] f

/-- The characters a string delivers from a column on: tabs become blanks up to the next multiple of 8, returns and
    `\032` are left out. -/
def expand (col : Nat) : Text → Text
  | [] => []
  | c :: r =>
    if c.toNat = 0 then []
    else if c.toNat = 9 then List.replicate (8 - col % 8) ' ' ++ expand (col + 1 + (7 - col % 8)) r
    else if c.toNat = 10 then c :: expand 0 r
    else if c.toNat = 26 || c.toNat = 13 then expand col r
    else c :: expand (col + 1) r

/-- The characters that will be delivered. -/
def File.stream (f : File) : Text := f.pushed ++ List.replicate f.blks ' ' ++ expand (f.col + f.blks) f.rest

/-! ## Elements -/

/-- Types of elements returned by `YY_read` (scr4/s_yy.h:22-32); `err` stands for `YY_ERROR` and `YY_UNKNOWN`. -/
inductive Raw where
  | eof
  | long (digits : Text)
  | double (text : Text)
  | string (text : Text)
  | special (c : Char)
  | comment
  | letter (c : Char)
  | word (w : Text)
  | err
  deriving Repr, DecidableEq

/-- `YY_skip_spaces` (scr4/s_yread.c:94-103). -/
def skipSpaces (s : Text) : Text := s.dropWhile isSpace

/-- `YY_comment` (scr4/s_yread.c:11-31): up to and with the next `*/`. -/
def comment : Text → Raw × Text
  | [] => (.eof, [])
  | c :: r =>
    if c = '*' then
      match r with
      | '/' :: r' => (.comment, r')
      | _ => comment r
    else comment r

/-- `YY_skip_to_eol` (scr4/s_yread.c:145-170). -/
def skipToEol : Text → Text
  | [] => []
  | c :: r => if c.toNat = 10 then r else skipToEol r

/-- `YY_read_word` (scr4/s_yread.c:586-603). -/
def readWord (s : Text) : Text × Text := (s.takeWhile isWord, s.dropWhile isWord)

/-- The loop of `YY_read_num` (scr4/s_yread.c:651-689): `dbl` a point or an exponent was read, `ee` an exponent was read,
    `sg` the letter of the exponent has just been read, so that a sign belongs to the number; the text read, whether it is
    a double, and the rest. -/
def readNum (dbl ee sg : Bool) (acc : Text) : Text → Text × Bool × Text
  | [] => (acc, dbl, [])
  | c :: r =>
    if isNum c then readNum dbl ee false (acc ++ [c]) r
    else if c = 'e' || c = 'E' then
      if ee then (acc, dbl, c :: r) else readNum true true true (acc ++ ['E']) r
    else if sg && (c = '-' || c = '+') then readNum dbl ee false (acc ++ [c]) r
    else if c = '.' then
      if dbl then (acc, dbl, c :: r) else readNum true ee false (acc ++ ['.']) r
    else (acc, dbl, c :: r)

/-- The end of `YY_read_num` (scr4/s_yread.c:691-700): a number of at most 9 digits is a long. -/
def numRaw (p : Text × Bool × Text) : Raw × Text :=
  (if p.2.1 = false ∧ p.1.length < 10 then .long p.1 else .double p.1, p.2.2)

/-- The value of a digit of `U_hex_to_dec` (scr4/s_yread.c:746-759). -/
def hexVal (c : Char) : Int := if isNum c then c.toNat - 48 else 10 + (c.toNat : Int) - 65

/-- A number stored in an `unsigned char`. -/
def byteOf (n : Int) : Char := Char.ofNat (n % 256).toNat

/-- `YY_read_escape` (scr4/s_yread.c:521-575), behind the backslash; the end of the text gives `YY_EOF`, stored as
    255.  `atoi` of `\\d` takes the leading digits. -/
def readEscape : Text → Char × Text
  | [] => (byteOf (-1), [])
  | c :: r =>
    if c = 'a' then (byteOf 7, r)
    else if c = 'b' then (byteOf 8, r)
    else if c = 'f' then (byteOf 12, r)
    else if c = 'n' then (byteOf 10, r)
    else if c = 'r' then (byteOf 13, r)
    else if c = 't' then (byteOf 9, r)
    else if c = 'v' then (byteOf 11, r)
    else if c = 'x' || c = 'X' then
      match r with
      | a :: b :: r' => (byteOf (16 * hexVal a + hexVal b), r')
      | _ => (byteOf (-1), [])
    else if c = 'd' || c = 'D' then
      match r with
      | a :: b :: d :: r' => (byteOf (decVal [a, b, d]), r')
      | _ => (byteOf (-1), [])
    else if 48 ≤ c.toNat && c.toNat ≤ 55 then
      match r with
      | a :: b :: r' => (byteOf (64 * ((c.toNat : Int) - 48) + 8 * ((a.toNat : Int) - 48) + ((b.toNat : Int) - 48)), r')
      | _ => (byteOf (-1), [])
    else (c, r)
where
  /-- `atoi` of three characters (without sign and leading blanks) -/
  decVal (t : Text) : Int := (t.takeWhile isNum).foldl (fun n c => 10 * n + ((c.toNat : Int) - 48)) 0

/-- `YY_read_control` (scr4/s_yread.c:498-508), behind `^`. -/
def readControl : Text → Char × Text
  | [] => ('^', [])
  | c :: r =>
    if c = '[' then (byteOf 27, r)
    else if 65 ≤ c.toNat && c.toNat ≤ 90 then (byteOf (c.toNat - 64), r)
    else if 97 ≤ c.toNat && c.toNat ≤ 122 then (byteOf (c.toNat - 96), r)
    else ('^', c :: r)

/-- `YY_read_string` (scr4/s_yread.c:716-744); `fuel` is the number of characters. -/
def readString (quote : Char) : Nat → Text → Text × Text
  | 0, s => ([], s)
  | n + 1, s =>
    match s with
    | [] => ([], [])
    | c :: r =>
      if c = '\\' then
        let p := readEscape r
        let q := readString quote n p.2
        (p.1 :: q.1, q.2)
      else if c = '^' then
        let p := readControl r
        let q := readString quote n p.2
        (p.1 :: q.1, q.2)
      else if c = quote then ([], r)
      else
        let q := readString quote n r
        (c :: q.1, q.2)

/-- `YY_read_letter` (scr4/s_yread.c:612-634), behind the quote. -/
def readLetter (s : Text) : Raw × Text :=
  let p : Char × Text := match s with
    | [] => (byteOf (-1), [])
    | c :: r => if c = '\\' then readEscape r else if c = '^' then readControl r else (c, r)
  (.letter p.1, (p.2.dropWhile (fun c => c ≠ '\'')).drop 1)

/-- `YY_read` behind the spaces, with a first character that starts no comment (scr4/s_yread.c:391-485). -/
def readFrom (c : Char) (r : Text) : Raw × Text :=
  if c = '"' then
    let p := readString '"' (r.length + 1) r
    (.string p.1, p.2)
  else if c = '\'' then readLetter r
  else if c = '$' then (.special '$', r)
  else if c = '#' then (.err, r.dropWhile isWord)
  else if isNum c then numRaw (readNum false false false [] (c :: r))
  else if isAlpha c || c = '_' then (.word (readWord (c :: r)).1, (readWord (c :: r)).2)
  else if c = '.' then
    match r with
    | d :: _ => if isNum d then numRaw (readNum true false false ['.'] r) else (.special '.', r)
    | [] => (.special '.', [])
  else (.special c, r)

/-- `YY_read` (scr4/s_yread.c:336-487) with the comments `/* */` and `//`. -/
def read (s : Text) : Raw × Text :=
  match skipSpaces s with
  | [] => (.eof, [])
  | c :: r =>
    if c = '/' then
      match r with
      | '*' :: r' => comment r'
      | '/' :: r' => (.comment, skipToEol r')
      | _ => readFrom c r
    else readFrom c r

/-! ## Key words -/

/-- A table of key words, in alphabetical order. -/
abbrev Keys (κ : Type) := List (Text × κ)

/-- The entries `YY_find_oper` looks at (scr4/s_ylex.c:26-36): the value of the operator made of this character, and the
    second characters and values of the entries behind it that begin with the same character. -/
def operKeys {κ : Type} (tbl : Keys κ) (c : Char) : Option (κ × List (Option Char × κ)) :=
  match tbl.dropWhile (fun e => e.1 ≠ [c]) with
  | [] => none
  | e :: es => some (e.2, (es.takeWhile (fun e => e.1.head? = some c)).map (fun e => (e.1[1]?, e.2)))

/-- `YY_find_oper` (scr4/s_ylex.c:21-39): spaces may be inside an operator of two characters. -/
def findOper {κ : Type} (tbl : Keys κ) (c : Char) (s : Text) : Option κ × Text :=
  match operKeys tbl c with
  | none => (none, s)
  | some (d, []) => (some d, s)
  | some (d, es) =>
    match skipSpaces s with
    | [] => (some d, [])
    | ch :: r =>
      match es.find? (fun e => e.1 = some ch) with
      | some e => (some e.2, r)
      | none => (some d, ch :: r)

/-- `YY_find_string` (scr4/s_ylex.c:48-58). -/
def findWord {κ : Type} (tbl : Keys κ) (w : Text) : Option κ := (tbl.find? (fun e => e.1 = w)).map (·.2)

/-- Result of `YY_lex`: a key word or an element. -/
inductive Lexed (κ : Type) where
  | key (k : κ)
  | raw (r : Raw)
  deriving Repr, DecidableEq

/-- `YY_lex2` on one element that is not a comment (scr4/s_ylex.c:86-98), with `YY_CASE_SENSITIVE`. -/
def classify {κ : Type} (tbl : Keys κ) (p : Raw × Text) : Lexed κ × Text :=
  match p.1 with
  | .word w => (match findWord tbl w with
    | some k => .key k
    | none => .raw (.word w), p.2)
  | .special c =>
    let q := findOper tbl c p.2
    (match q.1 with
    | some k => .key k
    | none => .raw (.special c), q.2)
  | r => (.raw r, p.2)

/-- `YY_lex` (scr4/s_ylex.c:75-100, 136-139): comments are skipped; `fuel` is more than the number of comments. -/
def lex {κ : Type} (tbl : Keys κ) : Nat → Text → Lexed κ × Text
  | 0, s => (.raw .err, s)
  | n + 1, s => if (read s).1 = .comment then lex tbl n (read s).2 else classify tbl (read s)

end Yy
end Iode
