import Verif.Model.Lec

/-!
# How a LEC formula is written

The spelling of the tokens, what may be between them, and when a token ends.  Nothing here refers to the reader
(`Model/Yy.lean`, `Model/LecLex.lean`).
-/
namespace Iode
namespace Lec
namespace Written

abbrev Text := List Char

/-- Blanks, tabs, new lines, vertical tabs and form feeds. -/
def White (c : Char) : Prop := c.toNat = 32 ∨ c.toNat = 9 ∨ c.toNat = 10 ∨ c.toNat = 11 ∨ c.toNat = 12

instance (c : Char) : Decidable (White c) := inferInstanceAs (Decidable (_ ∨ _))

def Digit (c : Char) : Prop := 48 ≤ c.toNat ∧ c.toNat ≤ 57
def Lower (c : Char) : Prop := 97 ≤ c.toNat ∧ c.toNat ≤ 122
def Upper (c : Char) : Prop := 65 ≤ c.toNat ∧ c.toNat ≤ 90

/-- Characters of a name or key word. -/
def NameCh (c : Char) : Prop := Upper c ∨ Lower c ∨ Digit c ∨ c = '_'

instance (c : Char) : Decidable (Digit c) := inferInstanceAs (Decidable (_ ∧ _))
instance (c : Char) : Decidable (Lower c) := inferInstanceAs (Decidable (_ ∧ _))
instance (c : Char) : Decidable (Upper c) := inferInstanceAs (Decidable (_ ∧ _))
instance (c : Char) : Decidable (NameCh c) := inferInstanceAs (Decidable (_ ∨ _))

/-- A text in which no comment ends. -/
def NoEnd : Text → Prop
  | [] => True
  | c :: r => ¬ (c = '*' ∧ r.head? = some '/') ∧ NoEnd r

/-- What may be between two tokens: white space and comments. -/
inductive Gap : Text → Prop where
  | nil : Gap []
  | white {c g} : White c → Gap g → Gap (c :: g)
  | block {b g} : NoEnd b → Gap g → Gap ('/' :: '*' :: (b ++ '*' :: '/' :: g))
  | line {b g} : (∀ c ∈ b, c.toNat ≠ 10) → Gap g → Gap ('/' :: '/' :: (b ++ '\n' :: g))

/-- The words that are no names. -/
def keywords : List (String × RTok) :=
  -- operators and constants
  [("and", .op .and), ("or", .op .or), ("not", .fun (.fn .not)),
   ("pi", .val .pi), ("e", .val .e), ("t", .val .t), ("i", .val .i), ("euro", .val .euro),
  -- functions of values
   ("abs", .fun (.fn .abs)), ("acos", .fun (.fn .acos)), ("asin", .fun (.fn .asin)), ("atan", .fun (.fn .atan)),
   ("ceil", .fun (.fn .ceil)), ("cos", .fun (.fn .cos)), ("cosh", .fun (.fn .cosh)), ("div0", .fun (.fn .div0)),
   ("exp", .fun (.fn .expn)), ("floor", .fun (.fn .floor)), ("gamma", .fun (.fn .gamma)), ("grandom", .fun (.fn .grandom)),
   ("if", .fun (.fn .if)), ("int", .fun (.fn .int)), ("isan", .fun (.fn .fnisan)), ("lcount", .fun (.fn .lcount)),
   ("lmean", .fun (.fn .lmean)), ("ln", .fun (.fn .ln)), ("log", .fun (.fn .log)), ("lprod", .fun (.fn .lprod)),
   ("lstderr", .fun (.fn .lstderr)), ("lsum", .fun (.fn .lsum)), ("max", .fun (.fn .max)), ("min", .fun (.fn .min)),
   ("rad", .fun (.fn .rad)), ("random", .fun (.fn .random)), ("round", .fun (.fn .round)), ("sign", .fun (.fn .sign)),
   ("sin", .fun (.fn .sin)), ("sinh", .fun (.fn .sinh)), ("sqrt", .fun (.fn .sqrt)), ("tan", .fun (.fn .tan)),
   ("tanh", .fun (.fn .tanh)), ("urandom", .fun (.fn .urandom)),
  -- functions of time
   ("l", .fun (.tfn .lag)), ("d", .fun (.tfn .diff)), ("r", .fun (.tfn .rapp)), ("dln", .fun (.tfn .dln)),
   ("grt", .fun (.tfn .grt)), ("ma", .fun (.tfn .mavg)), ("mavg", .fun (.tfn .mavg)), ("vmax", .fun (.tfn .vmax)),
   ("vmin", .fun (.tfn .vmin)), ("sum", .fun (.tfn .sum)), ("prod", .fun (.tfn .prod)), ("mean", .fun (.tfn .mean)),
   ("stderr", .fun (.tfn .stderr)), ("dlag", .fun (.tfn .dlag)), ("lastobs", .fun (.tfn .lastobs)),
  -- functions of several expressions
   ("corr", .fun (.mtfn .corr)), ("covar", .fun (.mtfn .covar)), ("covar0", .fun (.mtfn .covar0)),
   ("var", .fun (.mtfn .var)), ("stddev", .fun (.mtfn .stddev)), ("index", .fun (.mtfn .index)), ("acf", .fun (.mtfn .acf)),
   ("interpol", .fun (.mtfn .interpol)), ("app", .fun (.mtfn .app)), ("appdif", .fun (.mtfn .dapp)),
   ("dapp", .fun (.mtfn .dapp)), ("hp", .fun (.mtfn .hp)), ("hpstd", .fun (.mtfn .hpstd))]

/-- Symbols of one character that begin no other symbol. -/
def simple : List (Char × RTok) :=
  [('+', .op .plus), ('-', .op .minus), ('=', .op .eq), ('^', .op .exp), (')', .closep), (',', .comma), ('[', .openb),
   (']', .closeb)]

/-- Symbols of one character that may begin a longer one, with the characters that make it longer. -/
def longer : List (Char × RTok × List Char) :=
  [('*', .op .times, ['*']), ('<', .op .lt, ['=', '>']), ('>', .op .gt, ['=']), ('!', .fun (.fn .not), ['=']),
   ('(', .openp, [')'])]

/-- Symbols of two characters. -/
def pairs : List (Char × Char × RTok) :=
  [('*', '*', .op .exp), ('<', '=', .op .le), ('<', '>', .op .ne), ('>', '=', .op .ge), ('!', '=', .op .ne),
   ('(', ')', .ocpar)]

/-- The next character that is not white. -/
def next (s : Text) : Option Char := (s.dropWhile fun c => decide (White c)).head?

/-- A name or key word ends here. -/
def NameEnd (s : Text) : Prop := ∀ c, s.head? = some c → ¬ NameCh c ∧ c.toNat < 128

/-- A number ends here. -/
def NumEnd (s : Text) : Prop := ∀ c, s.head? = some c → ¬ Digit c ∧ c ≠ 'e' ∧ c ≠ 'E' ∧ c ≠ '.'

/-- Letters of periodicities. -/
def periodLetters : List Char := ['Y', 'S', 'Q', 'M', 'W', 'D', 'y', 's', 'q', 'm', 'w', 'd']

/-- Capital letter and number of periods of a year. -/
def perYear : Char → Char × Nat
  | 'Y' | 'y' => ('Y', 1)
  | 'S' | 's' => ('S', 2)
  | 'Q' | 'q' => ('Q', 4)
  | 'M' | 'm' => ('M', 12)
  | 'W' | 'w' => ('W', 52)
  | _ => ('D', 365)

/-- Years of two or three digits belong to 1950-2099. -/
def century (y : Nat) : Nat := if y < 50 then 2000 + y else if y < 200 then 1900 + y else y

/-- Value of decimal digits. -/
def dec : Text → Nat
  | [] => 0
  | c :: r => (c.toNat - 48) * 10 ^ r.length + dec r

def Digits (d : Text) : Prop := ∀ c ∈ d, Digit c

/-- An exponent: `e` or `E`, a sign or nothing, digits. -/
inductive Expo : Text → Int → Prop where
  | none : Expo [] 0
  | plain {c d} : c = 'e' ∨ c = 'E' → Digits d → d ≠ [] → Expo (c :: d) (dec d)
  | plus {c d} : c = 'e' ∨ c = 'E' → Digits d → d ≠ [] → Expo (c :: '+' :: d) (dec d)
  | minus {c d} : c = 'e' ∨ c = 'E' → Digits d → d ≠ [] → Expo (c :: '-' :: d) (-(dec d : Int))

/-- The number `i.f` times ten to the power `e`. -/
def number (i f : Text) (e : Int) : Rat :=
  ((dec i : Rat) + (dec f : Rat) / 10 ^ f.length) * 10 ^ e.toNat / 10 ^ (-e).toNat

/-- A number that is not a whole number of at most nine digits. -/
inductive Decimal : Text → Rat → Prop where
  | whole {i x e} : Digits i → i ≠ [] → Expo x e → (x ≠ [] ∨ 10 ≤ i.length) → Decimal (i ++ x) (number i [] e)
  | point {i f x e} : Digits i → Digits f → (i ≠ [] ∨ f ≠ []) → Expo x e →
      Decimal (i ++ '.' :: (f ++ x)) (number i f e)

/-- A name of a scalar: small letters, digits and underscores. -/
def ScalarName (w : Text) : Prop := ∀ c ∈ w, Lower c ∨ Digit c ∨ c = '_'

instance (d : Text) : Decidable (Digits d) := inferInstanceAs (Decidable (∀ c ∈ d, _))
instance (d : Text) : Decidable (ScalarName d) := inferInstanceAs (Decidable (∀ c ∈ d, _))

instance decNoEnd : (d : Text) → Decidable (NoEnd d)
  | [] => .isTrue trivial
  | _ :: r => have := decNoEnd r; inferInstanceAs (Decidable (_ ∧ _))

instance : (d : Text) → Decidable (NameEnd d)
  | [] => .isTrue fun _ h => by cases h
  | c :: r => if h : ¬ NameCh c ∧ c.toNat < 128 then .isTrue fun d e => by cases e; exact h else .isFalse fun k => h (k c rfl)

instance : (d : Text) → Decidable (NumEnd d)
  | [] => .isTrue fun _ h => by cases h
  | c :: r => if h : ¬ Digit c ∧ c ≠ 'e' ∧ c ≠ 'E' ∧ c ≠ '.' then .isTrue fun d e => by cases e; exact h
    else .isFalse fun k => h (k c rfl)

/-- `Item rnd txt tok rest`: the text `txt`, with `rest` behind it, is the token `tok`.  Decimal numbers are rounded by
    `rnd`. -/
inductive Item (rnd : Rat → Rat) : Text → RTok → Text → Prop where
  | simple {c tok rest} : (c, tok) ∈ simple → Item rnd [c] tok rest
  | divide {rest} : rest.head? ≠ some '/' → rest.head? ≠ some '*' → Item rnd ['/'] (.op .divide) rest
  | longer {c tok ext rest} : (c, tok, ext) ∈ longer → (∀ d, next rest = some d → d ∉ ext) → Item rnd [c] tok rest
  | pair {c w d tok rest} : (c, d, tok) ∈ pairs → (∀ x ∈ w, White x) → Item rnd (c :: (w ++ [d])) tok rest
  | keyword {w tok rest} : (w, tok) ∈ keywords → NameEnd rest → Item rnd w.toList tok rest
  | coef {c w rest} : ¬ Digit c → ScalarName (c :: w) → w.length ≤ 19 → (∀ k ∈ keywords, k.1.toList ≠ c :: w) →
      NameEnd rest → Item rnd (c :: w) (.coef (c :: w)) rest
  | var {c w rest} : ¬ Digit c → (∀ x ∈ c :: w, NameCh x) → ¬ ScalarName (c :: w) → w.length ≤ 19 → NameEnd rest →
      Item rnd (c :: w) (.var (c :: w)) rest
  | long {d rest} : Digits d → d ≠ [] → d.length ≤ 9 → NumEnd rest → (∀ c, rest.head? = some c → c ∉ periodLetters) →
      Item rnd d (.cst (.long (dec d))) rest
  | period {y c st rest} : Digits y → y ≠ [] → y.length ≤ 9 → c ∈ periodLetters → Digits st → st.length ≤ 9 → 1 ≤ dec st →
      dec st ≤ (perYear c).2 → NumEnd rest →
      Item rnd (y ++ c :: st) (.cst (.period ⟨century (dec y), dec st, (perYear c).1⟩)) rest
  | real {d q rest} : Decimal d q → d.length < 255 → NumEnd rest → Item rnd d (.cst (.real (rnd q).num (rnd q).den)) rest

/-- `Laid rnd ts s`: the text `s` is made of the tokens `ts` with gaps before, between and behind them, possibly with a last
    comment `//`, or ends with a semicolon (what is behind it is not read). -/
inductive Laid (rnd : Rat → Rat) : List RTok → Text → Prop where
  | nil {g} : Gap g → Laid rnd [] g
  | last {g b} : Gap g → (∀ c ∈ b, c.toNat ≠ 10) → Laid rnd [] (g ++ '/' :: '/' :: b)
  | stop {g s} : Gap g → Laid rnd [.eoe] (g ++ ';' :: s)
  | cons {g txt tok ts s} : Gap g → Item rnd txt tok s → Laid rnd ts s → Laid rnd (tok :: ts) (g ++ (txt ++ s))

end Written
end Lec
end Iode
