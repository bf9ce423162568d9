import Verif.Model.Expand

/-!
# What a line of a report says

A line is a list of pieces: text, references to macros and arguments, text that is not interpreted, expressions between braces, calls of functions.
-/
namespace Iode.Expand

/-- The characters that are doubled in a text. -/
def Special (c : Char) : Prop := c = '%' ∨ c = '{' ∨ c = '@' ∨ c = '`'

instance (c : Char) : Decidable (Special c) := by unfold Special; infer_instance

/-- Text as it is written in a report. -/
def escape (t : Text) : Text := t.flatMap fun c => if Special c then [c, c] else [c]

/-- What stands between two percent signs. -/
inductive Ref where
  | name (x : Text)
  | arg (i : Nat)
  | count
  | all

inductive Atom where
  | lit (t : Text)
  | ref (flag : Option Char) (r : Ref)

inductive Tok where
  | atom (a : Atom)
  | quote (t : Text)
  | brace (body : List Atom)
  | call (f : Text) (body : List Atom)

def Ref.text : Ref → Text
  | .name x => x
  | .arg i => natToChars i
  | .count => ['0']
  | .all => ['*']

def Atom.text : Atom → Text
  | .lit t => escape t
  | .ref flag r => '%' :: (flag.toList ++ (r.text ++ ['%']))

def bodyText (b : List Atom) : Text := b.flatMap Atom.text

def Tok.text : Tok → Text
  | .atom a => a.text
  | .quote t => '`' :: (t ++ ['`'])
  | .brace b => '{' :: (bodyText b ++ ['}'])
  | .call f b => '@' :: (f ++ '(' :: (bodyText b ++ [')']))

def lineText (ts : List Tok) : Text := ts.flatMap Tok.text

/-- The name of a macro: it does not begin like an argument or a flag, and has no special characters. -/
def Ref.Good : Ref → Prop
  | .name x => (∀ c ∈ x, c ≠ '%' ∧ c ≠ '{' ∧ c ≠ '@') ∧ ∃ c r, x = c :: r ∧ isDigitC c = false ∧ c ≠ '*' ∧ c ≠ '!' ∧ c ≠ '#' ∧ c ≠ '-'
  | .arg i => 0 < i ∧ i ≤ 2147483647
  | _ => True

def Atom.Good : Atom → Prop
  | .lit _ => True
  | .ref flag r => (∀ c, flag = some c → c = '!' ∨ c = '#' ∨ c = '-') ∧ r.Good

/-- No backquotes in the text inside braces and calls. -/
def Atom.Inner : Atom → Prop
  | .lit t => '`' ∉ t
  | .ref _ (.name x) => '`' ∉ x
  | _ => True

def Tok.Good : Tok → Prop
  | .atom a => a.Good
  | .quote t => t ≠ [] ∧ '`' ∉ t
  | .brace b => (∀ a ∈ b, a.Good ∧ a.Inner) ∧ bodyText b ≠ [] ∧ (bodyText b).head? ≠ some '{' ∧ '}' ∉ bodyText b
  | .call f b => (f ≠ [] ∧ ∀ c ∈ f, wordCh c = true) ∧ (∀ a ∈ b, a.Good ∧ a.Inner) ∧ ∀ c ∈ bodyText b, c ≠ '(' ∧ c ≠ ')' ∧ c ≠ '"'

variable {σ : Type}

/-- The usual state of a report: backquotes are interpreted, and at most all the arguments have been shifted out. -/
def Env.Usual (E : Env σ) (s : σ) : Prop := E.noparse s = true ∧ 0 ≤ E.arg0 s ∧ E.arg0 s < (E.argv s).length

/-- States that are usual and stay so, whatever expressions and functions do. -/
def Env.Std (E : Env σ) (I : σ → Prop) : Prop := ∀ s, I s → E.Usual s ∧ (∀ t, I (E.eval s t).1) ∧ ∀ f a, I (E.fn s f a).1

/-- The arguments that have not been shifted out. -/
def remaining (E : Env σ) (s : σ) : List Text := ((E.argv s).drop 1).drop (E.arg0 s).toNat

/-- The value of a reference, if it has one. -/
def Ref.val (E : Env σ) (s : σ) : Ref → Option Text
  | .name x => E.look s x
  | .arg i => (remaining E s)[i - 1]?
  | .count => some (natToChars (remaining E s).length)
  | .all => some (List.intercalate [';'] (remaining E s))

/-- In lower case, in upper case, or only the letters, digits and underscores. -/
def changed (flag : Option Char) (t : Text) : Text :=
  if flag = some '!' then t.map toLowerC
  else if flag = some '#' then t.map toUpperC
  else if flag = some '-' then t.filter wordCh
  else t

/-- Text stands for itself; a reference without value too (without its flag). -/
def Atom.val (E : Env σ) (s : σ) : Atom → Text
  | .lit t => t
  | .ref flag r => changed flag ((r.val E s).getD ('%' :: (r.text ++ ['%'])))

def bodyVal (E : Env σ) (s : σ) (b : List Atom) : Text := b.flatMap (Atom.val E s)

/-- What a piece is replaced by, and the state after it. -/
def Tok.val (E : Env σ) (s : σ) : Tok → σ × Text
  | .atom a => (s, a.val E s)
  | .quote t => (s, t)
  | .brace b => ((E.eval s (bodyVal E s b)).1, (E.eval s (bodyVal E s b)).2.getD [])
  | .call f b =>
    let v := E.fn s f (split ['(', ','] (bodyVal E s b))
    (v.1, v.2.getD ('@' :: (f ++ '(' :: (bodyVal E v.1 b ++ [')']))))

/-- The pieces from left to right. -/
def lineVal (E : Env σ) (s : σ) : List Tok → σ × Text
  | [] => (s, [])
  | t :: ts =>
    let v := t.val E s
    let w := lineVal E v.1 ts
    (w.1, v.2 ++ w.2)

/-- The words of a text without quotes. -/
def words (seps : List Char) (t : Text) : List Text := (t.splitOnP (· ∈ seps)).filter (· ≠ [])

end Iode.Expand
