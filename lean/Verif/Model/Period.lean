import Verif.Model.Res

/-!
# Periods

Models `api/time/period.h`. `long`/`int` are unbounded integers here (years in use are far from overflow),
`char` is `Char`.
-/
namespace Iode

/-- `map_periodicities` (api/time/period.h:24-32). -/
def mapPeriodicities : Char → Option Int
  | 'Y' => some 1
  | 'S' => some 2
  | 'Q' => some 4
  | 'M' => some 12
  | 'W' => some 52
  | 'D' => some 365
  | _   => none

/-- C `toupper` in the "C" locale. -/
def toUpperC (c : Char) : Char :=
  if 97 ≤ c.toNat ∧ c.toNat ≤ 122 then Char.ofNat (c.toNat - 32) else c

/-- C `tolower` in the "C" locale. -/
def toLowerC (c : Char) : Char :=
  if 65 ≤ c.toNat ∧ c.toNat ≤ 90 then Char.ofNat (c.toNat + 32) else c

/-- `get_nb_periods_per_year` (api/time/period.h:44-54): throws for character 0 and unknown letters. -/
def nbPeriodsPerYear (ch : Char) : Res Int :=
  if ch.toNat = 0 then .err else Res.ofOption (mapPeriodicities (toUpperC ch))

/-- `struct Period` (api/time/period.h:79-84). -/
structure Period where
  year : Int
  step : Int
  periodicity : Char
  deriving Repr, DecidableEq

namespace Period

/-- `Period(year, periodicity, step)` (api/time/period.h:93-117). The letter is stored as given. -/
def make (year : Int) (periodicity : Char) (step : Int) : Res Period := do
  let nb ← nbPeriodsPerYear periodicity
  if step < 1 ∨ step > nb then .err else .ok ⟨year, step, periodicity⟩

/-- `Period::difference` (api/time/period.h:194-207). -/
def difference (p other : Period) : Res Int :=
  if p.periodicity ≠ other.periodicity then .err
  else do
    let nb ← nbPeriodsPerYear p.periodicity
    .ok (nb * (p.year - other.year) + (p.step - other.step))

/-- `Period::shift` (api/time/period.h:209-244). C++ `/` and `%` truncate: `Int.tdiv`, `Int.tmod`. -/
def shift (p : Period) (n : Int) : Res Period := do
  let nb ← nbPeriodsPerYear p.periodicity
  if n ≥ 0 then
    let sum := p.step + n
    .ok { p with year := p.year + (sum - 1).tdiv nb, step := 1 + (sum - 1).tmod nb }
  else
    let ss := p.step + n
    if ss ≤ 0 then
      let dy := 1 + (-ss).tdiv nb
      .ok { p with year := p.year - dy, step := dy * nb + ss }
    else
      .ok { p with step := ss }

end Period

/-! ## Text -/

/-- C `isdigit`. -/
def isDigitC (c : Char) : Bool := 48 ≤ c.toNat && c.toNat ≤ 57

/-- C `isspace`. -/
def isSpaceC (c : Char) : Bool := c.toNat = 32 || (9 ≤ c.toNat && c.toNat ≤ 13)

/-- Value of one digit character. -/
def digitOf (c : Char) : Nat := c.toNat - 48

/-- Value of a run of decimal digits, most significant first. -/
def digitsVal (acc : Nat) (l : List Char) : Nat :=
  l.foldl (fun a c => 10 * a + digitOf c) acc

/-- The magnitude part of `std::stoi`: longest run of digits, error when empty. -/
def stoiDigits (s : List Char) : Res Nat :=
  let ds := s.takeWhile isDigitC
  if ds.isEmpty then .err else .ok (digitsVal 0 ds)

/-- `std::stoi` in base 10: skips white space, optional sign, digits; trailing characters are ignored;
    throws when there is no digit or the value does not fit in a 32-bit `int`. -/
def stoi (s : List Char) : Res Int :=
  match s.dropWhile isSpaceC with
  | '-' :: r => do
      let v ← stoiDigits r
      if v > 2147483648 then .err else .ok (-(v : Int))
  | '+' :: r => do
      let v ← stoiDigits r
      if v > 2147483647 then .err else .ok (v : Int)
  | r => do
      let v ← stoiDigits r
      if v > 2147483647 then .err else .ok (v : Int)

/-- One decimal digit as a character. -/
def digitChar (n : Nat) : Char := Char.ofNat (48 + n)

/-- `std::to_string` of a natural number. -/
def natToChars (n : Nat) : List Char :=
  if n < 10 then [digitChar n] else natToChars (n / 10) ++ [digitChar (n % 10)]
  termination_by n

/-- `std::to_string` of an integer. -/
def intToChars (i : Int) : List Char :=
  if i < 0 then '-' :: natToChars i.natAbs else natToChars i.natAbs

namespace Period

/-- Character of a `std::string` at position `i` where `i ≤ size()`: the terminator reads as 0. -/
def charAt (s : List Char) (i : Nat) : Char := s.getD i (Char.ofNat 0)

/-- Step part of `Period(std::string)` (api/time/period.h:175-184). -/
def parseStep (s : List Char) : Res Int :=
  if s.length = 4 then .ok 1 else stoi (s.drop 5)

/-- `Period(std::string)` (api/time/period.h:126-192). The branch `size() == i` of the step is unreachable
    (a 4-character string is rejected by the periodicity test), it is kept here. -/
def parse (s : List Char) : Res Period :=
  if s.isEmpty then .err
  else if !(isDigitC (charAt s 0) && isDigitC (charAt s 1) && isDigitC (charAt s 2) && isDigitC (charAt s 3)) then .err
  else do
    let per := toUpperC (charAt s 4)
    let maxStep ← nbPeriodsPerYear per
    let y ← stoi (s.take 4)
    let year := if y < 50 then y + 2000 else if y < 200 then y + 1900 else y
    let step ← parseStep s
    if step > maxStep then .err
    else .ok ⟨year, step, per⟩

/-- `Period::to_string` (api/time/period.h:246-253). -/
def toChars (p : Period) : List Char :=
  if p.year = 0 ∨ p.periodicity.toNat = 0 ∨ p.step = 0 then []
  else intToChars p.year ++ [p.periodicity] ++ intToChars p.step

end Period
end Iode
