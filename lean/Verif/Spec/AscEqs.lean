import Verif.Spec.AscScl
import Verif.Model.Sample

/-!
# Texts of equations, as described to users

An equation is a name and a formula between quotes, or a name and, between braces, a formula and what is known of its estimation.
Independent of Model/AscEqs.lean: only values (`Printf.Dbl`) and samples are those of the model.
-/
namespace Iode
namespace Asc
namespace Written
open Lec.Written Printf Decimals

/-! ## Single precision -/

/-- The finite numbers a `float` can hold when there is no upper limit: 24 binary digits, the last one not below `2 ^ -149`. -/
def BinaryF (q : Rat) : Prop := ∃ m e : Int, |m| < (2 : Int) ^ 24 ∧ -149 ≤ e ∧ q = m * (2 : Rat) ^ e

/-- The finite numbers a `float` can hold. -/
def Single (q : Rat) : Prop := BinaryF q ∧ |q| < (2 : Rat) ^ 128

/-- `x` is a number of 24 binary digits (not below `2 ^ -149`), and none is nearer to `r`. -/
def NearestF (r x : Rat) : Prop := BinaryF x ∧ ∀ s, BinaryF s → |r - x| ≤ |r - s|

/-! ## Layout -/

/-- The names of the methods. -/
def methods : List String := ["LSQ", "ZELLNER", "INF", "GLS", "MAXLIK"]

/-- The names of the tests and their places. -/
def testPlaces : List (String × Nat) :=
  [("STDEV", 1), ("MEANY", 2), ("SSRES", 3), ("STDERR", 4), ("FSTAT", 6), ("R2", 7), ("R2ADJ", 8), ("DW", 9), ("LOGLIK", 10)]

/-- What may be said of an equation. -/
inductive Item where
  | method (m : Nat)
  | date (d : Int)
  | sample (s : Sample)
  | block (t : List Char)
  | comment (t : List Char)
  | instruments (t : List Char)
  | test (i : Nat) (v : Dbl)

/-- A text that begins with what is said of an equation; the rest of the text. -/
inductive Items (missing : Dbl) (rnd : Rat → Dbl) : List Item → List Char → List Char → Prop where
  | nil {s} : Items missing rnd [] s s
  | method {g w m is s s'} : Gap g → methods[m]? = some w → NameEnd s → Items missing rnd is s s' →
      Items missing rnd (.method m :: is) (g ++ (w.toList ++ s)) s'
  | date {g g' d is s s'} : Gap g → Gap g' → g' ≠ [] → Digits d → d ≠ [] → d.length ≤ 9 → NumEnd s → Items missing rnd is s s' →
      Items missing rnd (.date (dec d) :: is) (g ++ ("DATE".toList ++ (g' ++ (d ++ s)))) s'
  | before {g g' g'' d is s s'} : Gap g → Gap g' → g' ≠ [] → Gap g'' → Digits d → d ≠ [] → d.length ≤ 9 → NumEnd s →
      Items missing rnd is s s' →
      Items missing rnd (.date (-(dec d)) :: is) (g ++ ("DATE".toList ++ (g' ++ '-' :: (g'' ++ (d ++ s))))) s'
  | sample {g g1 g2 smp is s s'} : Gap g → Gap g1 → g1 ≠ [] → Gap g2 → g2 ≠ [] → NumEnd s → Items missing rnd is s s' →
      Items missing rnd (.sample smp :: is)
        (g ++ ("SAMPLE".toList ++ (g1 ++ (smp.start.toChars ++ (g2 ++ (smp.stop.toChars ++ s)))))) s'
  | block {g g' t b is s s'} : Gap g → Gap g' → Lit t b → Items missing rnd is s s' →
      Items missing rnd (.block t :: is) (g ++ ("BLOCK".toList ++ (g' ++ '"' :: (b ++ '"' :: s)))) s'
  | comment {g g' t b is s s'} : Gap g → Gap g' → Lit t b → Items missing rnd is s s' →
      Items missing rnd (.comment t :: is) (g ++ ("COMMENT".toList ++ (g' ++ '"' :: (b ++ '"' :: s)))) s'
  | instruments {g g' t b is s s'} : Gap g → Gap g' → Lit t b → Items missing rnd is s s' →
      Items missing rnd (.instruments t :: is) (g ++ ("INSTRUMENTS".toList ++ (g' ++ '"' :: (b ++ '"' :: s)))) s'
  | test {g w i v is s s1 s'} : Gap g → (w, i) ∈ testPlaces → NameEnd s → Vals missing rnd [v] s s1 → Items missing rnd is s1 s' →
      Items missing rnd (.test i v :: is) (g ++ (w.toList ++ s)) s'

/-- An equation as it is written. -/
structure EDef where
  name : List Char
  formula : List Char
  items : List Item

/-- A text of equations. -/
inductive ELaid (missing : Dbl) (rnd : Rat → Dbl) : List EDef → List Char → Prop where
  | nil {g} : Gap g → ELaid missing rnd [] g
  | short {g w g' t b r s} : Gap g → ObjName w → Gap g' → Lit t b → ELaid missing rnd r s →
      ELaid missing rnd (⟨w, t, []⟩ :: r) (g ++ (w ++ (g' ++ '"' :: (b ++ '"' :: s))))
  | full {g w g1 g2 t b is g3 r s s'} : Gap g → ObjName w → Gap g1 → Gap g2 → Lit t b → Items missing rnd is s (g3 ++ '}' :: s') →
      Gap g3 → ELaid missing rnd r s' →
      ELaid missing rnd (⟨w, t, is⟩ :: r) (g ++ (w ++ (g1 ++ '{' :: (g2 ++ '"' :: (b ++ '"' :: s)))))

/-! ## Meaning -/

/-- The last entry of a kind. -/
def lastOf {α : Type} (f : Item → Option α) (is : List Item) : Option α := (is.filterMap f).getLast?

def Item.method? : Item → Option Nat
  | .method m => some m
  | _ => none

def Item.date? : Item → Option Int
  | .date d => some d
  | _ => none

def Item.sample? : Item → Option Sample
  | .sample s => some s
  | _ => none

def Item.block? : Item → Option (List Char)
  | .block t => some t
  | _ => none

def Item.comment? : Item → Option (List Char)
  | .comment t => some t
  | _ => none

def Item.instruments? : Item → Option (List Char)
  | .instruments t => some t
  | _ => none

def Item.test? (i : Nat) : Item → Option Dbl
  | .test j v => if j = i then some v else none
  | _ => none

/-- What is left of a test that is written with 8 digits and read again: zero for tests that are zero or missing. -/
def RestoredT (number : Dbl → Bool) (v w : Dbl) : Prop :=
  ((number v = false ∨ v = .num 0) ∧ w = .num 0) ∨
    (number v = true ∧ ∃ q r x y, v = .num q ∧ q ≠ 0 ∧ w = .num y ∧ Nearest 10 8 q r ∧ NearestD r x ∧ NearestF x y)

end Written
end Asc
end Iode
