import Verif.Model.AscText

/-!
# Equations in text form

The ascii format of equations (api/ascii/k_cceqs.cpp): a name, a formula, and the results of an estimation.

Simplifications: those of Model/Ascii.lean and Model/AscText.lean (`Conv` is the code page, values are exact, zero has no sign);
whether a formula compiles is a parameter (`valid`, of the name and the formula), and so is the sample of the variables of the
workspace; `clec` and `solved` are left out; a value of type `float` is a `Dbl`.
-/
namespace Iode
namespace Asc
open Yy Printf

/-- `KE_TABLE` (api/ascii/k_cceqs.cpp:24-47) in the order of `qsort` (api/ascii/k_cceqs.cpp:306), with the values of
    `IodeEquationAscii` (api/objs/equations.h:85-109). -/
def eqKeys : Keys Nat :=
  [(['B', 'L', 'O', 'C', 'K'], 0), (['C', 'O', 'M', 'M', 'E', 'N', 'T'], 1), (['D', 'A', 'T', 'E'], 9), (['D', 'W'], 19),
   (['F', 'S', 'T', 'A', 'T'], 16), (['G', 'L', 'S'], 8), (['I', 'N', 'F'], 7),
   (['I', 'N', 'S', 'T', 'R', 'U', 'M', 'E', 'N', 'T', 'S'], 2), (['L', 'O', 'G', 'L', 'I', 'K'], 20), (['L', 'S', 'Q'], 5),
   (['M', 'A', 'X', 'L', 'I', 'K'], 21), (['M', 'E', 'A', 'N', 'Y'], 13), (['R', '2'], 17), (['R', '2', 'A', 'D', 'J'], 18),
   (['S', 'A', 'M', 'P', 'L', 'E'], 4), (['S', 'S', 'R', 'E', 'S'], 14), (['S', 'T', 'D', 'E', 'R', 'R'], 15),
   (['S', 'T', 'D', 'E', 'V'], 12), (['Z', 'E', 'L', 'L', 'N', 'E', 'R'], 6), (['{'], 10), (['}'], 11)]

/-- `Equation` (api/objs/equations.h:118-131). -/
structure Eqn where
  endo : Text
  lec : Text
  method : Int
  sample : Sample
  comment : Text
  block : Text
  instruments : Text
  date : Int
  tests : List Dbl
  deriving DecidableEq, Repr

/-- The sample of an equation that was never estimated (api/objs/equations.h:302-308). -/
def noSmpl : Sample := ⟨⟨0, 0, Char.ofNat 0⟩, ⟨0, 0, Char.ofNat 0⟩, 0⟩

/-- What a function gives: a result, a null pointer or `false`, or an exception. -/
inductive Ans (α : Type) where
  | good (a : α)
  | bad
  | thrown
  deriving DecidableEq, Repr

/-! ## Loading -/

/-- `K_read_long` (api/utils/yy.cpp:71-102); `fuel` is more than the number of signs. -/
def readLong (tbl : Keys Nat) : Nat → Bool → St → Res (Int × St)
  | 0, _, _ => .err
  | n + 1, neg, st => (lxs tbl st).bind fun p =>
    match p.1 with
    | .raw (.long d) => .ok (if neg then -(Lec.natOf d : Int) else Lec.natOf d, p.2)
    | .raw (.special c) =>
      if c = '-' then readLong tbl n true p.2
      else if c = '+' then readLong tbl n false p.2
      else .ok (0, unread p.2)
    | _ => .ok (0, unread p.2)

/-- `std::string(K_read_str(yy))` (api/utils/yy.cpp:111-120): a string is made of a null pointer when there is no string. -/
def readStr (st : St) : Res (Text × St) :=
  (lxs eqKeys st).bind fun p =>
    match p.1 with
    | .raw (.string t) => .ok (cstr t, p.2)
    | _ => .ub

/-- The variables of `read_eq` (api/ascii/k_cceqs.cpp:104-110). -/
structure Acc where
  method : Int
  date : Int
  block : Text
  comment : Text
  instruments : Text
  smpl : Option Sample
  tests : List Dbl

/-- Their values before the loop (api/ascii/k_cceqs.cpp:68, 105-110). -/
def acc0 : Acc := ⟨0, 0, [], [], [], none, List.replicate 20 (.num 0)⟩

/-- The methods (api/ascii/k_cceqs.cpp:126-140, api/objs/equations.h:33-40). -/
def methodKey (k : Nat) : Option Int :=
  if k = 5 then some 0 else if k = 6 then some 1 else if k = 7 then some 2 else if k = 8 then some 3 else if k = 21 then some 4 else none

/-- The tests (api/ascii/k_cceqs.cpp:188-214, api/objs/equations.h:48-61). -/
def testKey (k : Nat) : Option Nat :=
  if k = 12 then some 1 else if k = 13 then some 2 else if k = 14 then some 3 else if k = 15 then some 4
  else if k = 16 then some 6 else if k = 17 then some 7 else if k = 18 then some 8 else if k = 19 then some 9
  else if k = 20 then some 10 else none

/-- `oem_to_utf8` of a string that must not be empty (api/ascii/k_cceqs.cpp:166-172, 178-184). -/
def readOem (cv : Conv) (st : St) : Res (Ans Text × St) :=
  (readStr st).bind fun r =>
    match toUtf8 cv r.1 with
    | none => .ok (.thrown, r.2)
    | some u => .ok (if u.isEmpty then .bad else .good u, r.2)

/-- One entry of `read_eq` that begins with a key word (api/ascii/k_cceqs.cpp:122-218). -/
def eqItem (cv : Conv) (k : Nat) (st : St) (a : Acc) : Res (Ans Acc × St) :=
  if k = 9 then (readLong eqKeys (st.text.length + 2) false st).bind fun r => .ok (.good { a with date := r.1 }, r.2)
  else if k = 4 then
    match readSmpl eqKeys st with
    | .err => .ok (.thrown, st)
    | .ub => .ub
    | .ok (none, s) => .ok (.bad, s)
    | .ok (some smp, s) => .ok (.good { a with smpl := some smp }, s)
  else if k = 0 then (readStr st).bind fun r => .ok (if r.1.isEmpty then .bad else .good { a with block := r.1 }, r.2)
  else if k = 1 then (readOem cv st).bind fun r =>
    .ok (match r.1 with
      | .good u => .good { a with comment := u }
      | .bad => .bad
      | .thrown => .thrown, r.2)
  else if k = 2 then (readOem cv st).bind fun r =>
    .ok (match r.1 with
      | .good u => .good { a with instruments := u }
      | .bad => .bad
      | .thrown => .thrown, r.2)
  else
    match methodKey k with
    | some m => .ok (.good { a with method := m }, st)
    | none =>
      match testKey k with
      | some i => (real eqKeys st).bind fun r => .ok (.good { a with tests := a.tests.set i (toFloat r.1) }, r.2)
      | none => .ok (.good a, st)

/-- The loop of `read_eq` (api/ascii/k_cceqs.cpp:110-220). -/
def eqItems (cv : Conv) : Nat → St → Acc → Res (Ans Acc × St)
  | 0, _, _ => .err
  | n + 1, st, a => (lxs eqKeys st).bind fun p =>
    match p.1 with
    | .raw .eof => .ok (.good a, unread p.2)
    | .raw (.word _) => .ok (.good a, unread p.2)
    | .raw _ => eqItems cv n p.2 a
    | .key k =>
      if k = 11 then .ok (.good a, p.2)
      else (eqItem cv k p.2 a).bind fun r =>
        match r.1 with
        | .good b => eqItems cv n r.2 b
        | .bad => .ok (.bad, r.2)
        | .thrown => .ok (.thrown, r.2)

/-- `Equation::set_sample` (api/objs/equations.h:298-342) when the sample of the variables is `vs` (`none`: not set or empty). -/
def setSmpl (vs : Option Sample) (fr upto : Text) : Res Sample :=
  if fr.isEmpty ∧ upto.isEmpty then .ok noSmpl
  else if fr.isEmpty ∨ upto.isEmpty then
    match vs with
    | none => .ok noSmpl
    | some s => Sample.ofStrings (if fr.isEmpty then s.start.toChars else fr) (if upto.isEmpty then s.stop.toChars else upto)
  else Sample.ofStrings fr upto

/-- The end of `read_eq` (api/ascii/k_cceqs.cpp:222-228): the constructor (api/objs/equations.h:134-153), where a formula that does
    not compile is replaced by nothing (api/objs/equations.h:243-257) and the comment is converted
    (api/objs/equations.h:353-357), the tests and the date. -/
def makeEq (cv : Conv) (valid : Text → Text → Bool) (vs : Option Sample) (w lec : Text) (a : Acc) : Res (Ans Eqn) :=
  match setSmpl vs ((a.smpl.map fun s => s.start.toChars).getD []) ((a.smpl.map fun s => s.stop.toChars).getD []) with
  | .ub => .ub
  | .err => .ok .thrown
  | .ok s =>
    match toOem cv a.comment with
    | none => .ok .thrown
    | some c => .ok (.good ⟨w, if valid w lec then lec else [], a.method, s, c, a.block, a.instruments, a.date, a.tests⟩)

/-- `read_eq` (api/ascii/k_cceqs.cpp:60-229). -/
def readEq (cv : Conv) (valid : Text → Text → Bool) (vs : Option Sample) (w : Text) (st : St) : Res (Ans Eqn × St) :=
  (lxs eqKeys st).bind fun p =>
    if p.1 = .key 10 then
      (readStr p.2).bind fun r =>
        match toUtf8 cv (wrap 60 r.1) with
        | none => .ok (.thrown, r.2)
        | some lec =>
          if lec.isEmpty then .ok (.bad, r.2)
          else (eqItems cv (r.2.text.length + 2) r.2 acc0).bind fun b =>
            match b.1 with
            | .good a => (makeEq cv valid vs w lec a).bind fun e => .ok (e, b.2)
            | .bad => .ok (.bad, b.2)
            | .thrown => .ok (.thrown, b.2)
    else
      (readStr (unread p.2)).bind fun r =>
        match toUtf8 cv (wrap 60 r.1) with
        | none => .ok (.thrown, r.2)
        | some lec =>
          if lec.isEmpty then .ok (.bad, r.2) else (makeEq cv valid vs w lec acc0).bind fun e => .ok (e, r.2)

/-- The loop of `KDBEquations::load_asc` (api/ascii/k_cceqs.cpp:322-374), which reads names with `YY_read`: the result and the
    equations read.  The name is cut (api/ascii/k_cceqs.cpp:338-339). -/
def eqLoop (cv : Conv) (valid : Text → Text → Bool) (vs : Option Sample) : Nat → St → SMap Eqn → Res (Ans Unit × SMap Eqn)
  | 0, _, _ => .err
  | n + 1, st, db => (rd st).bind fun p =>
    match p.1 with
    | .eof => .ok (.good (), db)
    | .word w => (readEq cv valid vs (w.take 20) p.2).bind fun r =>
      match r.1 with
      | .thrown => .ok (.thrown, db)
      | .bad => .ok (.bad, db)
      | .good e =>
        if checkName .equations (toKey .equations (w.take 20)) then
          eqLoop cv valid vs n r.2
            (SMap.insert (toKey .equations (w.take 20)) { e with block := if e.block.isEmpty then w.take 20 else e.block } db)
        else .ok (.bad, db)
    | _ => eqLoop cv valid vs n p.2 db

/-- `KDBEquations::load_asc` (api/ascii/k_cceqs.cpp:297-375) of a file with this content. -/
def loadEqs (cv : Conv) (valid : Text → Text → Bool) (vs : Option Sample) (t : Text) : Res (Ans Unit × SMap Eqn) :=
  eqLoop cv valid vs ((expand 0 t).length + 2) ⟨.err, false, expand 0 t⟩ []

/-! ## Saving -/

/-- `print_test` (api/ascii/k_cceqs.cpp:388-392). -/
def printTest (key : Text) (v : Dbl) : Text :=
  if v ≠ .num 0 ∧ isNumber v then
    '\t' :: (key ++ ' ' :: ((match v with
      | .num q => fmtG 8 q
      | _ => ['i', 'n', 'f']) ++ ['\n']))
  else []

/-- The tests that are written (api/ascii/k_cceqs.cpp:462-470). -/
def testNames : List (Text × Nat) :=
  [(['S', 'T', 'D', 'E', 'V'], 1), (['M', 'E', 'A', 'N', 'Y'], 2), (['S', 'S', 'R', 'E', 'S'], 3), (['S', 'T', 'D', 'E', 'R', 'R'], 4),
   (['F', 'S', 'T', 'A', 'T'], 6), (['R', '2'], 7), (['R', '2', 'A', 'D', 'J'], 8), (['D', 'W'], 9), (['L', 'O', 'G', 'L', 'I', 'K'], 10)]

/-- The line of the method (api/ascii/k_cceqs.cpp:409-429). -/
def methodLine (m : Int) : Text :=
  if m = 0 then ['\t', 'L', 'S', 'Q', '\n']
  else if m = 1 then ['\t', 'Z', 'E', 'L', 'L', 'N', 'E', 'R', '\n']
  else if m = 2 then ['\t', 'I', 'N', 'F', '\n']
  else if m = 3 then ['\t', 'G', 'L', 'S', '\n']
  else if m = 4 then ['\t', 'M', 'A', 'X', 'L', 'I', 'K', '\n']
  else "\t/* UNKNOWN ESTIMATION METHOD: ".toList ++ (intToChars m ++ "*/\n".toList)

/-- The comment (api/ascii/k_cceqs.cpp:436-443); `none`: the conversion fails. -/
def commentLine (cv : Conv) (t : Text) : Option Text :=
  if (trim t).isEmpty then some []
  else (toOem cv (trim t)).map fun o => ['\t', 'C', 'O', 'M', 'M', 'E', 'N', 'T', ' ', '"'] ++ (escape o ++ ['"', '\n'])

/-- The instruments (api/ascii/k_cceqs.cpp:445-450). -/
def instrLine (cv : Conv) (t : Text) : Option Text :=
  if (trim t).isEmpty then some []
  else (toOem cv t).map fun o =>
    ['\t', 'I', 'N', 'S', 'T', 'R', 'U', 'M', 'E', 'N', 'T', 'S', ' ', '"'] ++ (cstr o ++ ['"', '\n'])

/-- The results of the estimation (api/ascii/k_cceqs.cpp:452-471). -/
def estLines (e : Eqn) : Text :=
  if e.sample.nb ≠ 0 then
    ['\t', 'S', 'A', 'M', 'P', 'L', 'E', ' '] ++ (e.sample.start.toChars ++ (' ' :: (e.sample.stop.toChars ++
      (['\n', '\t', 'D', 'A', 'T', 'E', ' '] ++ (intToChars e.date ++ ('\n' ::
        testNames.flatMap fun k => printTest k.1 (e.tests.getD k.2 (.num 0))))))))
  else []

/-- `print_eq` (api/ascii/k_cceqs.cpp:404-474): whether there was no exception, and what is written. -/
def printEq (cv : Conv) (e : Eqn) : Bool × Text :=
  match toOem cv e.lec with
  | none => (false, [])
  | some l =>
    let head := ['{', '\n', '\t', '"'] ++ (cstr l ++ (['"', '\n'] ++ (methodLine e.method ++
      (['\t', 'B', 'L', 'O', 'C', 'K', ' ', '"'] ++ (cstr e.block ++ ['"', '\n'])))))
    match commentLine cv e.comment with
    | none => (false, head)
    | some c =>
      match instrLine cv e.instruments with
      | none => (false, head ++ c)
      | some i => (true, head ++ (c ++ (i ++ (estLines e ++ ['}', '\n']))))

/-- `KDBEquations::save_asc` (api/ascii/k_cceqs.cpp:486-526): the result and the content of the file. -/
def saveEqs (cv : Conv) (db : SMap Eqn) : Bool × Text :=
  (db.all fun e => (printEq cv e.2).1, db.flatMap fun e => e.1 ++ ' ' :: (printEq cv e.2).2)

end Asc
end Iode
