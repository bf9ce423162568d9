import Verif.Model.Sample

/-!
# Model of the compiler of generalised samples (api/gsample/c_cc.cpp)

The lexer `YY_lex` is not modelled: the input is a list of tokens.  `BOS`, `EOS`, `NOW` and their variants are one token carrying
the period they stand for in the current workspace; `PER` and `SUB` are not modelled.  A letter that is no periodicity, which
`COL_read_per` gives back to the lexer, is rejected at once here.  `COL_read_per` looks for `<` and `>` right after a year without
skipping spaces, so that `2000 <1` is read as a shift of the column; the token list does not show spaces.
-/
namespace Iode.GSample

/-- `COL_DIFF` ... `COL_BASE`, gsample.h 33-46. -/
inductive Op where
  | diff | mdiff | mean | grt | mgrt | add | base
  deriving DecidableEq, Repr

/-- Tokens, c_cc.cpp 71-125. -/
inductive Tok where
  /-- `YY_LONG` -/
  | num (n : Int)
  /-- letter read by `YY_getc` after a year -/
  | letter (c : Char)
  /-- `BOS`, `EOS`, `NOW` ... -/
  | anchor (p : Period)
  | op (o : Op)
  | opar | cpar | obrack | cbrack | colon | semicolon | star | left | right
  deriving DecidableEq, Repr

/-- `FIL`: first file, operator and second file. -/
abbrev Fil := Int × Option (Op × Int)

/-- `COL` without the values: `per` is `cl_per[0]`, `opy` is `cl_opy` with `cl_per[1]` (`none` for `COL_NOP`), `file` is
`cl_fnb[0]`, `opf` is `cl_opf` with `cl_fnb[1]`. -/
structure Col where
  per : Period
  opy : Option (Op × Period)
  file : Int
  opf : Option (Op × Int)
  deriving DecidableEq, Repr

/-! ## Periods -/

/-- `get_pos_in_char_array(periodicities, ch1)` after conversion to upper case, with `L_Period_NB`, c_cc.cpp 604-618. -/
def stepsOf (c : Char) : Option Int := mapPeriodicities (toUpperC c)

/-- One shift of a period, c_cc.cpp 631-652. -/
def shiftPer (left : Bool) (n : Int) (p : Period) : Res Period :=
  if n = 0 then
    if left then .ok { p with step := 1 }
    else (nbPeriodsPerYear p.periodicity).bind fun nb => .ok { p with step := nb }
  else p.shift (if left then -n else n)

/-- The shifts after a period, c_cc.cpp 623-658. -/
def readShifts (p : Period) : List Tok → Res (Period × List Tok)
  | .left :: .num n :: ts => if n < 0 then .err else (shiftPer true n p).bind fun p => readShifts p ts
  | .right :: .num n :: ts => if n < 0 then .err else (shiftPer false n p).bind fun p => readShifts p ts
  | .left :: _ => .err
  | .right :: _ => .err
  | ts => .ok (p, ts)

/-- The periodicity after the year, c_cc.cpp 603-622. -/
def readLetter (p : Period) : List Tok → Res (Period × List Tok)
  | .letter c :: ts => match stepsOf c with
    | none => .err
    | some nb => match ts with
      | .num s :: ts => if s < 1 ∨ s > nb then .err else readShifts ⟨p.year, s, toUpperC c⟩ ts
      | _ => .err
  | ts => readShifts p ts

/-- `COL_read_per`, c_cc.cpp 551-661. -/
def readPer : List Tok → Res (Period × List Tok)
  | .num y :: ts => readLetter ⟨if y < 50 then y + 2000 else if y < 200 then y + 1900 else y, 1, 'Y'⟩ ts
  | .anchor p :: ts => readLetter p ts
  | _ => .err

/-- `COL_read_y`, c_cc.cpp 677-713. -/
def readY (ts : List Tok) : Res (List Col × List Tok) :=
  (readPer ts).bind fun (p, ts) => match ts with
  | .op o :: ts => (readPer ts).bind fun (q, ts) => .ok ([⟨p, some (o, q), 0, none⟩], ts)
  | ts => .ok ([⟨p, none, 0, none⟩], ts)

/-! ## Repetitions and files -/

/-- The increment, c_cc.cpp 774-793. -/
def readIncr (nb : Int) : List Tok → Res ((Int × Int) × List Tok)
  | .star :: .op .diff :: .num n :: ts => if toShort n < 0 then .err else .ok ((nb, toShort (toShort n * -1)), ts)
  | .star :: .num n :: ts => if toShort n < 0 then .err else .ok ((nb, toShort n), ts)
  | .star :: _ => .err
  | ts => .ok ((nb, 1), ts)

/-- `COL_read_rep`, c_cc.cpp 761-794; both numbers are `short`. -/
def readRep : List Tok → Res ((Int × Int) × List Tok)
  | .num n :: ts => if toShort n < 0 then .err else readIncr (toShort n) ts
  | _ => .err

/-- The operators between files, c_cc.cpp 829. -/
def fileOp : Op → Bool
  | .add | .diff | .grt | .mean | .base => true
  | _ => false

/-- `COL_read_1f`, c_cc.cpp 814-841. -/
def readFile : List Tok → Res (Fil × List Tok)
  | .num f :: ts => if f < 1 ∨ f > 10 then .err else match ts with
    | .op o :: ts' => if fileOp o then (match ts' with
        | .num g :: ts => .ok ((f, some (o, toShort g)), ts)
        | _ => .err)
      else .ok ((f, none), ts)
    | ts => .ok ((f, none), ts)
  | _ => .err

/-- `COL_read_f`, c_cc.cpp 863-887, at most `n` rounds. -/
def readFiles : Nat → List Tok → Res (List Fil × List Tok)
  | 0, _ => .err
  | n + 1, ts => (readFile ts).bind fun (f, ts) => match ts with
    | .semicolon :: ts => (readFiles n ts).bind fun (fs, ts) => .ok (f :: fs, ts)
    | .cbrack :: ts => .ok ([f], ts)
    | _ => .err

/-! ## Columns -/

/-- `COL_shift`, c_cc.cpp 908-936: `nb` is negated for every column when shifting to the left. -/
def shiftCols (left : Bool) : Int → List Col → Res (List Col)
  | _, [] => .ok []
  | nb, c :: cs =>
    if nb = 0 then
      (if left then .ok 1 else nbPeriodsPerYear c.per.periodicity).bind fun s =>
        (shiftCols left nb cs).bind fun r =>
          .ok ({ c with per := { c.per with step := s }, opy := c.opy.map fun (o, q) => (o, { q with step := s }) } :: r)
    else
      let nb := if left then -nb else nb
      (c.per.shift nb).bind fun p => match c.opy with
      | none => (shiftCols left nb cs).bind fun r => .ok ({ c with per := p } :: r)
      | some (o, q) => (q.shift nb).bind fun q => (shiftCols left nb cs).bind fun r => .ok ({ c with per := p, opy := some (o, q) } :: r)

/-- The copy of a column shifted by `d`, c_cc.cpp 994-998: the second period of a base is not shifted. -/
def repeatCol (d : Int) (c : Col) : Res Col :=
  (c.per.shift d).bind fun p => match c.opy with
  | none => .ok { c with per := p }
  | some (.base, q) => .ok { c with per := p, opy := some (.base, q) }
  | some (o, q) => (q.shift d).bind fun q => .ok { c with per := p, opy := some (o, q) }

/-- The loop over the files, c_cc.cpp 991-1003, with `COL_apply_fil` (457-465): a column that has files is taken once. -/
def withFiles (fs : List Fil) (c : Col) : List Col := if c.file = 0 then fs.map fun f => { c with file := f.1, opf := f.2 } else [c]

/-- The loop over the columns of one repetition, c_cc.cpp 989-1004. -/
def repeatCols (fs : List Fil) (d : Int) : List Col → Res (List Col)
  | [] => .ok []
  | c :: cs => (repeatCol d c).bind fun c => (repeatCols fs d cs).bind fun r => .ok (withFiles fs c ++ r)

/-- The loop over the repetitions, c_cc.cpp 987-1005, `n` rounds left. -/
def constructLoop (cs : List Col) (fs : List Fil) (incr : Int) : Nat → Int → Res (List Col)
  | 0, _ => .ok []
  | n + 1, i => (repeatCols fs (i * incr) cs).bind fun a => (constructLoop cs fs incr n (i + 1)).bind fun r => .ok (a ++ r)

/-- `COL_construct`, c_cc.cpp 966-1034, without the columns already there (`shiftdir` is always 0). -/
def construct (cs : List Col) (fs : Option (List Fil)) (rep : Int × Int) : Res (List Col) :=
  let fs := match fs with
    | none => [(0, none)]
    | some fs => fs
  if rep.1 = 0 then constructLoop cs fs 1 1 0 else constructLoop cs fs rep.2 rep.1.toNat 0

/-- The variables of `COL_read_cols`: `cls`, `cltmp`, `rep`, `fils`. -/
structure St where
  cls : List Col
  tmp : Option (List Col)
  rep : Int × Int
  fils : Option (List Fil)

def St.start : St := ⟨[], none, (0, 1), none⟩

/-- `COL_read_cols`, c_cc.cpp 1085-1190, at most `n` tokens in each loop; both `)` and the end of the text end a group. -/
def readCols : Nat → St → List Tok → Res (List Col × List Tok)
  | 0, _, _ => .err
  | n + 1, s, ts => match ts with
    | [] => match s.tmp with
      | none => .err
      | some cs => (construct cs s.fils s.rep).bind fun r => .ok (s.cls ++ r, [])
    | .cpar :: ts => match s.tmp with
      | none => .err
      | some cs => (construct cs s.fils s.rep).bind fun r => .ok (s.cls ++ r, ts)
    | .semicolon :: ts => match s.tmp with
      | none => .err
      | some cs => (construct cs s.fils s.rep).bind fun r => readCols n ⟨s.cls ++ r, none, (0, 1), none⟩ ts
    | .num y :: ts => match s.tmp with
      | some _ => .err
      | none => (readY (.num y :: ts)).bind fun (cs, ts) => readCols n { s with tmp := some cs } ts
    | .anchor p :: ts => match s.tmp with
      | some _ => .err
      | none => (readY (.anchor p :: ts)).bind fun (cs, ts) => readCols n { s with tmp := some cs } ts
    | .opar :: ts => match s.tmp with
      | some _ => .err
      | none => (readCols n St.start ts).bind fun (cs, ts) => readCols n { s with tmp := some cs } ts
    | .colon :: ts => match s.tmp with
      | none => .err
      | some _ => if s.rep.1 > 0 then .err else (readRep ts).bind fun (r, ts) => readCols n { s with rep := r } ts
    | .obrack :: ts => match s.tmp, s.fils with
      | some _, none => (readFiles n ts).bind fun (fs, ts) => readCols n { s with fils := some fs } ts
      | _, _ => .err
    | .left :: .num k :: ts => match s.tmp with
      | none => .err
      | some cs => if k < 0 then .err else (shiftCols true k cs).bind fun cs => readCols n { s with tmp := some cs } ts
    | .right :: .num k :: ts => match s.tmp with
      | none => .err
      | some cs => if k < 0 then .err else (shiftCols false k cs).bind fun cs => readCols n { s with tmp := some cs } ts
    | _ => .err

/-- `COL_cc`, c_cc.cpp 1201-1237: columns without a file get file 1. -/
def compile (ts : List Tok) : Res (List Col) :=
  (readCols (ts.length + 1) St.start ts).bind fun (cs, _) =>
    .ok (cs.map fun c => if c.file = 0 then { c with file := 1, opf := none } else c)

end Iode.GSample
