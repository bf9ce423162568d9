import Verif.Model.AscEqs

/-!
# Tables in text form

The ascii format of tables (api/ascii/k_cctbl.cpp): a name and, between braces, the settings, the dividers and the lines.

Simplifications: those of Model/Ascii.lean and Model/AscText.lean; whether a formula compiles is a parameter (`valid`); the
attributes of a cell are below 128 (`char`); `T_GRAPHDEFAULT` is a line (api/objs/tables.h:152); the number behind `DIM` fits into an `int`.  `.err` is the result of a loop that is not
at its end when all the steps are used.
-/
namespace Iode
namespace Asc
open Yy Printf

/-- The content of a cell: a text, or an identity (`none` is the null pointer). -/
inductive TBody where
  | str (t : Text)
  | lec (l : Option Text)
  deriving DecidableEq, Repr

/-- `TableCell` (api/objs/tables.h:163-170). -/
structure TCell where
  body : TBody
  attr : Nat
  deriving DecidableEq, Repr

/-- `TableLine` (api/objs/tables.h:417-427). -/
structure TLine where
  type : Nat
  graph : Nat
  right : Bool
  cells : List TCell
  deriving DecidableEq, Repr

/-- `Table` (api/objs/tables.h:546-570); `divider` are the cells of the line of dividers. -/
structure Tab where
  language : Nat
  gridx : Int
  gridy : Int
  axis : Int
  align : Int
  ncols : Int
  repeatCols : Int
  divider : List TCell
  lines : List TLine
  zmin : Dbl
  zmax : Dbl
  ymin : Dbl
  ymax : Dbl
  attr : Int
  box : Int
  shadow : Int
  deriving DecidableEq, Repr

/-! ## Cells -/

/-- `TableCell::set_align` (api/objs/tables.h:250-254). -/
def setAlign (a : Nat) (c : TCell) : TCell := { c with attr := a + c.attr % 8 }

/-- `set_bold(true)`, `set_italic(true)`, `set_underline(true)` (api/objs/tables.h:261-290): `b` is 1, 2 or 4. -/
def setFont (b : Nat) (c : TCell) : TCell := { c with attr := if c.attr / b % 2 = 1 then c.attr else c.attr + b }

/-- The three fonts off. -/
def noFont (c : TCell) : TCell := { c with attr := c.attr / 8 * 8 }

/-- The new cell of `read_cell` (api/ascii/k_cctbl.cpp:43, api/objs/tables.h:174-181). -/
def newCell : TCell := ⟨.str [], 16⟩

/-- `TableCell::set_text` (api/objs/k_tbl.cpp:48-80): `back()` of an empty string is undefined. -/
def cellText (u : Text) (c : TCell) : Res TCell :=
  let c1 := if c.attr / 8 * 8 = 64 then setAlign 16 c else c
  let c2 := if u.contains '#' then setAlign 8 c1 else c1
  match u with
  | [] => .ok { c2 with body := .str [] }
  | b :: r =>
    let t := if b = '"' then r else b :: r
    match t.getLast? with
    | none => .ub
    | some z => .ok { c2 with body := .str (if z = '"' then t.dropLast else t) }

/-- `TableCell::set_lec` (api/objs/k_tbl.cpp:82-104) and `set_align(TABLE_CELL_DECIMAL)`. -/
def cellLec (valid : Text → Bool) (u : Text) (c : TCell) : TCell :=
  setAlign 64 { c with body := .lec (if u.isEmpty then none else some (setLec valid u)) }

/-- The loop of `read_cell` (api/ascii/k_cctbl.cpp:44-104): `ok`, the cell, the element that was read. -/
def cellLoop (cv : Conv) (valid : Text → Bool) : Nat → Bool → TCell → Lexed Nat → St → Res (Ans TCell × St)
  | 0, _, _, _, _ => .err
  | n + 1, ok, c, l, st =>
    match l with
    | .key k =>
      if k = 32 ∨ k = 16 ∨ k = 8 ∨ k = 64 then (lxs tblKeys st).bind fun p => cellLoop cv valid n ok (setAlign k c) p.1 p.2
      else if k = 2 ∨ k = 1 ∨ k = 4 then (lxs tblKeys st).bind fun p => cellLoop cv valid n ok (setFont k c) p.1 p.2
      else if k = 0 then (lxs tblKeys st).bind fun p => cellLoop cv valid n ok (noFont c) p.1 p.2
      else if k = 114 then
        if ok then .ok (.good c, unread st)
        else (lxs tblKeys st).bind fun q =>
          match q.1 with
          | .raw (.string t) =>
            match toUtf8 cv (cstr t) with
            | none => .ok (.thrown, q.2)
            | some u => (lxs tblKeys q.2).bind fun p => cellLoop cv valid n true (cellLec valid u c) p.1 p.2
          | _ => (lxs tblKeys (unread q.2)).bind fun p => cellLoop cv valid n true c p.1 p.2
      else .ok (.good c, unread st)
    | .raw (.string t) =>
      if ok then .ok (.good c, unread st)
      else
        match toUtf8 cv (cstr t) with
        | none => .ok (.thrown, st)
        | some u => (cellText u c).bind fun c1 => (lxs tblKeys st).bind fun p => cellLoop cv valid n true c1 p.1 p.2
    | .raw _ => .ok (.good c, unread st)

/-- `read_cell(yy, 0)` (api/ascii/k_cctbl.cpp:29-109). -/
def readCell (cv : Conv) (valid : Text → Bool) (st : St) : Res (Ans TCell × St) :=
  (lxs tblKeys st).bind fun p => cellLoop cv valid (p.2.text.length + 2) false newCell p.1 p.2

/-- `*read_cell(yy, YY_STRING)` (api/ascii/k_cctbl.cpp:29-109, 216-217): a null pointer is dereferenced when there is no string. -/
def readTitle (cv : Conv) (valid : Text → Bool) (st : St) : Res (Ans TCell × St) :=
  (lxs tblKeys st).bind fun p =>
    match p.1 with
    | .raw (.string t) => cellLoop cv valid (p.2.text.length + 2) false newCell (.raw (.string t)) p.2
    | _ => .ub

/-- Cells one after the other (api/ascii/k_cctbl.cpp:128-136, 261-265). -/
def readCells (cv : Conv) (valid : Text → Bool) : Nat → St → Res (Ans (List TCell) × St)
  | 0, st => .ok (.good [], st)
  | n + 1, st => (readCell cv valid st).bind fun p =>
    match p.1 with
    | .good c => (readCells cv valid n p.2).bind fun q =>
      .ok (match q.1 with
        | .good cs => .good (c :: cs)
        | .bad => .bad
        | .thrown => .thrown, q.2)
    | .bad => .ok (.bad, p.2)
    | .thrown => .ok (.thrown, p.2)

/-! ## Lines -/

/-- `read_line` (api/ascii/k_cctbl.cpp:170-269): the line read so far, the line read. -/
def lineLoop (cv : Conv) (valid : Text → Bool) (ncols : Int) : Nat → Option TLine → St → Res (Ans (Option TLine) × St)
  | 0, _, _ => .err
  | n + 1, cur, st => (lxs tblKeys st).bind fun p =>
    match p.1 with
    | .raw .eof => .ok (.good cur, unread p.2)
    | .key k =>
      if k = 32 ∨ k = 16 ∨ k = 8 ∨ k = 64 ∨ k = 2 ∨ k = 1 ∨ k = 4 ∨ k = 0 then lineLoop cv valid ncols n cur p.2
      else if k = 126 then
        match cur with
        | none => .ub
        | some l => lineLoop cv valid ncols n (some { l with right := false }) p.2
      else if k = 127 then
        match cur with
        | none => .ub
        | some l => lineLoop cv valid ncols n (some { l with right := true }) p.2
      else if k = 128 ∨ k = 130 ∨ k = 129 then
        match cur with
        | none => .ub
        | some l => lineLoop cv valid ncols n (some { l with graph := if k = 128 then 0 else if k = 130 then 1 else 2 }) p.2
      else if cur.isSome then .ok (.good cur, unread p.2)
      else if k = 111 ∨ k = 106 ∨ k = 116 ∨ k = 105 then lineLoop cv valid ncols n (some ⟨k, 0, false, []⟩) p.2
      else if k = 113 then (readTitle cv valid p.2).bind fun q =>
        match q.1 with
        | .good c => lineLoop cv valid ncols n (some ⟨113, 0, false, [c]⟩) q.2
        | .bad => .ok (.bad, q.2)
        | .thrown => .ok (.thrown, q.2)
      else if k = 109 then .ok (.good (some ⟨113, 0, false, [newCell]⟩), unread p.2)
      else (readCells cv valid ncols.toNat (unread p.2)).bind fun q =>
        match q.1 with
        | .good cs => lineLoop cv valid ncols n (some ⟨110, 0, false, cs⟩) q.2
        | .bad => .ok (.bad, q.2)
        | .thrown => .ok (.thrown, q.2)
    | .raw _ =>
      if cur.isSome then .ok (.good cur, unread p.2)
      else (readCells cv valid ncols.toNat (unread p.2)).bind fun q =>
        match q.1 with
        | .good cs => lineLoop cv valid ncols n (some ⟨110, 0, false, cs⟩) q.2
        | .bad => .ok (.bad, q.2)
        | .thrown => .ok (.thrown, q.2)

/-! ## Tables -/

/-- `(char) n`. -/
def toChar8 (n : Int) : Int := (n + 128) % 256 - 128

/-- `K_read_long` with enough fuel. -/
def long (st : St) : Res (Int × St) := readLong tblKeys (st.text.length + 2) false st

/-- `K_read_align` (api/utils/yy.cpp:210-227). -/
def readAlign (st : St) : Res (Int × St) :=
  (lxs tblKeys st).bind fun p =>
    .ok (match p.1 with
      | .key k => if k = 16 then (0, p.2) else if k = 8 then (1, p.2) else if k = 32 then (2, p.2) else (0, unread p.2)
      | _ => (0, unread p.2))

/-- A value stored in a `float`. -/
def readFloat (st : St) : Res (Dbl × St) := (real tblKeys st).bind fun r => .ok (toFloat r.1, r.2)

/-- `Table(dim)` (api/objs/k_tbl.cpp:341-346, 399-402, api/objs/tables.h:546-570, 182-197). -/
def newTab (valid : Text → Bool) (dim : Nat) : Tab :=
  { language := 100, gridx := 0, gridy := 0, axis := 0, align := 0, ncols := toShort dim, repeatCols := 0,
    divider := ⟨.lec (some (setLec valid ['1'])), 16⟩ :: List.replicate (dim - 1) ⟨.lec none, 64⟩, lines := [],
    zmin := toFloat na, zmax := toFloat na, ymin := toFloat na, ymax := toFloat na, attr := 0, box := 0, shadow := 0 }

/-- One entry of `read_tbl` (api/ascii/k_cctbl.cpp:314-365); other elements are skipped, the end of the file as well. -/
def tblEntry (cv : Conv) (valid : Text → Bool) (k : Nat) (t : Tab) (st : St) : Res (Ans Tab × St) :=
  if k = 101 ∨ k = 102 ∨ k = 100 then .ok (.good { t with language := k }, st)
  else if k = 104 then (readCells cv valid t.ncols.toNat st).bind fun r =>
    .ok (match r.1 with
      | .good cs => .good { t with divider := cs ++ t.divider.drop cs.length }
      | .bad => .bad
      | .thrown => .thrown, r.2)
  else if k = 123 then (long st).bind fun r => .ok (.good { t with box := toChar8 r.1 }, r.2)
  else if k = 124 then (long st).bind fun r => .ok (.good { t with axis := toChar8 r.1 }, r.2)
  else if k = 121 then (long st).bind fun r => .ok (.good { t with gridx := toChar8 r.1 }, r.2)
  else if k = 122 then (long st).bind fun r => .ok (.good { t with gridy := toChar8 r.1 }, r.2)
  else if k = 117 then (readFloat st).bind fun r => .ok (.good { t with ymin := r.1 }, r.2)
  else if k = 118 then (readFloat st).bind fun r => .ok (.good { t with ymax := r.1 }, r.2)
  else if k = 119 then (readFloat st).bind fun r => .ok (.good { t with zmin := r.1 }, r.2)
  else if k = 120 then (readFloat st).bind fun r => .ok (.good { t with zmax := r.1 }, r.2)
  else if k = 125 then (readAlign st).bind fun r => .ok (.good { t with align := r.1 }, r.2)
  else if k = 109 then (lineLoop cv valid t.ncols (st.text.length + 3) none st).bind fun r =>
    .ok (match r.1 with
      | .good l => .good { t with lines := t.lines ++ l.toList }
      | .bad => .bad
      | .thrown => .thrown, r.2)
  else .ok (.good t, st)

/-- The loop of `read_tbl` (api/ascii/k_cctbl.cpp:307-367). -/
def tblLoop (cv : Conv) (valid : Text → Bool) : Nat → Tab → St → Res (Ans Tab × St)
  | 0, _, _ => .err
  | n + 1, t, st => (lxs tblKeys st).bind fun p =>
    match p.1 with
    | .key k =>
      if k = 108 then .ok (.good t, p.2)
      else (tblEntry cv valid k t p.2).bind fun r =>
        match r.1 with
        | .good t1 => tblLoop cv valid n t1 r.2
        | .bad => .ok (.bad, r.2)
        | .thrown => .ok (.thrown, r.2)
    | .raw _ => tblLoop cv valid n t p.2

/-- `DIM` (api/ascii/k_cctbl.cpp:282, 292-301). -/
def readDim (st : St) : Res (Nat × St) :=
  (lxs tblKeys st).bind fun p =>
    if p.1 = .key 103 then (lxs tblKeys p.2).bind fun q =>
      .ok (match q.1 with
        | .raw (.long d) => (Lec.natOf d, q.2)
        | _ => (2, unread q.2))
    else .ok (2, unread p.2)

/-- `read_tbl` (api/ascii/k_cctbl.cpp:280-371). -/
def readTbl (cv : Conv) (valid : Text → Bool) (st : St) : Res (Ans Tab × St) :=
  (lxs tblKeys st).bind fun p =>
    if p.1 = .key 107 then (readDim p.2).bind fun q => tblLoop cv valid (q.2.text.length + 2) (newTab valid q.1) q.2
    else .ok (.bad, p.2)

/-- The loop of `KDBTables::load_asc` (api/ascii/k_cctbl.cpp:423-464). -/
def tblsLoop (cv : Conv) (valid : Text → Bool) : Nat → St → SMap Tab → Res (Ans Unit × SMap Tab)
  | 0, _, _ => .err
  | n + 1, st, db => (lxs tblKeys st).bind fun p =>
    match p.1 with
    | .raw .eof => .ok (.good (), db)
    | .raw (.word w) => (readTbl cv valid p.2).bind fun r =>
      match r.1 with
      | .thrown => .ok (.thrown, db)
      | .bad => .ok (.bad, db)
      | .good t =>
        if checkName .tables (toKey .tables (w.take 20)) then tblsLoop cv valid n r.2 (SMap.insert (toKey .tables (w.take 20)) t db)
        else .ok (.bad, db)
    | _ => tblsLoop cv valid n p.2 db

/-- `KDBTables::load_asc` (api/ascii/k_cctbl.cpp:389-469) of a file with this content. -/
def loadTbls (cv : Conv) (valid : Text → Bool) (t : Text) : Res (Ans Unit × SMap Tab) :=
  tblsLoop cv valid ((expand 0 t).length + 2) ⟨.err, false, expand 0 t⟩ []

/-! ## Saving -/

/-- Six digits. -/
def sixDigits (n : Nat) : Text :=
  [digitChar (n / 100000 % 10), digitChar (n / 10000 % 10), digitChar (n / 1000 % 10), digitChar (n / 100 % 10),
   digitChar (n / 10 % 10), digitChar (n % 10)]

/-- `printf("%f", q)` (ISO C, 7.21.6.1). -/
def fmtF (q : Rat) : Text :=
  let n := roundEven (|q| * 10 ^ 6)
  (if q < 0 then ['-'] else []) ++ (natToChars (n / 10 ^ 6) ++ '.' :: sixDigits (n % 10 ^ 6))

/-- `print_chart_axis_type` (api/ascii/k_cctbl.cpp:524-527). -/
def printBound (key : Text) (v : Dbl) : Text :=
  if isNumber v then
    '\n' :: (key ++ ' ' :: ((match v with
      | .num q => fmtF q
      | _ => ['i', 'n', 'f']) ++ [' ']))
  else []

/-- `K_wrdef` (api/utils/yy.cpp:258-273) with `TABLE`, which has no end mark: the array is left when there is no such value. -/
def wrDef (d : Nat) : Res Text :=
  match tblKeys.find? fun e => e.2 = d with
  | some e => .ok (e.1 ++ [' '])
  | none => .ub

/-- `print_attribute` (api/ascii/k_cctbl.cpp:537-560). -/
def printAttr (a : Nat) : Text :=
  (if a % 2 = 1 then ['B', 'O', 'L', 'D', ' '] else []) ++ ((if a / 2 % 2 = 1 then ['I', 'T', 'A', 'L', 'I', 'C', ' '] else []) ++
  ((if a / 4 % 2 = 1 then ['U', 'N', 'D', 'E', 'R', 'L', 'I', 'N', 'E', ' '] else []) ++
  (if a / 8 * 8 = 8 then ['C', 'E', 'N', 'T', 'E', 'R', ' ']
   else if a / 8 * 8 = 64 then ['D', 'E', 'C', 'I', 'M', 'A', 'L', ' ']
   else if a / 8 * 8 = 16 then ['L', 'E', 'F', 'T', ' ']
   else if a / 8 * 8 = 32 then ['R', 'I', 'G', 'H', 'T', ' ']
   else [])))

/-- `print_cell` (api/ascii/k_cctbl.cpp:570-596); `none` is an exception. -/
def printCell (cv : Conv) (c : TCell) : Option Text :=
  match c.body with
  | .str t =>
    if t.isEmpty then some ['"', '"', ' ']
    else (toOem cv t).map fun o => '"' :: (escape o ++ '"' :: ' ' :: printAttr c.attr)
  | .lec l =>
    if (l.getD []).isEmpty then some ['"', '"', ' ']
    else (toOem cv (l.getD [])).map fun o => ['L', 'E', 'C', ' ', '"'] ++ (cstr o ++ '"' :: ' ' :: printAttr c.attr)

/-- `print_graph_info` (api/ascii/k_cctbl.cpp:507-514). -/
def printGraph (right : Bool) (g : Nat) : Text :=
  (if right then [' ', 'R', 'A', 'X', 'I', 'S', ' '] else [' ', 'L', 'A', 'X', 'I', 'S', ' ']) ++
  (if g = 2 then [' ', 'G', 'R', 'B', 'A', 'R', ' '] else [' ', 'G', 'R', 'L', 'I', 'N', 'E', ' '])

/-- A line of `print_tbl` (api/ascii/k_cctbl.cpp:626-655): what is written, piece by piece; `none` is an exception. -/
def printLine (cv : Conv) (l : TLine) : Res (List (Option Text)) :=
  if l.type = 110 then .ok (some ['\n', '-', ' '] :: (l.cells.map (printCell cv) ++ [some (printGraph l.right l.graph)]))
  else if l.type = 113 then
    match l.cells with
    | [] => .ub
    | c :: _ => (wrDef l.type).bind fun w => .ok [some ['\n', '-', ' '], some w, printCell cv c]
  else if l.type = 111 ∨ l.type = 112 ∨ l.type = 106 ∨ l.type = 116 ∨ l.type = 105 then
    (wrDef l.type).bind fun w => .ok [some ['\n', '-', ' '], some w]
  else .ok [some ['\n', '-', ' ']]

/-- The lines. -/
def printLines (cv : Conv) : List TLine → Res (List (Option Text))
  | [] => .ok []
  | l :: ls => (printLine cv l).bind fun a => (printLines cv ls).bind fun b => .ok (a ++ b)

/-- `print_align` (api/ascii/k_cctbl.cpp:481-496). -/
def printAlign (a : Int) : Text :=
  ['\n', 'A', 'L', 'I', 'G', 'N', ' '] ++
  (if a = 0 then ['L', 'E', 'F', 'T', ' '] else if a = 1 then ['C', 'E', 'N', 'T', 'E', 'R', ' ']
   else if a = 2 then ['R', 'I', 'G', 'H', 'T', ' '] else [])

/-- `print_tbl` (api/ascii/k_cctbl.cpp:606-657); there must be a divider for each column. -/
def printTbl (cv : Conv) (t : Tab) : Res (List (Option Text)) :=
  if t.divider.length < t.ncols.toNat then .ub
  else (wrDef t.language).bind fun w => (printLines cv t.lines).bind fun ls =>
    .ok (some (['\n', 'D', 'I', 'M', ' '] ++ (intToChars t.ncols ++ ['\n'])) :: some w ::
      some (['\n', 'B', 'O', 'X', ' '] ++ (intToChars t.box ++ ([' ', 'A', 'X', 'I', 'S', ' '] ++ (intToChars t.axis ++
        ([' ', 'X', 'G', 'R', 'I', 'D', ' '] ++ (intToChars t.gridx ++ ([' ', 'Y', 'G', 'R', 'I', 'D', ' '] ++
          (intToChars t.gridy ++ [' '])))))))) ::
      some (printAlign t.align) :: some (printBound ['Y', 'M', 'I', 'N'] t.ymin) :: some (printBound ['Y', 'M', 'A', 'X'] t.ymax) ::
      some (printBound ['Z', 'M', 'I', 'N'] t.zmin) :: some (printBound ['Z', 'M', 'A', 'X'] t.zmax) ::
      some ['\n', 'D', 'I', 'V', ' '] :: ((t.divider.take t.ncols.toNat).map (printCell cv) ++
      (ls ++ [some "\n/* END OF TABLE */\n".toList])))

/-- What is written up to an exception. -/
def written : List (Option Text) → Bool × Text
  | [] => (true, [])
  | none :: _ => (false, [])
  | some t :: r => ((written r).1, t ++ (written r).2)

/-- One table of `save_asc` (api/ascii/k_cctbl.cpp:690-704). -/
def saveTbl (cv : Conv) (k : Text) (t : Tab) : Res (Bool × Text) :=
  (printTbl cv t).bind fun ps => .ok (written (some (k ++ [' ', '{']) :: (ps ++ [some ['}', '\n']])))

/-- `KDBTables::save_asc` (api/ascii/k_cctbl.cpp:669-710): the result and the content of the file. -/
def saveTbls (cv : Conv) : SMap Tab → Res (Bool × Text)
  | [] => .ok (true, [])
  | e :: r => (saveTbl cv e.1 e.2).bind fun a => (saveTbls cv r).bind fun b => .ok (a.1 && b.1, a.2 ++ b.2)

end Asc
end Iode
