import Verif.Model.Obj

/-!
# Tables in binary form (api/objs/tables.h, api/objs/k_tbl.cpp)

Conventions of Model/Obj.lean. The structs `Table32`, `TableLine32` and `TableCell32` (api/objs/structs_32.h:71-109) are
lists of fields with their widths; members that are never set and padding bytes have arbitrary contents (`TNoise`).
-/
namespace Iode
namespace Tbl
open Pack BinFile Obj

/-- Content of a cell: a text, or an identity (`none` is the null pointer, `some []` an identity whose formula does not
    compile). -/
inductive Body where
  | str (t : Text)
  | lec (l : Option Text)
  deriving Repr, DecidableEq

/-- `class TableCell` (api/objs/tables.h:163-170). -/
structure Cell where
  body : Body
  attr : Int
  deriving Repr, DecidableEq

/-- `class TableLine` (api/objs/tables.h:417-427). -/
structure Line where
  type : Int
  graph : Int
  right : Bool
  cells : List Cell
  deriving Repr, DecidableEq

/-- `class Table` (api/objs/tables.h:546-570). -/
structure Table where
  language : Int
  repeatCols : Int
  ncols : Int
  divider : Line
  lines : List Line
  zmin : Int
  zmax : Int
  ymin : Int
  ymax : Int
  attr : Int
  box : Int
  shadow : Int
  gridx : Int
  gridy : Int
  axis : Int
  align : Int
  deriving Repr, DecidableEq

/-- Codes of the types of lines and cells (api/objs/tables.h:36-92). -/
def tFiles : Int := 105
def tMode : Int := 106
def tCell : Int := 110
def tSep : Int := 111
def tTitle : Int := 113
def tDate : Int := 116
def cLec : Int := 114
def cStr : Int := 115

/-! ## Cells -/

/-- `TableCell::set_text` (api/objs/k_tbl.cpp:48-80), the content only: `back()` of an empty string is undefined. -/
def setText (t : Text) : Res Text :=
  match t with
  | [] => .ok []
  | b :: r =>
    let t1 := if b = 34 then r else b :: r
    match t1.getLast? with
    | none => .ub
    | some c => .ok (if c = 34 then t1.dropLast else t1)

/-- `TableCell::set_lec` (api/objs/k_tbl.cpp:82-104). -/
def setLec (valid : Text → Bool) (l : Text) : Option Text := if l.isEmpty then none else some (idtSetLec valid l)

/-- Fields of a struct: widths and values. -/
def putFields (fs : List (Nat × Int)) : List Byte := fs.flatMap (fun f => putWord f.1 f.2)

/-- The fields of these widths. -/
def getFields : List Nat → List Byte → List Int
  | [], _ => []
  | w :: ws, l => getWord w l :: getFields ws (l.drop w)

/-- `TableCell::convert_64_to_32bits` (api/objs/k_tbl.cpp:153-174); `j` is the padding. -/
def cell32 (W : Nat) (j : Int) (c : Cell) : List (Nat × Int) :=
  match c.body with
  | .str _ => [(W, 1), (1, cStr), (1, c.attr), (2, 0), (W - 4, j)]
  | .lec none => [(W, 0), (1, cLec), (1, c.attr), (2, 0), (W - 4, j)]
  | .lec (some _) => [(W, 1), (1, cLec), (1, c.attr), (2, 0), (W - 4, j)]

/-- An array of `TableCell32`. -/
def cells32 (W : Nat) (junk : Nat → Int) (k : Nat) : List Cell → List Byte
  | [] => []
  | c :: cs => putFields (cell32 W (junk k) c) ++ cells32 W junk (k + 1) cs

/-- The element of an identity: its own pack, or nothing when `to_binary` fails (`P_len(NULL)` is 0 and `P_add` of no bytes
    adds an empty element) (api/objs/k_tbl.cpp:207-214). -/
def idtElem (W : Nat) (cp : CodePage) (valid : Text → Bool) (bufs : Nat → Nat → Byte) (l : Text) : Res Elem :=
  (utf8ToOem cp l).bind fun _ =>
    match idtWrite cp valid l with
    | .ok es => (toPack W bufs es).bind fun p => .ok (.data (packList p))
    | _ => .ok (.zeros 0)

/-- `TableCell::to_binary` (api/objs/k_tbl.cpp:196-230). -/
def cellElems (W : Nat) (cp : CodePage) (valid : Text → Bool) (bufs : Nat → Nat → Byte) (c : Cell) : Res (List Elem) :=
  match c.body with
  | .str t => (utf8ToOem cp t).bind fun o => .ok [.data (cstr o ++ [0])]
  | .lec none => .ok []
  | .lec (some l) =>
    if l.isEmpty then .ok [] else (idtElem W cp valid bufs (idtSetLec valid l)).bind fun e => .ok [e]

/-- The contents of a sequence of cells. -/
def cellsElems (W : Nat) (cp : CodePage) (valid : Text → Bool) (bufs : Nat → Nat → Nat → Byte) (k : Nat) :
    List Cell → Res (List Elem)
  | [] => .ok []
  | c :: cs =>
    (cellElems W cp valid (bufs k) c).bind fun a => (cellsElems W cp valid bufs (k + 1) cs).bind fun b => .ok (a ++ b)

/-! ## Writing -/

/-- Contents of members that are never set, by line (the divider line is line 0 of `cellPad` and `bufs`, line `i` is line
    `i + 1`) and column. -/
structure TNoise where
  cellPad : Nat → Nat → Int
  bufs : Nat → Nat → Nat → Nat → Byte
  linePtr : Nat → Int
  lineBits : Nat → Int
  linePad : Nat → Int
  tblPtr : Int
  tblPad : Int

/-- `TableLine::convert_64_to_32bits` (api/objs/k_tbl.cpp:285-295). -/
def line32 (W : Nat) (nz : TNoise) (i : Nat) (ln : Line) : List (Nat × Int) :=
  [(W, nz.linePtr i), (1, ln.type), (1, ln.graph), (1, (if ln.right then 1 else 0) + 2 * nz.lineBits i), (1, 0),
    (W - 4, nz.linePad i)]

/-- An array of `TableLine32`. -/
def lines32 (W : Nat) (nz : TNoise) (i : Nat) : List Line → List Byte
  | [] => []
  | l :: ls => putFields (line32 W nz i l) ++ lines32 W nz (i + 1) ls

/-- `Table::convert_64_to_32bits` (api/objs/k_tbl.cpp:659-685). -/
def table32 (W : Nat) (nz : TNoise) (t : Table) : List (Nat × Int) :=
  [(2, t.language), (2, t.repeatCols), (2, t.ncols), (2, (t.lines.length : Int))] ++ line32 W nz 0 t.divider ++
  [(W, nz.tblPtr), (4, t.zmin), (4, t.zmax), (4, t.ymin), (4, t.ymax), (1, t.attr), (1, t.box), (1, t.shadow), (1, t.gridx),
    (1, t.gridy), (1, t.axis), (1, t.align), (13, 0), (W - 4, nz.tblPad)]

/-- The elements of a line (api/objs/k_tbl.cpp:996-1056). Fewer cells than columns: `P_add` reads behind the vector. -/
def lineElems (W : Nat) (cp : CodePage) (valid : Text → Bool) (nz : TNoise) (ncols : Int) (i : Nat) (ln : Line) :
    Res (List Elem) :=
  if ln.type = tCell then
    if ncols < 0 ∨ (ln.cells.length : Int) < ncols then .ub
    else (cellsElems W cp valid (nz.bufs i) 0 ln.cells).bind fun es =>
      .ok (.data ((cells32 W (nz.cellPad i) 0 ln.cells).take (2 * W * ncols.toNat)) :: es)
  else if ln.type = tTitle then
    match ln.cells with
    | [] => .ub
    | c :: _ => (cellElems W cp valid (nz.bufs i 0) c).bind fun es => .ok (.data (putFields (cell32 W (nz.cellPad i 0) c)) :: es)
  else .ok []

/-- The elements of the lines. -/
def linesElems (W : Nat) (cp : CodePage) (valid : Text → Bool) (nz : TNoise) (ncols : Int) (i : Nat) :
    List Line → Res (List Elem)
  | [] => .ok []
  | l :: ls =>
    (lineElems W cp valid nz ncols i l).bind fun a => (linesElems W cp valid nz ncols (i + 1) ls).bind fun b => .ok (a ++ b)

/-- `KDBTables::obj_to_binary` (api/objs/k_tbl.cpp:924-1069). -/
def tblWrite (W : Nat) (cp : CodePage) (valid : Text → Bool) (nz : TNoise) (t : Table) : Res (List Elem) :=
  (cellsElems W cp valid (nz.bufs 0) 0 t.divider.cells).bind fun ds =>
  (linesElems W cp valid nz t.ncols 1 t.lines).bind fun ls =>
    .ok ([.data (putFields (table32 W nz t)), .data (cells32 W (nz.cellPad 0) 0 t.divider.cells)] ++ ds ++
      [.data (lines32 W nz 1 t.lines)] ++ ls)

/-! ## Reading -/

/-- `P_get_ptr(value, 0)` of an identity that is an element, and the text there (api/objs/k_tbl.cpp:254-256). -/
def nestedStr (W : Nat) (l : List Byte) : Res Text :=
  if l.length < 3 * W then .ub
  else match piece W ⟨l.length, mem l⟩ 0 with
    | none => .ok []
    | some s => upTo s

/-- `TableCell::from_binary` (api/objs/k_tbl.cpp:236-264): the new content. -/
def fromBinary (W : Nat) (cp : CodePage) (valid : Text → Bool) (q : Pack) (p : Nat) (isStr : Bool) : Res Body :=
  if isStr then
    ((match piece W q p with
      | none => .ok []
      | some l => upTo l) : Res Text).bind fun o =>
    (oemToUtf8 cp o).bind fun t => (setText t).bind fun t => .ok (.str t)
  else
    ((match piece W q p with
      | none => .ok []
      | some l => nestedStr W l) : Res Text).bind fun o =>
    (oemToUtf8 cp o).bind fun t => .ok (.lec (setLec valid t))

/-- `TableCell::convert_32_to_64bits` (api/objs/k_tbl.cpp:176-188), `from_binary` when there is a content, `set_attribute`:
    the cell and the next position. The fields of the struct are content, type, attribute. -/
def readCell (W : Nat) (cp : CodePage) (valid : Text → Bool) (q : Pack) (p : Nat) (content type attr : Int) :
    Res (Cell × Nat) :=
  if content = 0 then .ok (⟨if type = cStr then .str [] else .lec none, attr⟩, p)
  else (fromBinary W cp valid q p (decide (type = cStr))).bind fun b => .ok (⟨b, attr⟩, p + 1)

/-- One `TableCell32` of an array. -/
def readCell32 (W : Nat) (arr : List Byte) : Res (Int × Int × Int) :=
  (field (2 * W) (some arr)).bind fun b =>
    match getFields [W, 1, 1] b with
    | [c, t, a] => .ok (c, t, a)
    | _ => .ub

/-- The cells of a line (api/objs/k_tbl.cpp:756-776). -/
def readCells (W : Nat) (cp : CodePage) (valid : Text → Bool) (q : Pack) : Nat → List Byte → Nat → Res (List Cell × Nat)
  | 0, _, p => .ok ([], p)
  | n + 1, arr, p =>
    (readCell32 W arr).bind fun h =>
    (readCell W cp valid q p h.1 h.2.1 h.2.2).bind fun c =>
    (readCells W cp valid q n (arr.drop (2 * W)) c.2).bind fun r => .ok (c.1 :: r.1, r.2)

/-- `TableCell::sanitize_div` (api/objs/k_tbl.cpp:266-279). -/
def sanitizeDiv (valid : Text → Bool) (first : Bool) (c : Cell) : Cell :=
  let l := match c.body with
    | .str t => setLec valid t
    | .lec l => l
  ⟨.lec (if first ∧ l = none then setLec valid [49] else l), c.attr⟩

/-- The cells of the divider line (api/objs/k_tbl.cpp:719-737). -/
def sanitizeAll (valid : Text → Bool) : Bool → List Cell → List Cell
  | _, [] => []
  | first, c :: cs => sanitizeDiv valid first c :: sanitizeAll valid false cs

/-- `bool` of the bit field `right_axis`. -/
def bit0 (v : Int) : Bool := decide (v % 2 = 1)

/-- One line (api/objs/k_tbl.cpp:744-834): `none` for an unknown type, which is skipped. -/
def readLine (W : Nat) (cp : CodePage) (valid : Text → Bool) (q : Pack) (ncols : Int) (type graph bits : Int) (p : Nat) :
    Res (Option Line × Nat) :=
  if type = tCell then
    match piece W q p with
    | none => if ncols ≤ 0 then .ok (some ⟨tCell, graph, bit0 bits, []⟩, p + 1) else .ub
    | some arr => (readCells W cp valid q ncols.toNat arr (p + 1)).bind fun r =>
        .ok (some ⟨tCell, graph, bit0 bits, r.1⟩, r.2)
  else if type = tTitle then
    match piece W q p with
    | none => .ub
    | some arr => (readCells W cp valid q 1 arr (p + 1)).bind fun r => .ok (some ⟨tTitle, graph, bit0 bits, r.1⟩, r.2)
  else if type = tSep ∨ type = tMode ∨ type = tFiles ∨ type = tDate then .ok (some ⟨type, 0, false, []⟩, p)
  else .ok (none, p)

/-- The loop over the lines. -/
def readLines (W : Nat) (cp : CodePage) (valid : Text → Bool) (q : Pack) (ncols : Int) : Nat → List Byte → Nat → Res (List Line)
  | 0, _, _ => .ok []
  | n + 1, arr, p =>
    (field (2 * W) (some arr)).bind fun b =>
      match getFields [W, 1, 1, 1] b with
      | [_, type, graph, bits] =>
        (readLine W cp valid q ncols type graph bits p).bind fun r =>
        (readLines W cp valid q ncols n (arr.drop (2 * W)) r.2).bind fun ls =>
          .ok (match r.1 with
            | none => ls
            | some l => l :: ls)
      | _ => .ub

/-- Widths of the fields of `Table32`. -/
def widths32 (W : Nat) : List Nat :=
  [2, 2, 2, 2] ++ [W, 1, 1, 1, 1, W - 4] ++ [W, 4, 4, 4, 4, 1, 1, 1, 1, 1, 1, 1]

/-- `binary_to_tbl` after the header has been read (api/objs/k_tbl.cpp:709-838). -/
def readBody (W : Nat) (cp : CodePage) (valid : Text → Bool) (q : Pack) : List Int → Res (Option Table)
  | [lang, rep, nc, nl, _, _, graph, bits, _, _, _, zmin, zmax, ymin, ymax, attr, box, shadow, gridx, gridy, axis, align] =>
    ((match piece W q 1 with
      | none => .ub
      | some arr => readCells W cp valid q (max 1 nc.toNat) arr 2) : Res (List Cell × Nat)).bind fun d =>
    ((match piece W q d.2 with
      | none => if nl ≤ 0 then .ok [] else .ub
      | some arr => readLines W cp valid q nc nl.toNat arr (d.2 + 1)) : Res (List Line)).bind fun ls =>
      .ok (some ⟨lang, rep, nc, ⟨tCell, graph, bit0 bits, sanitizeAll valid true d.1⟩, ls, zmin, zmax, ymin, ymax, attr, box,
        shadow, gridx, gridy, axis, align⟩)
  | _ => .ub

/-- `binary_to_tbl` (api/objs/k_tbl.cpp:709-838). -/
def tblRead (W : Nat) (cp : CodePage) (valid : Text → Bool) (q : Pack) : Res (Option Table) :=
  (field (40 + 4 * W) (piece W q 0)).bind fun b => readBody W cp valid q (getFields (widths32 W) b)

/-- Tables as a kind of objects. -/
def tblKind (W : Nat) (cp : CodePage) (valid : Text → Bool) (nz : TNoise) : Kind Table where
  write _ t := tblWrite W cp valid nz t
  read _ q := tblRead W cp valid q

/-! ## Comparison -/

/-- `TableLine::operator==` (api/objs/tables.h:478-501): cells are compared for titles (the first one) and cell lines. -/
def lineEq (a b : Line) : Bool :=
  a.type = b.type && a.right = b.right && a.graph = b.graph &&
    (if a.type = tTitle then a.cells.head? = b.cells.head? else if a.type = tCell then a.cells = b.cells else true)

/-- `Table::operator==` (api/objs/tables.h:828-862). -/
def tblEq (a b : Table) : Bool :=
  a.language = b.language && a.repeatCols = b.repeatCols && a.ncols = b.ncols && lineEq a.divider b.divider &&
  a.lines.length = b.lines.length && (a.lines.zip b.lines).all (fun p => lineEq p.1 p.2) &&
  a.zmin = b.zmin && a.zmax = b.zmax && a.ymin = b.ymin && a.ymax = b.ymax && a.attr = b.attr && a.box = b.box &&
  a.shadow = b.shadow && a.gridx = b.gridy && a.gridy = b.gridy && a.axis = b.axis && a.align = b.align

end Tbl
end Iode
