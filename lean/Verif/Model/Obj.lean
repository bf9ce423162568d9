import Verif.Model.File

/-!
# Objects in binary form

`obj_to_binary` / `to_binary` write an object as a pack, `binary_to_obj` reads it back: comments, lists, identities,
scalars, variables and equations. Tables are in Model/Tbl.lean.

Simplifications
* a text is the list of its bytes; `double`, `float`, `long` and `char` are their bit patterns read as two's complement
  integers of 8, 4, `W` and 1 bytes;
* the conversion between UTF-8 and the OEM code page (iconv) is a parameter, `none` is a failed conversion (an exception);
* whether a formula compiles is a parameter (`valid`), for an equation it depends on the endogenous variable;
* the name of an equation in the workspace is its endogenous variable;
* `false` and an exception while writing are both `.err`: `save_binary` stops in both cases.
-/
namespace Iode
namespace Obj
open Pack BinFile

abbrev Text := List Byte

/-- The conversions done by iconv. -/
structure CodePage where
  enc : Text → Option Text
  dec : Text → Option Text

/-- A C string: the bytes before the first null byte. -/
def cstr (t : Text) : Text := t.takeWhile (fun b => b ≠ 0)

/-- `utf8_to_oem` (api/utils/utils.h:103-158 and 165-168). -/
def utf8ToOem (cp : CodePage) (t : Text) : Res Text := if t.isEmpty then .ok t else Res.ofOption (cp.enc (cstr t))

/-- `oem_to_utf8` (api/utils/utils.h:103-163). -/
def oemToUtf8 (cp : CodePage) (t : Text) : Res Text := if t.isEmpty then .ok t else Res.ofOption (cp.dec (cstr t))

/-- `P_get_ptr(pack, i)`: the bytes from the element to the end of the block. -/
def piece (W : Nat) (q : Pack) (i : Nat) : Option (List Byte) :=
  (getPtr W q i).map (fun a => bytes q.mem a (q.size - a))

/-- `std::string(char*)`: running past the block is undefined. -/
def upTo (l : List Byte) : Res Text := if 0 ∈ l then .ok (cstr l) else .ub

/-- `new char[P_get_len(pack, i)]`, `strncpy`, `std::string` (api/objs/k_cmt.cpp:7-10 and elsewhere): a length of -1 makes
    `new` throw, `strncpy` does not add a null byte when it copies as many bytes as it may. -/
def strn (W : Nat) (q : Pack) (i : Nat) : Res Text :=
  if getLen W q i < 0 then .err
  else match piece W q i with
    | none => .ub
    | some l => upTo (l.take (getLen W q i).toNat)

/-- The first `n` bytes at a pointer. -/
def field (n : Nat) (p : Option (List Byte)) : Res (List Byte) :=
  match p with
  | none => .ub
  | some l => if l.length < n then .ub else .ok (l.take n)

/-- An array of integers of `w` bytes. -/
def putWords (w : Nat) (vs : List Int) : List Byte := vs.flatMap (putWord w)

/-- Reading an array of `n` integers of `w` bytes. -/
def getWords (w : Nat) : Nat → List Byte → List Int
  | 0, _ => []
  | n + 1, l => getWord w l :: getWords w n (l.drop w)

/-- A kind of objects: the elements of the pack of an object with this name, and the object read from a pack, `none` when
    `binary_to_obj` returns false. -/
structure Kind (α : Type) where
  write : List Char → α → Res (List Elem)
  read : List Char → Pack → Res (Option α)

/-- Comments (api/objs/k_cmt.cpp:5-34) and lists (api/objs/k_lst.cpp:366-400). -/
def textKind (W : Nat) (cp : CodePage) : Kind Text where
  write _ t := (utf8ToOem cp t).bind fun o => .ok [.data (cstr o ++ [0])]
  read _ q := (strn W q 0).bind fun o => (oemToUtf8 cp o).bind fun t => .ok (some t)

/-- `Identity::set_lec` (api/objs/identities.h:36-53): a formula that does not compile is replaced by nothing. -/
def idtSetLec (valid : Text → Bool) (lec : Text) : Text := if valid lec then lec else []

/-- `Identity::to_binary` (api/objs/k_idt.cpp:57-89): the elements written. -/
def idtWrite (cp : CodePage) (valid : Text → Bool) (lec : Text) : Res (List Elem) :=
  (utf8ToOem cp lec).bind fun o =>
    if lec.isEmpty then .err
    else if valid (cstr o) then .ok [.data (cstr o ++ [0]), .zeros 0]
    else .err

/-- Identities (api/objs/k_idt.cpp:57-89 and 154-167); an identity is its formula. -/
def idtKind (W : Nat) (cp : CodePage) (valid : Text → Bool) : Kind Text where
  write _ lec := idtWrite cp valid lec
  read _ q := (strn W q 0).bind fun o => (oemToUtf8 cp o).bind fun t => .ok (some (idtSetLec valid t))

/-- `struct Scalar` (api/objs/scalars.h:12-18). -/
structure Scl where
  value : Int
  relax : Int
  std : Int
  deriving Repr, DecidableEq

/-- Scalars (api/objs/k_scl.cpp:18-39): the bytes of the struct. -/
def sclKind (W : Nat) : Kind Scl where
  write _ s := .ok [.data (putWords 8 [s.value, s.relax, s.std])]
  read _ q := match piece W q 0 with
    | none => .ok none
    | some l => (field 24 (some l)).bind fun b =>
        .ok (some ⟨getWord 8 b, getWord 8 (b.drop 8), getWord 8 (b.drop 16)⟩)

/-- Variables (api/objs/variables.h:394-400, api/objs/k_wsvar.cpp:1290-1300); `n` is the number of periods of the sample of
    the workspace into which the file is loaded. -/
def varKind (W : Nat) (n : Nat) : Kind (List Int) where
  write _ vs := .ok [.data (putWords 8 vs)]
  read _ q := match piece W q 0 with
    | none => .ok none
    | some l => (field (8 * n) (some l)).bind fun b => .ok (some (getWords 8 n b))

/-- `struct Equation` (api/objs/equations.h:118-131) without the endogenous variable and the compiled form. -/
structure Eqn where
  lec : Text
  solved : Int
  method : Int
  sample : Sample
  comment : Text
  block : Text
  instruments : Text
  date : Int
  tests : List Int
  deriving DecidableEq

/-- The sample of an equation that was never estimated (api/objs/equations.h:300-310). -/
def noSample : Sample := ⟨⟨0, 0, Char.ofNat 0⟩, ⟨0, 0, Char.ofNat 0⟩, 0⟩

/-- `P_add` of a text, one null byte when it is empty (api/objs/k_eqs.cpp:258-271). -/
def strElem (t : Text) : Elem := if t.isEmpty then .zeros 1 else .data (t ++ [0])

/-- Uninitialised memory met while writing an equation: `slack` after the converted formula, `junk` the padding of a
    `Period`, `pad` the padding at the end of a `Sample`. -/
structure Noise where
  slack : Nat → Byte
  junk : List Byte
  pad : List Byte

/-- The first element: `lec.size() + 1` bytes of the converted formula, where `lec.size()` is the length before conversion
    (api/objs/k_eqs.cpp:250-251). -/
def lecElem (slack : Nat → Byte) (n : Nat) (o : Text) : Elem :=
  .data ((List.range (n + 1)).map (fun j => (o ++ [0]).getD j (slack j)))

/-- `Equation::to_binary` (api/objs/k_eqs.cpp:236-278). -/
def eqWrite (W : Nat) (cp : CodePage) (valid : List Char → Text → Bool) (nz : Noise) (name : List Char) (e : Eqn) :
    Res (List Elem) :=
  if e.lec.isEmpty then .err
  else (utf8ToOem cp e.lec).bind fun lo => (utf8ToOem cp e.comment).bind fun co => (utf8ToOem cp e.instruments).bind fun io =>
    if valid name lo then
      .ok [lecElem nz.slack e.lec.length lo, .zeros 0, .data (putWord 1 e.solved), .data (putWord 1 e.method),
        .data (putSample W nz.junk e.sample ++ nz.pad), strElem co, strElem e.block, strElem io,
        .data (putWord W e.date), .data (putWords 4 e.tests)]
    else .err

/-- `Equation::set_lec` on a new equation (api/objs/equations.h:243-257). -/
def eqSetLec (valid : List Char → Text → Bool) (name : List Char) (lec : Text) : Res Text :=
  if lec.isEmpty then .err else .ok (if valid name lec then lec else [])

/-- `Equation::set_sample` (api/objs/equations.h:298-341); `ws` is the sample of the workspace of variables. -/
def eqSetSample (ws : Option Sample) (from' to' : List Char) : Res Sample :=
  if from'.isEmpty && to'.isEmpty then .ok noSample
  else if from'.isEmpty || to'.isEmpty then
    match ws with
    | none => .ok noSample
    | some s =>
      if s.nb = 0 then .ok noSample
      else Sample.ofStrings (if from'.isEmpty then s.start.toChars else from') (if to'.isEmpty then s.stop.toChars else to')
  else Sample.ofStrings from' to'

/-- `Equation::set_comment` (api/objs/equations.h:353-357). -/
def eqSetComment (cp : CodePage) (c : Text) : Res Text := if c.isEmpty then .ok [] else utf8ToOem cp c

/-- `Equation::set_method` with the test on reading (api/objs/k_eqs.cpp:292-296). -/
def eqMethod (m : Int) : Int := if 0 ≤ m ∧ m < 5 then m else 0

/-- The sample read from an equation (api/objs/k_eqs.cpp:315-331): the two periods, empty when the first byte is null.
    `P` is the size of a `Period`. -/
def eqReadSample (W P : Nat) (p : Option (List Byte)) : Res (Period × Period) :=
  match p with
  | none => .ok (noSample.start, noSample.stop)
  | some [] => .ub
  | some (b :: l) =>
    if b = 0 then .ok (noSample.start, noSample.stop)
    else (field (2 * P + 2) (some (b :: l))).bind fun s => .ok ((getSample W P s).start, (getSample W P s).stop)

/-- `binary_to_eqs` (api/objs/k_eqs.cpp:280-338) with the constructor (api/objs/equations.h:134-152). -/
def eqRead (W P : Nat) (cp : CodePage) (valid : List Char → Text → Bool) (ws : Option Sample) (name : List Char) (q : Pack) :
    Res (Option Eqn) :=
  (strn W q 0).bind fun lo => (oemToUtf8 cp lo).bind fun lec =>
  (field 1 (piece W q 3)).bind fun m =>
  (strn W q 5).bind fun co => (oemToUtf8 cp co).bind fun comment =>
  (strn W q 6).bind fun block =>
  (strn W q 7).bind fun io => (oemToUtf8 cp io).bind fun instruments =>
  (eqReadSample W P (piece W q 4)).bind fun ps =>
  (eqSetLec valid name lec).bind fun lec =>
  (eqSetSample ws ps.1.toChars ps.2.toChars).bind fun sample =>
  (eqSetComment cp comment).bind fun comment =>
  (field 1 (piece W q 2)).bind fun s =>
  (field W (piece W q 8)).bind fun d =>
  (field (4 * 20) (piece W q 9)).bind fun t =>
    .ok (some ⟨lec, getWord 1 s, eqMethod (getWord 1 m), sample, comment, block, instruments, getWord W d, getWords 4 20 t⟩)

/-- Equations. -/
def eqKind (W : Nat) (cp : CodePage) (valid : List Char → Text → Bool) (ws : Option Sample) (nz : Noise) : Kind Eqn where
  write := eqWrite W cp valid nz
  read := eqRead W (2 * W + 1 + nz.junk.length) cp valid ws

/-! ## Files of objects -/

/-- The elements with the contents the shared buffer has at each `P_add`. -/
def withBufs (bufs : Nat → Nat → Byte) (i : Nat) : List Elem → List ((Nat → Byte) × Elem)
  | [] => []
  | e :: es => (bufs i, e) :: withBufs bufs (i + 1) es

/-- `P_create` and the calls of `P_add`. -/
def toPack (W : Nat) (bufs : Nat → Nat → Byte) (es : List Elem) : Res Pack := Pack.build W (create W) (withBufs bufs 0 es)

/-- The memory of a pack as bytes. -/
def packList (p : Pack) : List Byte := bytes p.mem 0 p.size

/-- `obj_to_binary` of each object (api/objs/k_objfile.cpp:1193-1204). -/
def packAll {α : Type} (W : Nat) (K : Kind α) (bufs : List Char → Nat → Nat → Byte) : SMap α → Res (SMap (List Byte))
  | [] => .ok []
  | (n, x) :: m =>
    (K.write n x).bind fun es => (toPack W (bufs n) es).bind fun p => (packAll W K bufs m).bind fun r =>
      .ok ((n, packList p) :: r)

/-- `binary_to_obj` of each object (api/objs/k_objfile.cpp:501-503); what it returns is ignored. -/
def readAll {α : Type} (K : Kind α) : SMap (List Byte) → Res (SMap α)
  | [] => .ok []
  | (n, o) :: m =>
    (K.read n ⟨o.length, mem o⟩).bind fun x => (readAll K m).bind fun r =>
      .ok (match x with
        | none => r
        | some x => (n, x) :: r)

/-- `KDB::save_binary` of a workspace of objects. -/
def saveFile {α : Type} (W : Nat) (cod : Codec) (L : Layout) (junk : Nat → Byte) (bufs : List Char → Nat → Nat → Byte)
    (compress : Bool) (data : List Byte) (K : Kind α) (m : SMap α) : Res File :=
  (packAll W K bufs m).bind fun r => save W cod L junk compress data r

/-- `KDB::load_binary` into an empty workspace. -/
def loadFile {α : Type} (W : Nat) (cod : Codec) (L : Layout) (K : Kind α) (f : File) : Res (SMap α) :=
  (load W cod L [] f).bind fun r => readAll K r

end Obj
end Iode
