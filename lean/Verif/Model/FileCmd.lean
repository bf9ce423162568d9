import Verif.Model.DataCmd
import Verif.Model.RepFn

/-!
# Model of the commands of reports on files (api/report/commands/b_file.cpp, b_fsys.cpp; scr4/s_copy.c, s_stfren.c, s_stansi.c, s_stutf8.c)

`$FileCopy`, `$FileRename`, `$FileDelete`, `$SysMoveFile`, `$SysCopyFile`, `$SysAppendFile`, `$SysDeleteFile`, `$SysAnsiToOem`, `$SysOemToAnsi`,
`$SysAnsiToUTF8` and `$SysOemToUTF8`, compiled for Linux.

Simplifications
* the files are a function of the path: each path is its own file, there are no directories and no links; a byte is a number;
* `may` tells the paths that can be written and removed; an existing file can be read; the disk is never full;
* the memory `malloc` gives to `SCR_AnsiToOemChar` is the parameter `junk`;
* a file of 2048 bytes and more that is appended to itself is read while it grows, what happens depends on the buffers: `ub`;
* warnings and messages are left out.
-/
namespace Iode.FileCmd

open Iode.Args (Text)
open DataCmd (Out)

abbrev Bytes := List Nat
abbrev Disk := Text → Option Bytes

/-- A file with a content, or without one. -/
def Disk.set (d : Disk) (p : Text) (c : Option Bytes) : Disk := fun q => if q = p then c else d q

/-- `k_ext`, api/objs/kdb.h 1263-1298. -/
def exts : List Text :=
  ["cmt".toList, "eqs".toList, "idt".toList, "lst".toList, "scl".toList, "tbl".toList, "var".toList, "ooo".toList, "ac".toList, "ae".toList,
   "ai".toList, "al".toList, "as".toList, "at".toList, "av".toList, [], "rep".toList, "a2m".toList, "agl".toList, "prf".toList, "dif".toList,
   "mif".toList, "rtf".toList, "ps".toList, "asc".toList, "txt".toList, "csv".toList, "xxx".toList]

/-- The type of the files from the end of the name of a command of the kind 4, api/report/engine/b_rep_engine.cpp 477-489: the loop has no end when there is none. -/
def typeOf (suffix : Text) : Res Nat :=
  match exts.findIdx? (· = suffix) with
  | some j => .ok j
  | none => .ub

/-- `std::filesystem::path::has_extension`: there is a point in the name behind the last `/`, and not only as its first character; the names
`.` and `..` have none. -/
def hasExt (p : Text) : Bool :=
  let name := (p.reverse.takeWhile (· ≠ '/')).reverse
  decide (name ≠ ['.', '.']) && decide ('.' ∈ name.tail)

/-- `set_file_extension`, api/objs/k_objfile.cpp 918-929, with `add_file_extension`, api/utils/utils.h 401-416; `none` when it throws. -/
def setExt (ty : Nat) (p : Text) : Option Text :=
  if p = [] then some []
  else if 511 < p.length then none
  else some (if hasExt p then p else p ++ '.' :: exts.getD ty [])

/-- `K_LABEL`, `K_LABELS`, `K_LABELD`, api/objs/objs.h 12-15. -/
def labels : List Bytes :=
  [[75, 79, 66, 74, 83, 32, 53, 54, 52, 65, 26], [75, 79, 66, 74, 83, 32, 52, 46, 48, 50, 26], [75, 79, 66, 74, 83, 32, 53, 48, 52, 100, 26]]

/-- `update_filename`, api/objs/k_objfile.cpp 1236-1320, on a file with this content: true if it goes on behind the label, when it reads the
header into a null pointer; otherwise nothing changes. -/
def readsHeader (c : Bytes) : Bool := decide (c.take 11 ∈ labels) && decide (11 < c.length)

variable (W : Args.World) (may : Text → Bool)

/-- `B_FileCopy`, b_file.cpp 36-88. A file cannot be copied onto itself (`std::filesystem::copy_file`). -/
def fileCopy (ty : Nat) (arg : Text) (d : Disk) : Out Disk :=
  match Args.init W arg with
  | .ok (some [a, b]) =>
    match setExt ty a, setExt ty b with
    | some f, some t =>
      match d f with
      | none => .failed d
      | some c =>
        if f = t ∨ may t = false then .failed d
        else if ty ≤ 6 ∧ readsHeader c then .ub
        else .done (d.set t (some c))
    | _, _ => .thrown d
  | .ok _ => .failed d
  | _ => .ub

/-- `B_FileRename`, b_file.cpp 105-152. -/
def fileRename (ty : Nat) (arg : Text) (d : Disk) : Out Disk :=
  match Args.init W arg with
  | .ok (some [a, b]) =>
    match setExt ty a, setExt ty b with
    | some f, some t =>
      match d f with
      | none => .failed d
      | some c =>
        if f = t then .done d
        else if may f = false ∨ may t = false then .failed d
        else .done ((d.set t (some c)).set f none)
    | _, _ => .thrown d
  | .ok _ => .failed d
  | _ => .ub

/-- Files that are removed if they can be. -/
def removeAll (d : Disk) (ps : List Text) : Disk := ps.foldl (fun d p => if may p then d.set p none else d) d

/-- `B_FileDelete`, b_file.cpp 166-210: `B_ainit_chk` wants two names. -/
def fileDelete (ty : Nat) (arg : Text) (d : Disk) : Out Disk :=
  match Args.init W arg with
  | .ok (some [a, b]) =>
    match setExt ty a, setExt ty b with
    | some f, some t => .done (removeAll may d [f, t])
    | _, _ => .thrown d
  | .ok _ => .failed d
  | _ => .ub

/-- `SCR_vtom(arg, ' ')`, scr4/s_stvtom.c. -/
def cut (arg : Text) : List Text :=
  match RepFn.vtoms [' '] (arg.length + 1) arg with
  | .ok ws => ws
  | _ => []

/-- `B_SysRename`, b_fsys.cpp 33-53, with `SCR_rename`, scr4/s_stfren.c 11-24: `link` does not replace a file. -/
def sysMove (arg : Text) (d : Disk) : Out Disk :=
  match cut arg with
  | [f, t] =>
    match d f, d t with
    | some c, none =>
      if may t = false then .failed d
      else if may f = false then .failed (d.set t (some c))
      else .done ((d.set t (some c)).set f none)
    | _, _ => .failed d
  | _ => .failed d

/-- `B_SysCopy`, b_fsys.cpp 61-81, with `SCR_copy_file_ex`, scr4/s_copy.c 26-72: the output is emptied before anything is read. -/
def sysCopy (arg : Text) (d : Disk) : Out Disk :=
  match cut arg with
  | [f, t] =>
    match d f with
    | none => .failed d
    | some _ => if may t = false then .failed d else .done (d.set t (some (((d.set t (some [])) f).getD [])))
  | _ => .failed d

/-- `B_SysAppend`, b_fsys.cpp 89-109, with `SCR_append_file_flush`, scr4/s_copy.c 167-210. -/
def sysAppend (arg : Text) (d : Disk) : Out Disk :=
  match cut arg with
  | [f, t] =>
    match d f with
    | none => .failed d
    | some c =>
      if may t = false then .failed d
      else if f = t ∧ 2048 ≤ c.length then .ub
      else .done (d.set t (some ((d t).getD [] ++ c)))
  | _ => .failed d

/-- `B_SysDelete`, b_fsys.cpp 117-136. -/
def sysDelete (arg : Text) (d : Disk) : Out Disk :=
  match cut arg with
  | [] => .failed d
  | ps => .done (removeAll may d ps)

/-! ## Character sets -/

/-- `SCR_ANSI_TBL`, scr4/s_stansi.c 4-152. -/
def ansiTbl : List Nat :=
  [199, 252, 233, 226, 228, 224, 229, 231, 234, 235, 232, 239, 238, 236, 196, 197, 201, 230, 198, 244, 246, 242, 251, 249, 255, 214, 220, 162, 163,
   165, 160, 164, 225, 237, 243, 250, 241, 209, 170, 186, 191, 166, 172, 189, 188, 161, 171, 187, 167, 168, 169, 173, 192, 193, 194, 192, 184, 185,
   190, 192, 193, 194, 195, 200, 203, 181, 205, 206, 151, 207, 210, 211, 212, 213, 215, 216, 217, 175, 219, 221, 222, 227, 202, 203, 200, 247, 205,
   206, 207, 128, 129, 130, 131, 132, 204, 218, 211, 223, 212, 210, 137, 138, 181, 139, 140, 218, 219, 217, 253, 221, 146, 147, 148, 177, 149, 150,
   151, 167, 153, 154, 176, 155, 183, 156, 179, 178, 157, 158]

/-- `SCR_OemToAnsiChar`, s_stansi.c 167-172. -/
def oemToAnsi (c : Nat) : Nat := if c < 128 then c else ansiTbl.getD (c - 128) 0

/-- The table `SCR_AnsiToOemChar` makes, s_stansi.c 263-265: `k` rounds from `i` on what was there. -/
def oemTbl : Nat → Nat → (Nat → Nat) → Nat → Nat
  | 0, _, t => t
  | k + 1, i, t => oemTbl k (i + 1) fun x => if x = ansiTbl.getD i 0 - 128 then i + 128 else t x

/-- `SCR_AnsiToOemChar`, s_stansi.c 254-269. -/
def ansiToOem (junk : Nat → Nat) (c : Nat) : Nat := if c < 128 then c else oemTbl 128 0 junk (c - 128)

/-- `B_SysOemOrAnsiToAnsiOrOem`, b_fsys.cpp 209-254: both files are opened before it is checked that they are. -/
def sysConvert (f : Nat → Nat) (arg : Text) (d : Disk) : Out Disk :=
  match cut arg with
  | [i, o] =>
    if may o = false then .failed d
    else
      match d i with
      | none => .failed (d.set o (some []))
      | some _ => .done (d.set o (some ((((d.set o (some [])) i).getD []).map f)))
  | _ => .failed d

/-- `SCR_OEM_UTF8_TBL`, scr4/s_stutf8.c 154-302. -/
def oemUtf8 : List Bytes :=
  [[195, 135], [195, 188], [195, 169], [195, 162], [195, 164], [195, 160], [195, 165], [195, 167], [195, 170], [195, 171], [195, 168], [195, 175],
   [195, 174], [195, 172], [195, 132], [195, 133], [195, 137], [195, 166], [195, 134], [195, 180], [195, 182], [195, 178], [195, 187], [195, 185],
   [195, 191], [195, 150], [195, 156], [194, 162], [194, 163], [194, 165], [194, 160], [194, 164], [195, 161], [195, 173], [195, 179], [195, 186],
   [195, 177], [195, 145], [194, 167], [194, 176], [194, 191], [194, 172], [], [194, 189], [194, 188], [194, 161], [194, 171], [194, 187],
   [194, 176], [194, 177], [194, 178], [194, 179], [194, 180], [195, 129], [195, 130], [195, 128], [194, 184], [194, 185], [194, 186], [194, 187],
   [194, 188], [194, 189], [194, 190], [194, 191], [195, 128], [195, 129], [195, 130], [195, 131], [195, 132], [195, 133], [195, 134], [195, 135],
   [195, 136], [195, 137], [195, 138], [195, 139], [195, 140], [195, 141], [195, 142], [195, 143], [195, 144], [195, 145], [195, 138], [195, 139],
   [195, 136], [195, 149], [195, 141], [195, 142], [195, 143], [195, 153], [195, 154], [195, 155], [195, 156], [195, 157], [195, 140], [195, 159],
   [195, 147], [206, 178], [195, 148], [195, 146], [206, 163], [207, 131], [206, 188], [206, 179], [206, 166], [195, 154], [195, 155], [195, 153],
   [226, 136, 158], [226, 136, 158], [226, 136, 136], [194, 180], [226, 137, 161], [226, 136, 169], [226, 137, 165], [226, 137, 164], [194, 167],
   [194, 167], [195, 183], [226, 137, 136], [194, 176], [194, 168], [226, 136, 169], [226, 136, 154], [226, 136, 169], [194, 178], [226, 136, 142],
   []]

/-- `SCR_ANSI_UTF8_TBL`, scr4/s_stutf8.c 305-453. -/
def ansiUtf8 : List Bytes :=
  [[226, 136, 142], [226, 136, 142], [195, 169], [195, 162], [195, 164], [195, 160], [195, 165], [195, 167], [195, 170], [195, 171], [195, 168],
   [195, 175], [195, 174], [195, 172], [195, 132], [195, 133], [195, 137], [195, 166], [195, 134], [195, 180], [195, 182], [195, 242], [195, 187],
   [195, 185], [195, 191], [195, 150], [195, 156], [194, 162], [194, 163], [194, 165], [194, 160], [194, 164], [195, 161], [195, 173], [195, 179],
   [195, 186], [195, 177], [195, 145], [194, 167], [194, 176], [194, 191], [194, 172], [], [194, 189], [194, 188], [194, 161], [194, 171],
   [194, 187], [194, 176], [194, 177], [194, 178], [194, 179], [194, 180], [194, 181], [194, 182], [194, 183], [194, 184], [194, 185], [194, 186],
   [194, 187], [194, 188], [194, 189], [194, 190], [194, 191], [195, 128], [195, 129], [195, 130], [195, 131], [195, 132], [195, 133], [195, 134],
   [195, 135], [195, 136], [195, 137], [195, 138], [195, 139], [195, 140], [195, 141], [195, 142], [195, 143], [195, 144], [195, 145], [195, 146],
   [195, 147], [195, 148], [195, 149], [195, 150], [195, 151], [195, 152], [195, 153], [195, 154], [195, 155], [195, 156], [195, 157], [195, 158],
   [195, 159], [195, 160], [195, 161], [195, 162], [195, 163], [195, 164], [195, 165], [195, 166], [195, 167], [195, 168], [195, 169], [195, 170],
   [195, 171], [195, 172], [195, 173], [195, 174], [195, 175], [195, 176], [195, 177], [195, 178], [195, 179], [195, 180], [195, 181], [195, 182],
   [195, 183], [195, 184], [195, 185], [195, 186], [195, 187], [195, 188], [195, 189], [195, 190], [195, 191]]

/-- `SCR_OemToUTF8Char` and `SCR_AnsiToUTF8Char`, s_stutf8.c 467-475, 487-495; the byte 0 gives an empty text. -/
def utf8Char (tbl : List Bytes) (c : Nat) : Bytes := if 128 ≤ c then tbl.getD (c - 128) [] else if c = 0 then [] else [c]

/-- `B_SysOemAnsiToUTF8`, b_fsys.cpp 149-175, with `SCR_ConvertToUTF8`, s_stutf8.c 558-596. -/
def sysUtf8 (tbl : List Bytes) (arg : Text) (d : Disk) : Out Disk :=
  match cut arg with
  | [i, o] =>
    match d i with
    | none => .failed d
    | some _ => if may o = false then .failed d
      else .done (d.set o (some ([239, 187, 191] ++ (((d.set o (some [])) i).getD []).flatMap (utf8Char tbl))))
  | _ => .failed d

/-- The commands. -/
inductive Cmd
  | fileCopy (ty : Nat)
  | fileRename (ty : Nat)
  | fileDelete (ty : Nat)
  | move
  | copy
  | append
  | delete
  | ansiToOem
  | oemToAnsi
  | ansiToUtf8
  | oemToUtf8
  deriving DecidableEq

/-- A command with its argument. -/
def run (junk : Nat → Nat) (c : Cmd) (arg : Text) (d : Disk) : Out Disk :=
  match c with
  | .fileCopy ty => fileCopy W may ty arg d
  | .fileRename ty => fileRename W may ty arg d
  | .fileDelete ty => fileDelete W may ty arg d
  | .move => sysMove may arg d
  | .copy => sysCopy may arg d
  | .append => sysAppend may arg d
  | .delete => sysDelete may arg d
  | .ansiToOem => sysConvert may (FileCmd.ansiToOem junk) arg d
  | .oemToAnsi => sysConvert may FileCmd.oemToAnsi arg d
  | .ansiToUtf8 => sysUtf8 may ansiUtf8 arg d
  | .oemToUtf8 => sysUtf8 may oemUtf8 arg d

end Iode.FileCmd
