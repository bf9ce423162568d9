import Verif.Model.File

/-!
# Saving a file, step by step (api/objs/k_objfile.cpp:938-980 and 1118-1220)

`save_binary` copies the file to its backup (`std::filesystem::copy_file` with `overwrite_existing`), opens the file with
mode "wb+" (which empties it) and writes it unbuffered (`setvbuf(fd, NULL, 0, ..)`). The model writes one byte at a time,
and the process may stop between two bytes.

Simplifications
* what reached the file is what was written (no loss in the operating system's cache: the stop is the process's, not the
  machine's);
* `take_backup` is called as in `save_binary` only; ascii and csv files are saved without a backup.
-/
namespace Iode
namespace Disk

/-- What `save_binary` is doing. -/
inductive Phase where
  | idle
  | copy (src : List Byte) (k : Nat) (new : List Byte)
  | write (new : List Byte) (k : Nat)
  deriving DecidableEq

/-- The disk. `last` is not part of the program: the last version that was written completely. -/
structure St where
  main : Option (List Byte)
  backup : Option (List Byte)
  phase : Phase
  last : Option (List Byte)
  deriving DecidableEq

/-- Events: the user saves a version (with `KDB::backup_enabled` or not), the program advances by one byte, the copy or the
    writing fails, the process stops. -/
inductive Event where
  | save (new : List Byte) (enabled : Bool)
  | tick
  | copyFail
  | writeFail
  | crash
  deriving DecidableEq

/-- `fopen(file, "wb+")` (api/objs/k_objfile.cpp:1138). -/
def openW (s : St) (new : List Byte) : St := { s with main := some [], phase := .write new 0 }

/-- Start of `save_binary` (api/objs/k_objfile.cpp:1134-1138): no backup when it is disabled or when the file does not exist
    (api/objs/k_objfile.cpp:948-950). -/
def start (s : St) (new : List Byte) (enabled : Bool) : St :=
  match enabled, s.main with
  | true, some src => { s with backup := some [], phase := .copy src 0 new }
  | _, _ => openW s new

/-- One event. A save asked for while another one is running cannot happen (the code is sequential): it is ignored. -/
def step (s : St) : Event → St
  | .save new enabled =>
    match s.phase with
    | .idle => start s new enabled
    | _ => s
  | .tick =>
    match s.phase with
    | .idle => s
    | .copy src k new =>
      if k < src.length then { s with backup := some (src.take (k + 1)), phase := .copy src (k + 1) new }
      else openW s new
    | .write new k =>
      if k < new.length then { s with main := some (new.take (k + 1)), phase := .write new (k + 1) }
      else { s with phase := .idle, last := some new }
  -- the failure is a warning and its return code is ignored (api/objs/k_objfile.cpp:972-979 and 1134-1135)
  | .copyFail =>
    match s.phase with
    | .copy _ _ new => openW s new
    | _ => s
  | .writeFail =>
    match s.phase with
    | .write _ _ => { s with phase := .idle }
    | _ => s
  | .crash => { s with phase := .idle }

/-- A history. -/
def run (s : St) (es : List Event) : St := es.foldl step s

end Disk
end Iode
