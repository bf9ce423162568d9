import Verif.Model.Pack
import Verif.Model.SMap
import Verif.Model.Sample

/-!
# Binary files (api/objs/k_objfile.cpp)

A file is the label, the header `KDB32`, the table of names and one record per object. A record is the pack itself (whose
first word is its own size) or, when compressed, a word holding minus the compressed size and the compressed bytes.

Simplifications
* the label is constant and the header is a record of its fields (`k_nb`, `k_compressed`, `k_data`);
* the compressor is a parameter: `enc` and a partial inverse `dec`; what the code does after a failed decompression (it
  ignores the return code) is `.ub`;
* the architecture is little-endian, so `K_xdrobj` does nothing; the file version is 0 (the current one), so
  `convert_obj_version` returns its argument;
* an object is its pack; `binary_to_obj` and `obj_to_binary` are not part of this file;
* `std::lower_bound` is the first position whose name is not smaller, which is what it computes on a sorted table.
-/
namespace Iode
namespace BinFile

/-- The memory a list of bytes stands for. -/
def mem (l : List Byte) : Nat → Byte := fun i => l.getD i 0

/-- A `long` of `W` bytes, two's complement. -/
def getWord (W : Nat) (l : List Byte) : Int :=
  let u := Pack.rd (mem l) 0 W
  if 2 * u < 256 ^ W then u else (u : Int) - 256 ^ W

/-- The `W` bytes of a `long`. -/
def putWord (W : Nat) (v : Int) : List Byte :=
  Pack.bytes (Pack.wr (fun _ => 0) 0 (v % 256 ^ W).toNat W) 0 W

/-- A compressor (scr4/s_gzip.c). -/
structure Codec where
  enc : List Byte → List Byte
  dec : List Byte → Option (List Byte)

/-- `kwrite(buf, len, 1, fd)` (api/objs/k_objfile.cpp:48-52): `fwrite` of zero bytes returns 0, a failure. -/
def kwrite (buf : List Byte) : Res (List Byte) := if buf.length = 0 then .err else .ok buf

/-- `kread(ptr, n, 1, fd)` (api/objs/k_objfile.cpp:54-58): the bytes read and the rest of the file. -/
def kread (n : Nat) (file : List Byte) : Res (List Byte × List Byte) :=
  if n = 0 ∨ file.length < n then .err else .ok (file.take n, file.drop n)

/-- `K_cwrite` (api/objs/k_objfile.cpp:996-1036). -/
def cwrite (W : Nat) (cod : Codec) (compress : Bool) (buf : List Byte) (minlen : Int) : Res (List Byte) :=
  if compress = false ∨ (buf.length : Int) < minlen then kwrite buf
  else if minlen > 0 ∧ buf.length ≤ (cod.enc buf).length + W then kwrite buf
  else match kwrite (cod.enc buf) with
    | .ok z => .ok (putWord W (-(z.length : Int)) ++ z)
    | .err => .err
    | .ub => .ub

/-- `K_read_len` (api/objs/k_objfile.cpp:75-109): the stream is rewound. -/
def readLen (W : Nat) (file : List Byte) : Res Int :=
  if file.length < W then .err else .ok (getWord W file)

/-- Reading a compressed block (api/objs/k_objfile.cpp:431-451 and 478-493). -/
def readZ (W : Nat) (cod : Codec) (clen : Nat) (file : List Byte) : Res (List Byte × List Byte) :=
  match kread clen (file.drop W) with
  | .ok (z, rest) =>
    match cod.dec z with
    | some o => .ok (o, rest)
    | none => .ub
  | .err => .err
  | .ub => .ub

/-- One record in the loop that loads every object (api/objs/k_objfile.cpp:472-501). -/
def readRecord (W : Nat) (cod : Codec) (file : List Byte) : Res (List Byte × List Byte) :=
  match readLen W file with
  | .ok len => if len < 0 then readZ W cod (-len).toNat file else kread len.toNat file
  | .err => .err
  | .ub => .ub

/-- Layout of `KOBJ` (api/objs/k_objfile.cpp:32-36): bytes before the name and padding after it. -/
structure Layout where
  off : Nat
  pad : Nat

/-- `sizeof(KOBJ)`. -/
def Layout.size (L : Layout) : Nat := L.off + 21 + L.pad

def toByte (c : Char) : Byte := ⟨c.toNat % 256, Nat.mod_lt _ (by decide)⟩

/-- One `KOBJ` (api/objs/k_objfile.cpp:1172-1177): `strcpy` in 21 bytes; the bytes after the end of the name are not
    initialised. -/
def entry (L : Layout) (junk : Nat → Byte) (name : List Char) : Res (List Byte) :=
  if name.length ≥ 21 then .ub
  else .ok (List.replicate L.off 0 ++ name.map toByte ++ [0] ++ (List.range (20 - name.length + L.pad)).map junk)

/-- The table of names. -/
def table (L : Layout) (junk : Nat → Byte) : List (List Char) → Res (List Byte)
  | [] => .ok []
  | n :: ns =>
    match entry L junk n, table L junk ns with
    | .ok e, .ok es => .ok (e ++ es)
    | .ub, _ => .ub
    | _, .ub => .ub
    | _, _ => .err

/-- The records of the objects, compressed from 20 bytes on (api/objs/k_objfile.cpp:1193-1214). -/
def records (W : Nat) (cod : Codec) (compress : Bool) : List (List Byte) → Res (List Byte)
  | [] => .ok []
  | o :: os =>
    match cwrite W cod compress o 20, records W cod compress os with
    | .ok e, .ok es => .ok (e ++ es)
    | .ub, _ => .ub
    | _, .ub => .ub
    | _, _ => .err

/-- A file after its label. -/
structure File where
  nb : Nat
  compressed : Bool
  data : List Byte
  body : List Byte

/-- `KDB::save` (api/objs/k_objfile.cpp:830-838: an empty workspace is refused) and `KDB::save_binary`
    (api/objs/k_objfile.cpp:1118-1220). -/
def save (W : Nat) (cod : Codec) (L : Layout) (junk : Nat → Byte) (compress : Bool) (data : List Byte)
    (m : SMap (List Byte)) : Res File := do
  if m.length = 0 then .err else
  let t ← table L junk (SMap.keys m)
  let t ← cwrite W cod compress t (-1)
  let r ← records W cod compress (m.map Prod.snd)
  .ok ⟨m.length, compress, data, t ++ r⟩

/-- `std::string(k_objs[i].o_name)`: up to the null byte. -/
def entryName (L : Layout) (e : List Byte) : List Char :=
  ((e.drop L.off).takeWhile (fun b => b.val ≠ 0)).map (fun b => Char.ofNat b.val)

/-- `v_names` (api/objs/k_objfile.cpp:456-458). -/
def tableNames (L : Layout) : Nat → List Byte → List (List Char)
  | 0, _ => []
  | n + 1, t => entryName L (t.take L.size) :: tableNames L n (t.drop L.size)

/-- The compressed table (api/objs/k_objfile.cpp:422-451). -/
def readTableZ (W : Nat) (cod : Codec) (file : List Byte) : Res (List Byte × List Byte) :=
  match readLen W file with
  | .ok len => if len ≥ 0 then .ub else readZ W cod (-len).toNat file
  | .err => .err
  | .ub => .ub

/-- Reading the names (api/objs/k_objfile.cpp:395-461). The table must have the expected size: a shorter one leaves names
    empty and a longer one overflows the block. -/
def readNames (W : Nat) (cod : Codec) (L : Layout) (f : File) : Res (List (List Char) × List Byte) := do
  let (t, rest) ← if f.compressed then readTableZ W cod f.body else kread (L.size * f.nb) f.body
  if t.length = L.size * f.nb then .ok (tableNames L f.nb t, rest) else .ub

/-- The loop over the names (api/objs/k_objfile.cpp:467-506); `.err` is the jump to `error`, where the workspace is
    cleared. -/
def loadLoop (W : Nat) (cod : Codec) (m : SMap (List Byte)) : List (List Char) → List Byte → Res (SMap (List Byte))
  | [], _ => .ok m
  | n :: ns, file =>
    match readRecord W cod file with
    | .ok (o, rest) => loadLoop W cod (m.insert n o) ns rest
    | .err => .err
    | .ub => .ub

/-- `KDB::load_binary` without a list of names (api/objs/k_objfile.cpp:279-507). -/
def load (W : Nat) (cod : Codec) (L : Layout) (m : SMap (List Byte)) (f : File) : Res (SMap (List Byte)) := do
  let (names, rest) ← readNames W cod L f
  loadLoop W cod m names rest

/-- `index_of_name` (api/objs/k_objfile.cpp:251-258). -/
def indexOf (name : List Char) : List (List Char) → Option Nat
  | [] => none
  | n :: ns => if nameLt n name then (indexOf name ns).map (· + 1) else some 0

/-- Skipping `n` records one by one (api/objs/k_objfile.cpp:557-567). -/
def skip (W : Nat) (len : Int) : Nat → List Byte → Res (Int × List Byte)
  | 0, file => .ok (len, file)
  | n + 1, file =>
    match readLen W file with
    | .ok l =>
      let l' : Int := if l < 0 then -l + W else l
      skip W l' n (file.drop l'.toNat)
    | .err => .err
    | .ub => .ub

/-- Moving to record `pos` from record `lpos` (api/objs/k_objfile.cpp:545-568). `fixed`: variables and scalars. -/
def moveTo (W : Nat) (fixed compressed : Bool) (len : Int) (pos lpos : Nat) (file : List Byte) : Res (Int × List Byte) :=
  if compressed = false ∧ fixed = true then
    if pos > lpos then (if len < 0 then .ub else .ok (len, file.drop (len.toNat * (pos - lpos)))) else .ok (len, file)
  else skip W len (pos - lpos) file

/-- Reading the object (api/objs/k_objfile.cpp:572-605): the length is made positive first, so the branch that
    decompresses is never taken. -/
def readRaw (W : Nat) (file : List Byte) : Res (Int × List Byte × List Byte) :=
  match readLen W file with
  | .ok l =>
    let l' : Int := if l < 0 then -l + W else l
    match kread l'.toNat file with
    | .ok (o, rest) => .ok (l', o, rest)
    | .err => .err
    | .ub => .ub
  | .err => .err
  | .ub => .ub

/-- The loop over the requested names (api/objs/k_objfile.cpp:536-613). -/
def someLoop (W : Nat) (fixed compressed : Bool) (names : List (List Char)) :
    SMap (List Byte) → Int → Nat → List Byte → List (List Char) → Res (SMap (List Byte))
  | m, _, _, _, [] => .ok m
  | m, len, lpos, file, n :: ns =>
    match indexOf n names with
    | none => someLoop W fixed compressed names m len lpos file ns
    | some pos =>
      match moveTo W fixed compressed len pos lpos file with
      | .ok (_, file) =>
        match readRaw W file with
        | .ok (len, o, file) => someLoop W fixed compressed names (m.insert n o) len (pos + 1) file ns
        | .err => .err
        | .ub => .ub
      | .err => .err
      | .ub => .ub

/-- `KDB::load_binary` with a non-empty list of names (api/objs/k_objfile.cpp:279-461 and 510-613). -/
def loadSome (W : Nat) (cod : Codec) (L : Layout) (fixed : Bool) (m : SMap (List Byte)) (f : File)
    (wanted : List (List Char)) : Res (SMap (List Byte)) := do
  let (names, rest) ← readNames W cod L f
  let len ← if fixed then readLen W rest else .ok 0
  someLoop W fixed f.compressed names m len 0 rest wanted

/-! ## The sample in the header -/

/-- Bytes of a `Period` (api/time/period.h:79-83): two `long`, a `char` and padding. -/
def putPeriod (W : Nat) (junk : List Byte) (p : Period) : List Byte :=
  putWord W p.year ++ putWord W p.step ++ [toByte p.periodicity] ++ junk

/-- Bytes of a `Sample` (api/time/sample.h:9-11). -/
def putSample (W : Nat) (junk : List Byte) (s : Sample) : List Byte :=
  putPeriod W junk s.start ++ putPeriod W junk s.stop ++ putWord 2 s.nb ++ junk.take 2

/-- `KDBVariables::_predump_` and `predump` (api/objs/variables.h:104-117, api/objs/k_objfile.cpp:1064-1069): the bytes of
    the sample in a 64-byte field set to zero. -/
def predump (W : Nat) (junk : List Byte) (s : Option Sample) : List Byte :=
  match s with
  | none => List.replicate 64 0
  | some s => putSample W junk s ++ List.replicate (64 - (putSample W junk s).length) 0

/-- A `Period` from its bytes. -/
def getPeriod (W : Nat) (l : List Byte) : Period :=
  ⟨getWord W l, getWord W (l.drop W), Char.ofNat (l.getD (2 * W) 0).val⟩

/-- A `Sample` from its bytes; `P` is the size of a `Period`. -/
def getSample (W P : Nat) (l : List Byte) : Sample :=
  ⟨getPeriod W l, getPeriod W (l.drop P), getWord 2 (l.drop (2 * P))⟩

/-- `KDBInfo::_preload_` and `KDBVariables::preload` (api/objs/k_objfile.cpp:163-164 and 236-248). -/
def preload (W P : Nat) (data : List Byte) : Option Sample :=
  if (data.getD 0 0).val ≠ 0 then some (getSample W P data) else none

end BinFile
end Iode
