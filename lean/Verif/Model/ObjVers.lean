import Verif.Model.Obj

/-!
# Objects of older files (api/objs/k_objvers.cpp, the branches for the versions 1 and 2 of api/objs/k_objfile.cpp)

In files of the versions 1 (4.02) and 2 (5.04d) the words of packs have 2 bytes. Each object read is turned into a pack with words of `W` bytes, then
changed according to its type.

Simplifications
* the header is taken as read: `nb` objects follow;
* a file that ends in the table of names is `.err`;
* what `sprintf("%.8g")`, `atof` and `IODE_IS_0` make of a `float` (k_objvers.cpp 270-274, 312-315) is a parameter `dbl` on bit patterns;
* equations and tables are not converted here, but for the formulas in the cells of tables.
-/
namespace Iode
namespace ObjVers
open Pack BinFile Obj

/-- Number of words before the data, `old_ptr[1] + 2 + old_ptr[1] % 2`. -/
def words (n : Nat) : Nat := n + 2 + n % 2

/-- The loop on the positions (k_objvers.cpp 89-90): `n` rounds from the position `i`. -/
def fill (W : Nat) (p : Pack) (add : Nat) (q : Pack) (i : Nat) : Nat → Res Pack
  | 0 => .ok q
  | n + 1 =>
    if p.size < 2 * (i + 2) + 2 then .ub
    else match setWord W q (i + 2) (word 2 p (i + 2) + add) with
      | .ok q1 => fill W p add q1 (i + 1) n
      | .err => .err
      | .ub => .ub

/-- `Pack16To32` (k_objvers.cpp 78-97). -/
def pack16 (W : Nat) (p : Pack) : Res Pack :=
  if p.size < 4 then .ub
  else
    let n := word 2 p 1
    let add := words n * (W - 2)
    let nlg := word 2 p 0 + add
    do
      let q ← setWord W ⟨nlg, fun _ => 0⟩ 0 nlg
      let q ← setWord W q 1 n
      let q ← fill W p add q 0 n
      if nlg < words n * W then .ub
      else if p.size < words n * 2 + (nlg - words n * W) then .ub
      else put q (words n * W) (bytes p.mem (words n * 2) (nlg - words n * W))

/-- `lec_repack` (k_objvers.cpp 99-111) of a text. -/
def lecRepack (W : Nat) (bufs : Nat → Nat → Byte) (lec : Text) : Res Pack := toPack W bufs [.data (lec ++ [0]), .zeros 0]

/-- `KDBComments::sub_convert_obj_version` and `KDBLists::sub_convert_obj_version` (k_objvers.cpp 224-227, 250-253) behind `convert_obj_version`
    (k_objvers.cpp 212-222). -/
def convText (W : Nat) (p : Pack) : Res Pack := pack16 W p

/-- `KDBIdentities::sub_convert_obj_version` (k_objvers.cpp 240-248); without a first element the null pointer is read later on. -/
def convIdt (W : Nat) (bufs : Nat → Nat → Byte) (p : Pack) : Res Pack := do
  let q ← pack16 W p
  match piece W q 0 with
  | none => .ub
  | some l => do
    let t ← upTo l
    lecRepack W bufs t

/-- `KDBScalars::sub_convert_obj_version` (k_objvers.cpp 255-286). -/
def convScl (W : Nat) (dbl : Int → Int) (bufs : Nat → Nat → Byte) (vers : Nat) (p : Pack) : Res Pack := do
  let q ← pack16 W p
  if vers = 2 then .ok q
  else do
    let b ← field 12 (piece W q 0)
    toPack W bufs [.data (putWords 8 ((getWords 4 3 b).map dbl))]

/-- `KDBVariables::sub_convert_obj_version` (k_objvers.cpp 299-322); `n` is the number of periods of the sample. -/
def convVar (W : Nat) (dbl : Int → Int) (bufs : Nat → Nat → Byte) (n : Nat) (vers : Nat) (p : Pack) : Res Pack := do
  let q ← pack16 W p
  if vers = 2 then .ok q
  else do
    let b ← field (4 * n) (piece W q 0)
    toPack W bufs [.data (putWords 8 ((getWords 4 n b).map dbl))]

/-- `T_cell_repack` (k_objvers.cpp 122-151) for a cell with a formula: a pack of the current version is taken for one of an older version. -/
def cellRepack (W : Nat) (bufs : Nat → Nat → Byte) (buf : Nat → Byte) (pack : Pack) (lec : Text) : Res Pack := do
  let o ← lecRepack W bufs lec
  let q ← pack16 W o
  match piece W q 0 with
  | none => add W buf pack (.zeros 0)
  | some l => do
    let t ← upTo l
    let i ← lecRepack W bufs t
    add W buf pack (.data (packList i))

/-- The table of names `OKOBJ` (api/objs/old_structs.h 10-15, k_objfile.cpp 377-393): 2 bytes, 11 of the name, 3 more. -/
def oldNames : Nat → List Byte → List (List Char)
  | 0, _ => []
  | n + 1, t => entryName ⟨2, 0⟩ (t.take 16) :: oldNames n (t.drop 16)

/-- The loop that loads all objects (k_objfile.cpp 467-506) with words of 2 bytes (`K_read_len`, 96-107): the length is read and the stream is
    rewound. -/
def oldLoop {α : Type} (conv : Pack → Res Pack) (K : Kind α) (m : SMap α) : List (List Char) → List Byte → Res (SMap α)
  | [], _ => .ok m
  | n :: ns, file =>
    if file.length < 2 then .err
    else do
      let (o, rest) ← kread (Pack.rd (mem file) 0 2) file
      let q ← conv ⟨o.length, mem o⟩
      let v ← K.read n q
      oldLoop conv K (match v with | some v => m.insert n v | none => m) ns rest

/-- `KDB::load_binary` behind the header, for the versions 1 and 2. -/
def loadOld {α : Type} (conv : Pack → Res Pack) (K : Kind α) (nb : Nat) (file : List Byte) : Res (SMap α) := do
  let (t, rest) ← kread (16 * nb) file
  oldLoop conv K [] (oldNames nb t) rest

end ObjVers
end Iode
