import Verif.Model.Res

/-!
# Packs (api/objs/pack.cpp)

A pack is one allocated block of bytes: words (`OSIZE`, a `long` of `W` bytes, little-endian) `pos[0]` = total size,
`pos[1]` = number of elements, `pos[2..]` = positions, then the data.

Memory is a function from addresses to bytes with the allocated size beside it; every access is tested against the size
and an access outside is `.ub`. The shared buffer of `BUF_alloc` has arbitrary earlier contents (`buf`).

Simplifications
* the source of an element is a byte list whose length is the argument `lg` (the null pointer with `lg > 0`, which means
  zeros, is the constructor `none`);
* a `long` is read as a natural number (sizes below 2^(8W-1), see the hypothesis of the theorems);
* allocation does not fail; `SW_nalloc` and `SW_nrealloc` set new memory to zero (scr4/s_allc.c:221, scr4/s_swallc.c:399).
-/
namespace Iode

abbrev Byte := Fin 256

structure Pack where
  size : Nat
  mem : Nat → Byte

namespace Pack

/-- A little-endian word of `w` bytes at address `a`. -/
def rd (m : Nat → Byte) (a : Nat) : Nat → Nat
  | 0 => 0
  | w + 1 => (m a).val + 256 * rd m (a + 1) w

/-- Write a little-endian word of `w` bytes at address `a`. -/
def wr (m : Nat → Byte) (a v w : Nat) : Nat → Byte :=
  fun x => if a ≤ x ∧ x < a + w then ⟨v / 256 ^ (x - a) % 256, Nat.mod_lt _ (by decide)⟩ else m x

/-- `memcpy` of a list of bytes to address `a`. -/
def cpy (m : Nat → Byte) (a : Nat) (bs : List Byte) : Nat → Byte :=
  fun x => if a ≤ x ∧ x < a + bs.length then bs.getD (x - a) 0 else m x

/-- The `n` bytes at address `a`. -/
def bytes (m : Nat → Byte) (a n : Nat) : List Byte := (List.range n).map (fun j => m (a + j))

/-- `pos[k]`. -/
def word (W : Nat) (p : Pack) (k : Nat) : Nat := rd p.mem (W * k) W

/-- `P_create` (api/objs/pack.cpp:87-98): the first `unsigned short` is set, the rest is zero. -/
def create (W : Nat) : Pack := ⟨2 * W, wr (fun _ => 0) 0 (2 * W) 2⟩

/-- `P_ALIGN` padding (api/objs/pack.cpp:133): 1 to 4 more bytes. -/
def padded (lg : Nat) : Nat := lg + 4 - lg % 4

/-- `SW_nrealloc` (scr4/s_swallc.c:386-409). -/
def realloc (p : Pack) (n : Nat) : Pack := ⟨n, fun x => if x < p.size then p.mem x else 0⟩

/-- Write a word if it is inside the block. -/
def setWord (W : Nat) (p : Pack) (k v : Nat) : Res Pack :=
  if W * k + W ≤ p.size then .ok ⟨p.size, wr p.mem (W * k) v W⟩ else .ub

/-- Copy bytes if they are inside the block. -/
def put (p : Pack) (a : Nat) (bs : List Byte) : Res Pack :=
  if a + bs.length ≤ p.size then .ok ⟨p.size, cpy p.mem a bs⟩ else .ub

/-- The loop that shifts the positions (api/objs/pack.cpp:179-180). -/
def shift (W : Nat) (np : Nat) (p : Pack) (i : Nat) : Nat → Res Pack
  | 0 => .ok p
  | n + 1 =>
    match setWord W p (i + 2) (word W p (i + 2) + np) with
    | .ok p1 => shift W np p1 (i + 1) n
    | .err => .err
    | .ub => .ub

/-- An element: its bytes, or `lg` zeros (null pointer). -/
inductive Elem where
  | data (bs : List Byte)
  | zeros (lg : Nat)

/-- Argument `lg` of `P_add`. -/
def Elem.lg : Elem → Nat
  | .data bs => bs.length
  | .zeros n => n

/-- The bytes copied by `memcpy` or `memset` (api/objs/pack.cpp:153-160 and 171-176); nothing when `lg` is 0. -/
def Elem.copied : Elem → List Byte
  | .data bs => bs
  | .zeros n => if n = 0 then [] else List.replicate (padded n) 0

/-- Contents of the shared buffer once the old data and the new element have been copied (api/objs/pack.cpp:166-177);
    the padding is what the buffer held before. -/
def buffer (buf : Nat → Byte) (old new : List Byte) (n : Nat) : List Byte :=
  (List.range n).map (fun j => if j < old.length then old.getD j 0
    else if j < old.length + new.length then new.getD (j - old.length) 0 else buf j)

/-- `P_add` on a pack without elements (api/objs/pack.cpp:147-162). -/
def addFirst (W : Nat) (p : Pack) (e : Elem) (lg2 np : Nat) : Res Pack := do
  let p ← setWord W p 0 (word W p 0 + lg2 + np)
  let p ← setWord W p 1 1
  let p ← setWord W p 2 (2 * W + np)
  put p (word W p 2) e.copied

/-- `P_add` on a pack with elements (api/objs/pack.cpp:164-186). -/
def addNext (W : Nat) (buf : Nat → Byte) (p : Pack) (e : Elem) (lg2 np : Nat) : Res Pack := do
  let dif := word W p 0 - word W p 2
  if word W p 2 + dif > p.size then .ub else
  let data := buffer buf (bytes p.mem (word W p 2) dif) e.copied (dif + lg2)
  let n := word W p 1
  let p ← shift W np p 0 n
  let p ← setWord W p (n + 2) (word W p 0 + np)
  let p ← setWord W p 0 (word W p 0 + lg2 + np)
  let p ← setWord W p 1 (n + 1)
  put p (word W p 2) (data.take (word W p 0 - word W p 2))

/-- `P_add` (api/objs/pack.cpp:127-184). -/
def add (W : Nat) (buf : Nat → Byte) (p : Pack) (e : Elem) : Res Pack :=
  let lg2 := padded e.lg
  let np := if word W p 1 % 2 = 0 then 2 * W else 0
  let p1 := realloc p (word W p 0 + lg2 + np)
  if word W p1 1 = 0 then addFirst W p1 e lg2 np else addNext W buf p1 e lg2 np

/-- `P_nb` (api/objs/pack.cpp:277-286). -/
def nb (W : Nat) (p : Pack) : Nat := word W p 1

/-- `P_get_ptr` (api/objs/pack.cpp:196-208). -/
def getPtr (W : Nat) (p : Pack) (i : Int) : Option Nat :=
  if i < 0 ∨ i > (word W p 1 : Int) - 1 then none else some (word W p (i.toNat + 2))

/-- `P_get_len` (api/objs/pack.cpp:221-247). -/
def getLen (W : Nat) (p : Pack) (i : Int) : Int :=
  if word W p 0 = 0 then 0
  else if i < 0 then word W p 0
  else if i > (word W p 1 : Int) - 1 then -1
  else if i = (word W p 1 : Int) - 1 then (word W p 0 : Int) - word W p (i.toNat + 2)
  else (word W p (i.toNat + 3) : Int) - word W p (i.toNat + 2)

/-- A sequence of `P_add`, each with its own earlier contents of the shared buffer. -/
def build (W : Nat) (p : Pack) : List ((Nat → Byte) × Elem) → Res Pack
  | [] => .ok p
  | (buf, e) :: es =>
    match add W buf p e with
    | .ok p1 => build W p1 es
    | .err => .err
    | .ub => .ub

end Pack
end Iode
