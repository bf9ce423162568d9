import Verif.Model.Res
import Verif.Model.Names
import Verif.Model.SMap

/-!
# Lists of names: splitting in chunks and expanding

Models `KL_lst` and `KL_expand` (api/objs/k_lst.cpp) with the helpers `SCR_mtov` (scr4/s_stmtov.c) and
`SCR_vtoms` (scr4/s_stvtom.c). The workspace of lists is a map from keys to contents: that `set`, `contains`
and `get_obj_ptr` behave as such a map is property C05.
-/
namespace Iode.Lists

abbrev Word := List Char

/-- The lists of the workspace, by key. -/
abbrev Store := SMap (List Char)

/-- The separators `" ,;\t\n\r\f"` of `KL_expand` (api/objs/k_lst.cpp:325). -/
def isSep (c : Char) : Bool :=
  c.toNat = 32 || c.toNat = 44 || c.toNat = 59 || c.toNat = 9 || c.toNat = 10 || c.toNat = 13 || c.toNat = 12

/-- `SCR_vtoms` (scr4/s_stvtom.c:39-59): skip separators, take the characters up to the next separator, repeat.
    `cur` holds the characters of the current word, last first. -/
def wordsFrom : List Char → List Char → List Word
  | cur, [] => if cur = [] then [] else [cur.reverse]
  | cur, c :: cs =>
    if isSep c then (if cur = [] then wordsFrom [] cs else cur.reverse :: wordsFrom [] cs)
    else wordsFrom (c :: cur) cs

def words (s : List Char) : List Word := wordsFrom [] s

/-- `SCR_mtov(tbl, ';')` (scr4/s_stmtov.c:31-100): the elements with one ';' between them. -/
def join : List Word → List Char
  | [] => []
  | [w] => w
  | w :: ws => w ++ ';' :: join ws

/-- `global_ws_lst->set(name, List(str))`: throws when the key is not a valid name. -/
def put (st : Store) (name : Name) (s : List Char) : Option Store :=
  if checkName .lists (toKey .lists name) then some (st.insert (toKey .lists name) s) else none

/-- The outcome of `KL_lst`: the workspace afterwards and whether the return code is 0. -/
structure Out where
  store : Store
  good : Bool
  deriving Repr, DecidableEq

/-- `sprintf(buf, ...); buf[K_MAX_NAME] = 0;` with `char buf[30]` (api/objs/k_lst.cpp:262-263, 284-285). -/
def inBuf (s : List Char) : Res (List Char) := if s.length ≥ 30 then .ub else .ok (s.take 20)

/-- The loop storing the sublists (api/objs/k_lst.cpp:252-276). `fuel` is the number of strings, which bounds
    the iterations for `c ≥ 1`. Returns the workspace, the return code and `j`. -/
def subLoop (name : Name) (c : Nat) : Nat → Nat → List Word → Store → Res (Out × Nat)
  | 0, j, _, st => .ok (⟨st, true⟩, j)
  | _ + 1, j, [], st => .ok (⟨st, true⟩, j)
  | fuel + 1, j, w :: ws, st =>
    (inBuf (name ++ natToChars j)).bind fun buf =>
      match put st buf (join ((w :: ws).take c)) with
      | none => .ok (⟨st, false⟩, j + 1)
      | some st' => subLoop name c fuel (j + 1) ((w :: ws).drop c) st'

/-- The text `$name0;$name1;...` (api/objs/k_lst.cpp:280-287), from sublist `i`, `n` of them. -/
def refs (name : Name) : Nat → Nat → Res (List Char)
  | _, 0 => .ok []
  | i, n + 1 =>
    (inBuf ('$' :: (name ++ natToChars i ++ [';']))).bind fun buf =>
      (refs name (i + 1) n).bind fun rest => .ok (buf ++ rest)

def setOut (st : Store) (name : Name) (s : List Char) : Out :=
  match put st name s with
  | some st' => ⟨st', true⟩
  | none => ⟨st, false⟩

/-- `KL_lst(name, lst, chunck)` (api/objs/k_lst.cpp:219-306). A zero `chunck` makes the loop endless: it is
    reported as `ub`. -/
def split (st : Store) (name : Name) (lst : List Word) (chunck : Int) : Res Out :=
  if lst.length = 0 then .ok (setOut st name [])
  else if (lst.length : Int) < chunck ∨ chunck < 0 then .ok (setOut st name (join lst))
  else if chunck = 0 then .ub
  else (subLoop name chunck.toNat lst.length 0 lst st).bind fun r =>
    if r.1.good then (refs name 0 r.2).bind fun s => .ok (setOut r.1.store name s)
    else .ok r.1

/-- A slot of the table of pointers of `KL_expand`: null, a string, or a pointer already freed. -/
inductive Cell where
  | null
  | str (w : Word)
  | freed
  deriving Repr, DecidableEq

/-- `SCR_tbl_size`: the number of slots before the null one. -/
def tblSize : List Cell → Res Nat
  | [] => .ub
  | .null :: _ => .ok 0
  | _ :: cs => (tblSize cs).bind fun n => .ok (n + 1)

/-- `SCR_realloc(tbl, sizeof(char*), old, new)`: added slots are zero, supernumerary ones are lost. -/
def resize (arr : List Cell) (n : Nat) : List Cell := arr.take n ++ List.replicate (n - arr.length) .null

/-- Overwrite the slots from `pos` on with `block`. -/
def blit (arr : List Cell) (pos : Nat) (block : List Cell) : List Cell :=
  arr.take pos ++ block ++ arr.drop (pos + block.length)

/-- The insertion of `tbl2` (of `nb2` strings) in place of slot `i` (api/objs/k_lst.cpp:345-351): grow, `memcpy`
    the `nb - i - 1` slots after `i`, copy `tbl2`. A negative length and a `memcpy` between distinct overlapping
    areas are undefined; a `memcpy` onto itself is taken as doing nothing. -/
def insertTbl (arr : List Cell) (nb i : Nat) (tbl2 : List Cell) (nb2 : Nat) : Res (List Cell) :=
  if nb < i + 1 then .ub
  else if nb2 = 0 ∧ nb - i - 1 ≥ 2 then .ub
  else if nb2 ≥ 2 ∧ nb2 - 1 < nb - i - 1 then .ub
  else
    let a := resize arr (nb + nb2)
    let b := blit a (i + nb2) ((a.drop (i + 1)).take (nb - i - 1))
    .ok (blit b i (tbl2.take nb2))

/-- The list a term refers to: it starts with '$' and the rest names a list (api/objs/k_lst.cpp:336-342). -/
def listOf (st : Store) (w : Word) : Option (List Char) :=
  match w with
  | c :: cs => if c = '$' then st.find (toKey .lists cs) else none
  | [] => none

/-- What is left to do: expand a text, or go on with the loop from slot `i`. -/
inductive Task where
  | text (s : List Char)
  | scan (arr : List Cell) (nb i : Nat)
  deriving Repr, DecidableEq

/-- `KL_expand` (api/objs/k_lst.cpp:326-364). The first argument bounds the depth of the computation: an
    execution exceeding every bound is the endless recursion of the code, which exhausts the stack. -/
def exec (st : Store) : Nat → Task → Res (List Cell)
  | 0, _ => .ub
  | n + 1, .text s =>
    if (words s).length = 0 then .ok [.null]
    else exec st n (.scan ((words s).map .str ++ [.null]) (words s).length 0)
  | n + 1, .scan arr nb i =>
    match arr[i]? with
    | none => .ub
    | some .freed => .ub
    | some .null => .ok arr
    | some (.str w) =>
      match listOf st w with
      | none => exec st n (.scan arr nb (i + 1))
      | some content =>
        (exec st n (.text content)).bind fun tbl2 =>
          (tblSize tbl2).bind fun nb2 =>
            (insertTbl (arr.set i .freed) nb i tbl2 nb2).bind fun arr' =>
              exec st n (.scan arr' (nb + nb2 - 1) (i + 1))

def expand (st : Store) (n : Nat) (s : List Char) : Res (List Cell) := exec st n (.text s)

/-- The table holding the given terms. -/
def table (ws : List Word) : List Cell := ws.map .str ++ [.null]

end Iode.Lists
