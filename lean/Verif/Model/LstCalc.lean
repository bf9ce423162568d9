import Verif.Model.Args
import Verif.Model.Lists
import Verif.Model.Report
import Mathlib.Data.List.Sort

/-!
# Model of the calculus with lists (api/report/commands/b_data.cpp, scr4/s_stun.c, s_stinte.c, s_stdiff.c)

The arguments of the commands are given as the words they are split in.  The files named in lists are a parameter.
-/
namespace Iode.LstCalc

open Iode.Args (Text)
open Iode.Lists (Store put setOut)

/-- Where words are looked up: `A_expand_super_API`, api/k_super.cpp 586-596. -/
def world (file : Text → Option Text) (st : Store) : Args.World where
  sp := Args.seps
  look := fun x => st.find (toKey .lists x)
  file := file

/-- `SCR_add_tbl`, s_stun.c 4-15. -/
def addTbl (tbl : List Text) (s : Text) : List Text := if s ∈ tbl then tbl else tbl ++ [s]

/-- `SCR_union`, s_stun.c 28-50, of two tables that are not null. -/
def unionT (a b : List Text) : List Text := b.foldl addTbl (a.foldl addTbl [])

/-- `SCR_inter`, s_stinte.c 16-38. -/
def interT (a b : List Text) : List Text := a.foldl (fun tbl s => if b.any (· == s) then addTbl tbl s else tbl) []

/-- `SCR_dif`, s_stdiff.c 15-38. -/
def difT (a b : List Text) : List Text := a.foldl (fun tbl s => if b.any (· == s) then tbl else tbl ++ [s]) []

/-- `Lst_times`, b_data.cpp 1321-1354. -/
def timesT (a b : List Text) : List Text := a.foldl (fun tbl x => b.foldl (fun tbl y => tbl ++ [x ++ y]) tbl) []

/-- The result of the operation; a null table makes union, intersection and difference null and the product empty. -/
def opT (op : Char) (a b : Option (List Text)) : Option (List Text) :=
  let f : Option (List Text → List Text → List Text) :=
    if op = '+' then some unionT else if op = '*' then some interT else if op = '-' then some difT else if op = 'x' then some timesT else none
  f.map fun f => match a, b with
    | some a, some b => f a b
    | _, _ => []

/-- `B_DataCalcLst`, b_data.cpp 1371-1442, with the four words: the lists afterwards and whether 0 is returned.  Null tables and empty ones are stored in
the same way. -/
def calcLst (file : Text → Option Text) (st : Store) (res a op b : Text) : Res Lists.Out :=
  match st.find (toKey .lists a), st.find (toKey .lists b) with
  | some ta, some tb =>
    (Args.init (world file st) ta).bind fun l1 => (Args.init (world file st) tb).bind fun l2 =>
      match op.head?.bind fun c => opT c l1 l2 with
      | none => .ok ⟨st, false⟩
      | some l => Lists.split st res l (-1)
  | _, _ => .ok ⟨st, false⟩

/-- `strcmp` on bytes. -/
def leText (a b : Text) : Bool := !nameLt b a

/-- `B_DataListSort`, b_data.cpp 909-979, with the two words.  `qsort` is any algorithm that sorts: texts that `strcmp` cannot tell apart are the same. -/
def listSort (file : Text → Option Text) (st : Store) (inp out : Text) : Res Lists.Out :=
  match st.find (toKey .lists inp) with
  | none => .ok ⟨st, false⟩
  | some t =>
    (Args.init (world file st) t).bind fun l =>
      match l with
      | none => .ok ⟨st, false⟩
      | some l => .ok (setOut st out (Lists.join (l.insertionSort (leText · ·))))

/-- `B_DataListCount`, b_data.cpp 1450-1463: the exception for a list that does not exist is `err`. -/
def listCount (file : Text → Option Text) (st : Store) (name : Text) : Res Nat :=
  match st.find (toKey .lists name) with
  | none => .err
  | some t => (Args.init (world file st) t).bind fun l => .ok ((l.getD []).length)

/-- `strcpy` and `SCR_replace` in an array of `K_MAX_NAME + 1` characters. -/
def fill (pattern : Text) (x : Char) (by_ : Text) : Res Text :=
  if pattern.length > 20 ∨ (Report.replace [x] by_ pattern).length > 20 then .ub else .ok (Report.replace [x] by_ pattern)

/-- `B_DataUpdate` of a list with a valid name, b_data.cpp 586-636. -/
def update (st : Store) (name v : Text) : Store := st.insert (toKey .lists name) v

/-- `B_DataAppend` of a list with a valid name, b_data.cpp 1142-1196. -/
def append (st : Store) (name v : Text) : Store :=
  match st.find (toKey .lists name) with
  | none => st.insert (toKey .lists name) v
  | some t => st.insert (toKey .lists name) (t ++ ',' :: v)

/-- The inner loop of `B_DataPattern`, from column `j`. -/
def colLoop (ex : Text → Bool) (name : Text) (first : Bool) (r : Text) : Bool → List Text → Store → Res Store
  | _, [], st => .ok st
  | j0, y :: ys, st =>
    (fill r 'y' y).bind fun c =>
      colLoop ex name first r false ys (if ex c then (if first && j0 then update st name c else append st name c) else st)

/-- The outer loop. -/
def rowLoop (ex : Text → Bool) (name pattern : Text) (ys : List Text) : Bool → List Text → Store → Res Store
  | _, [], st => .ok st
  | i0, x :: xs, st =>
    (fill pattern 'x' x).bind fun r =>
      let st := if ys = [] then (if i0 then update st name r else append st name r) else st
      (colLoop ex name i0 r true ys st).bind fun st => rowLoop ex name pattern ys false xs st

/-- `B_DataPattern`, b_data.cpp 135-184, with the words of its two dimensions (none for the second one if it is not given), for a valid name of list; `ex` tells
whether an object exists.  -1 is `none`. -/
def pattern (ex : Text → Bool) (st : Store) (name pat : Text) (xs ys : List Text) : Res (Option Store) :=
  if xs = [] then .ok none else (rowLoop ex name pat ys true xs st).bind fun st => .ok (some st)

end Iode.LstCalc
