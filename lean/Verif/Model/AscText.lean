import Verif.Model.Ascii

/-!
# Comments, lists and identities in text form

The ascii formats of comments, lists and identities (api/ascii/k_cccmt.cpp, k_cclst.cpp, k_ccidt.cpp): a name and a string
for each object.

Simplifications
* a byte is written as a `Char`; the conversions between UTF-8 and the OEM code page (iconv) are parameters, `none` is an
  exception;
* whether a formula compiles is a parameter (`valid`);
* an object of the database is its text; `load_asc` works on a cleared database without subsets, the messages and the name of
  the file are left out.
-/
namespace Iode
namespace Asc
open Yy

/-! ## Texts -/

/-- The conversions done by iconv (api/utils/utils.h:103-158). -/
structure Conv where
  enc : Text → Option Text
  dec : Text → Option Text

/-- A C string: the characters before the first null character. -/
def cstr (t : Text) : Text := t.takeWhile (fun c => c.toNat ≠ 0)

/-- `utf8_to_oem` (api/utils/utils.h:103-158 and 165-168). -/
def toOem (cv : Conv) (t : Text) : Option Text := if t.isEmpty then some t else cv.enc (cstr t)

/-- `oem_to_utf8` (api/utils/utils.h:103-163). -/
def toUtf8 (cv : Conv) (t : Text) : Option Text := if t.isEmpty then some t else cv.dec (cstr t)

/-! ## Lines -/

/-- The separators of `K_wrap` (api/utils/yy.cpp:308). -/
def wrapSeps : Text := [';', ',', '*', '+', '-', '/', ')', ' ']

/-- `prev` of `SCR_text` (scr4/s_sttext.c:57-58): the index of the last separator, 0 if there is none. -/
def lastSep : Nat → Nat → Text → Nat
  | prev, _, [] => prev
  | prev, i, c :: r => lastSep (if wrapSeps.contains c then i else prev) (i + 1) r

/-- The number of characters of the first line of a text that does not begin with a space (scr4/s_sttext.c:57-62). -/
def cut (lg : Nat) (s : Text) : Nat :=
  let l := (s.takeWhile (fun c => c.toNat ≠ 10)).take lg
  let prev := lastSep 0 0 l
  if l.length < s.length ∧ lg ≤ l.length ∧ 0 < prev then prev + 1 else l.length

/-- The lines of `SCR_text` (scr4/s_sttext.c:44-77); `fuel` is more than the number of lines. -/
def wrapLines (lg : Nat) : Nat → Text → List Text
  | 0, _ => []
  | n + 1, s =>
    match skipSpaces s with
    | [] => []
    | c :: r =>
      let k := cut lg (c :: r)
      (c :: r).take k :: (if (c :: r).drop k = [] then [] else wrapLines lg n ((c :: r).drop k))

/-- `SCR_mtov` (scr4/s_stmtov.c:31-97) with new lines. -/
def joinLines : List Text → Text
  | [] => []
  | [l] => l
  | l :: ls => l ++ '\n' :: joinLines ls

/-- `K_wrap` (api/utils/yy.cpp:297-315). -/
def wrap (lg : Nat) (t : Text) : Text :=
  if t.contains '\n' then t else joinLines (wrapLines lg (t.length + 1) t)

/-! ## Loading -/

/-- No key words: `YY_open(..., NULL, 0, ...)`. -/
def noKeys : Keys Nat := []

/-- The second loop of `read_cmt` and `read_lst` (api/ascii/k_cccmt.cpp:47-52, api/ascii/k_cclst.cpp:51-57): what is behind the
    string is skipped up to a word. -/
def skipText : Nat → St → Res St
  | 0, _ => .err
  | n + 1, st => (lxs noKeys st).bind fun p =>
    match p.1 with
    | .raw .eof => .ok (unread p.2)
    | .raw (.word _) => .ok (unread p.2)
    | _ => skipText n p.2

/-- `read_cmt` and `read_lst` (api/ascii/k_cccmt.cpp:30-52, api/ascii/k_cclst.cpp:34-57) without the insertion. -/
def readText (st : St) : Res (Text × St) :=
  (lxs noKeys st).bind fun p =>
    match p.1 with
    | .raw (.string t) => (skipText (p.2.text.length + 2) p.2).bind fun s => .ok (wrap 60 (cstr t), s)
    | _ => (skipText ((unread p.2).text.length + 2) (unread p.2)).bind fun s => .ok ([], s)

/-- `kdb.set(name, text)` in `read_cmt` and `read_lst` (api/ascii/k_cccmt.cpp:54-65, api/ascii/k_cclst.cpp:59-70): nothing is
    stored when the conversion fails or the name is invalid.  The name is cut (api/ascii/k_cccmt.cpp:131-132,
    api/ascii/k_cclst.cpp:143-144). -/
def putText (ty : ObjType) (cv : Conv) (w t : Text) (db : SMap Text) : SMap Text :=
  match toUtf8 cv t with
  | none => db
  | some u => if checkName ty (toKey ty (w.take 20)) then SMap.insert (toKey ty (w.take 20)) u db else db

/-- The loop of `KDBComments::load_asc` (api/ascii/k_cccmt.cpp:116-143) and `KDBLists::load_asc`
    (api/ascii/k_cclst.cpp:128-155). -/
def textLoop (ty : ObjType) (cv : Conv) : Nat → St → SMap Text → Res (SMap Text)
  | 0, _, _ => .err
  | n + 1, st, db => (lxs noKeys st).bind fun p =>
    match p.1 with
    | .raw .eof => .ok db
    | .raw (.word w) => (readText p.2).bind fun r => textLoop ty cv n r.2 (putText ty cv w r.1 db)
    | _ => textLoop ty cv n p.2 db

/-- `load_asc` of comments and lists (api/ascii/k_cccmt.cpp:94-147, api/ascii/k_cclst.cpp:106-159) of a file with this content;
    the result is always `true`. -/
def loadTexts (ty : ObjType) (cv : Conv) (t : Text) : Res (SMap Text) :=
  textLoop ty cv ((expand 0 t).length + 2) ⟨.err, false, expand 0 t⟩ []

/-- `Identity::set_lec` (api/objs/identities.h:36-53): a formula that does not compile is replaced by nothing. -/
def setLec (valid : Text → Bool) (lec : Text) : Text := if valid lec then lec else []

/-- The loop of `KDBIdentities::load_asc` (api/ascii/k_ccidt.cpp:69-115): the result and the identities read.  What is behind
    the name is taken away even if it is no string. -/
def idtLoop (cv : Conv) (valid : Text → Bool) : Nat → St → SMap Text → Res (Bool × SMap Text)
  | 0, _, _ => .err
  | n + 1, st, db => (lxs noKeys st).bind fun p =>
    match p.1 with
    | .raw .eof => .ok (true, db)
    | .raw (.word w) => (lxs noKeys p.2).bind fun q =>
      match q.1 with
      | .raw (.string t) =>
        match toUtf8 cv (wrap 60 (cstr t)) with
        | none => .ok (false, db)
        | some u =>
          if checkName .identities (toKey .identities (w.take 20)) then
            idtLoop cv valid n q.2 (SMap.insert (toKey .identities (w.take 20)) (setLec valid u) db)
          else .ok (false, db)
      | _ => idtLoop cv valid n q.2 db
    | _ => idtLoop cv valid n p.2 db

/-- `KDBIdentities::load_asc` (api/ascii/k_ccidt.cpp:42-118) of a file with this content. -/
def loadIdts (cv : Conv) (valid : Text → Bool) (t : Text) : Res (Bool × SMap Text) :=
  idtLoop cv valid ((expand 0 t).length + 2) ⟨.err, false, expand 0 t⟩ []

/-! ## Saving -/

/-- The characters written by `SCR_fprintf_esc` (scr4/s_stdhex.c:89-104) between the quotes. -/
def escape (t : Text) : Text := (cstr t).flatMap fun c => if c = '"' ∨ c = '\\' then ['\\', c] else [c]

/-- `std::replace(..., '\n', ' ')` (api/ascii/k_cccmt.cpp:189). -/
def flat (t : Text) : Text := t.map fun c => if c.toNat = 10 then ' ' else c

/-- What the three `save_asc` do with a text of the code page: comments (api/ascii/k_cccmt.cpp:189-190), lists
    (api/ascii/k_cclst.cpp:201), identities (api/ascii/k_ccidt.cpp:160). -/
def bodyOf (ty : ObjType) (o : Text) : Text :=
  match ty with
  | .comments => escape (flat o)
  | .lists => escape o
  | _ => cstr o

/-- One object (api/ascii/k_cccmt.cpp:184-192, api/ascii/k_cclst.cpp:196-203, api/ascii/k_ccidt.cpp:155-161): when the conversion
    fails only the name is written. -/
def textLine (ty : ObjType) (cv : Conv) (e : Text × Text) : Text :=
  e.1 ++ ' ' :: (match toOem cv e.2 with
    | none => []
    | some o => '"' :: (bodyOf ty o ++ ['"', '\n']))

/-- `save_asc` (api/ascii/k_cccmt.cpp:159-205, api/ascii/k_cclst.cpp:171-216, api/ascii/k_ccidt.cpp:130-174): the result and the
    content of the file. -/
def saveTexts (ty : ObjType) (cv : Conv) (db : SMap Text) : Bool × Text :=
  (db.all fun e => (toOem cv e.2).isSome, db.flatMap (textLine ty cv))

end Asc
end Iode
