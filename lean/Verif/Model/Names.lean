import Verif.Model.Period

/-!
# Names of IODE objects

Models `trim`, `to_upper`, `to_lower`, `check_name` (api/utils/utils.h) and the case mode of each object
type (api/objs/kdb.h). A name is the list of its bytes, written as `Char`.
-/
namespace Iode

abbrev Name := List Char

/-- `enum IodeType` (api/constants.h:145-155). -/
inductive ObjType where
  | comments | equations | identities | lists | scalars | tables | variables | objects
  deriving Repr, DecidableEq

/-- The characters `trim` strips (api/utils/utils.h:287): blank, tab, newline, return, form feed, vertical tab. -/
def isTrimC (c : Char) : Bool :=
  c.toNat = 32 || (9 ≤ c.toNat && c.toNat ≤ 13)

/-- `trim` (api/utils/utils.h:285-295). -/
def trim (s : Name) : Name :=
  ((s.dropWhile isTrimC).reverse.dropWhile isTrimC).reverse

/-- `to_upper` (api/utils/utils.h:183-189). -/
def toUpper (s : Name) : Name := s.map toUpperC

/-- `to_lower` (api/utils/utils.h:175-181). -/
def toLower (s : Name) : Name := s.map toLowerC

/-- `enum` of case modes, chosen per type by `KDBInfo::set_mode` (api/objs/kdb.h:36-197). -/
inductive CaseMode where
  | asis | upper | lower
  deriving Repr, DecidableEq

/-- `KDBInfo::set_mode` (api/objs/kdb.h). -/
def ObjType.mode : ObjType → CaseMode
  | .comments | .objects => .asis
  | .scalars => .lower
  | .equations | .identities | .lists | .tables | .variables => .upper

/-- `KDB::to_key` (api/objs/kdb.h:287-299). -/
def toKey (ty : ObjType) (name : Name) : Name :=
  match ty.mode with
  | .upper => toUpper (trim name)
  | .lower => toLower (trim name)
  | .asis  => trim name

def isUpperC (c : Char) : Bool := 65 ≤ c.toNat && c.toNat ≤ 90
def isLowerC (c : Char) : Bool := 97 ≤ c.toNat && c.toNat ≤ 122

/-- Letters of the regular expression built by `get_regex_name` (api/utils/utils.h:319-349). -/
def isLetterFor (ty : ObjType) (c : Char) : Bool :=
  match ty with
  | .comments | .objects => isUpperC c || isLowerC c
  | .scalars => isLowerC c
  | _ => isUpperC c

/-- First character class `[<letters>_]`. -/
def nameHeadOk (ty : ObjType) (c : Char) : Bool := isLetterFor ty c || c == '_'

/-- Following character class `[<letters>0-9_#]`. -/
def nameTailOk (ty : ObjType) (c : Char) : Bool :=
  isLetterFor ty c || isDigitC c || c == '_' || c == '#'

/-- `check_name` (api/utils/utils.h:360-377) returns normally. `K_MAX_NAME` is 20: the size test, then the
    whole-string match of `[<letters>_][<letters>0-9_#]{0,19}`. -/
def checkName (ty : ObjType) (name : Name) : Bool :=
  match name with
  | [] => false
  | c :: cs => name.length ≤ 20 && nameHeadOk ty c && cs.all (nameTailOk ty) && cs.length ≤ 19

end Iode
