import Verif.Model.Res

/-!
# Model of the arguments of commands (scr4/s_ainit.c, api/b_args.cpp, api/k_super.cpp A_expand_super_API)

The separators, the lists and the files are parameters.  `fopen` fails or gives a file that is read to its end.
-/
namespace Iode.Args

abbrev Text := List Char

/-- `A_SEPS` after `IodeInit`, api/report/undoc/b_api.cpp:62. -/
def seps : List Char := [' ', ',', ';', '\n', '\t', '\r']

/-- `A_MAX_ARG`, s_ainit.c:5. -/
def maxArg : Nat := 128

/-- `A_read`, s_ainit.c 268-306, with the word read so far and `q`: the word and the text behind it, `none` for -1. -/
def readFrom (sp : List Char) (acc : Text) (q : Bool) : Text → Option (Text × Text)
  | [] => if acc = [] then none else some (acc, [])
  | c :: t =>
    if q = false ∧ c ∈ sp then
      if acc ≠ [] then some (acc, t) else readFrom sp acc q t
    else if acc.length < maxArg then
      if c = '"' then
        if acc = [] then readFrom sp acc true t
        else if q then some (acc, t)
        else readFrom sp acc q t
      else readFrom sp (acc ++ [c]) q t
    else readFrom sp acc q t

def readWord (sp : List Char) (t : Text) : Option (Text × Text) := readFrom sp [] false t

/-- `while(A_read(..) == 0)`: all the words; `n` is more than the length of the text. -/
def wordsN (sp : List Char) : Nat → Text → List Text
  | 0, _ => []
  | n + 1, t =>
    match readWord sp t with
    | none => []
    | some (w, r) => w :: wordsN sp n r

def words (sp : List Char) (t : Text) : List Text := wordsN sp (t.length + 1) t

/-- What is added to `A_VAL`, and whether `A_D` is set. -/
structure Out where
  vals : List Text
  d : Bool
  deriving DecidableEq

def Out.append (a b : Out) : Out := ⟨a.vals ++ b.vals, a.d || b.d⟩

/-- One after the other. -/
def seqAll (f : Text → Res Out) : List Text → Res Out
  | [] => .ok ⟨[], false⟩
  | w :: ws => (f w).bind fun a => (seqAll f ws).bind fun b => .ok (a.append b)

/-- Where the words between `$` and `@` are looked up. -/
structure World where
  sp : List Char
  look : Text → Option Text
  file : Text → Option Text

/-- `A_add`, s_ainit.c 148-222 without `DOS`, with `n` more than the length of the argument; `deeper` is the same one level below, `none` when `A_NB_OPEN` is 10.
The message for a file that cannot be opened is written to an array of 120 characters (s_acerr.c:11). -/
def addN (W : World) (deeper : Option (Text → Res Out)) : Nat → Text → Res Out
  | 0, _ => .ok ⟨[], false⟩
  | n + 1, arg =>
    let loop (r : Text) : Res Out :=
      seqAll (fun w => if w.head? = some '@' ∨ w.head? = some '$' then addN W deeper n w else .ok ⟨[w], false⟩) (words W.sp r)
    if arg.head? = some '@' ∨ arg.head? = some '$' then
      match deeper with
      | none => .ok ⟨[], false⟩
      | some f =>
        let p := (readWord W.sp arg).getD ([], [])
        if arg.head? = some '@' then
          match W.file p.1.tail with
          | none => if p.1.tail.length ≥ 97 then .ub else .ok ⟨[], false⟩
          | some t => (seqAll f (words W.sp t)).bind fun a => (loop p.2).bind fun b => .ok (a.append b)
        else
          match W.look p.1.tail with
          | none => .ok ⟨[p.1], true⟩
          | some t => (seqAll f (words W.sp t)).bind fun a => (loop p.2).bind fun b => .ok (a.append b)
    else loop arg

/-- `A_add` with `k` levels left. -/
def add (W : World) : Nat → Text → Res Out
  | 0, arg => addN W none (arg.length + 1) arg
  | k + 1, arg => addN W (some (add W k)) (arg.length + 1) arg

/-- `A_init`, `A_initv`, s_ainit.c 66-117: `none` for the null pointer.  The message for a list that does not exist is written to an array of 120
characters. -/
def init (W : World) (arg : Text) : Res (Option (List Text)) :=
  (add W 10 arg).bind fun o =>
    if o.d = false then .ok (some o.vals)
    else (seqAll (add W 10) o.vals).bind fun p =>
      if p.d = false then .ok (some p.vals)
      else if p.vals.any fun w => w.head? = some '$' && decide (w.length ≥ 90) then .ub
      else .ok none

end Iode.Args
