import Verif.Model.DataCmd
import Verif.Model.Idt

/-!
# The command that computes a variable by a formula

Source: api/report/commands/b_data.cpp 238-299 (`B_DataCalcVar`), api/b_args.cpp 183-195, api/lec/k_lec.cpp 285-295, api/lec/l_link.cpp 201-208.

Simplifications: the workspace of variables has a sample (without one `get_sample()` is null at the loop); the tokens of a text are given by a function `lex` (see
`Verif.Model.LecLex`); the messages are left out.
-/
namespace Iode.DataCmd

open Iode.Args (Text)
open Iode.Lec

variable {F : Type}

/-- The variable is created when it is missing, b_data.cpp 249-264: `none` for `std::invalid_argument`, which is not caught. -/
def created (A : Arith F) (w : Ws F) (name : Text) : Option (Ws F) :=
  if has .variables w.vars name then some w
  else match put .variables w.vars name (List.replicate w.nb.toNat A.na) with
    | some vars => some { w with vars := vars }
    | none => none

/-- The loop over the periods, b_data.cpp 283-288: each value is stored before the next one is computed. -/
def calcLoop (A : Arith F) (l : Linked) (name : Text) : Nat → Int → Ws F → Out (Ws F)
  | 0, _, w => .done w
  | n + 1, t, w =>
    match l.exec A w t with
    | .ok d =>
      match Idt.store w name t d with
      | .ok w' => calcLoop A l name n (t + 1) w'
      | .err => .thrown w
      | .ub => .ub
    | .err => .thrown w
    | .ub => .ub

/-- Compilation, link and loop, b_data.cpp 266-296.  `link_sample` throws outside of the `try`. -/
def calcRun (A : Arith F) (w : Ws F) (name : Text) (ts : List RTok) : Out (Ws F) :=
  match compile [] (group ts) with
  | .err _ => .failed w
  | .ub => .ub
  | .ok as =>
    match build as with
    | .err => .failed w
    | .ub => .ub
    | .ok code =>
      match linkNames w (lnames (group ts)) with
      | .err => .failed w
      | .ub => .ub
      | .ok poss =>
        match linkSample w code with
        | .ok _ => calcLoop A ⟨code, lnames (group ts), poss⟩ name w.nb.toNat 0 w
        | .err => .thrown w
        | .ub => .ub

/-- `B_DataCalcVar`, b_data.cpp 238-299.  `arg + lg + 1` is outside the text when there is nothing behind the name. -/
def calcVar (A : Arith F) (lex : Text → List RTok) (w : Ws F) (arg : Text) : Out (Ws F) :=
  let a := left arg
  let name := arg0 a
  if a.drop name.length = [] then .ub
  else
    let lec := RepFn.stripText (a.drop (name.length + 1))
    match created A w name with
    | none => .thrown w
    | some w1 => if lec = [] then .done w1 else calcRun A w1 name (lex lec)

end Iode.DataCmd
