import Verif.Model.Macros

/-!
# What a report with loops and procedures means

Written without stacks of saved macros: a macro is bound or not, a loop binds its variable to each value in
turn and then gives it back the binding it had before the loop, a procedure does the same with its parameters.

Programs are trees here (`Block`); `Block.lines` writes them as the lines of a report file.
-/
namespace Iode.Macros

/-- A structured report. -/
inductive Block where
  | done
  | define (x : Name) (e : Expr) (rest : Block)
  | undef (x : Name) (rest : Block)
  | text (e : Expr) (rest : Block)
  | loop (x : Name) (e : Expr) (body rest : Block)
  | call (p : Name) (e : Expr) (rest : Block)
  deriving Repr, DecidableEq

/-- The lines of a structured report. -/
def Block.lines : Block → List Line
  | .done => []
  | .define x e r => .define x e :: r.lines
  | .undef x r => .undef [x] :: r.lines
  | .text e r => .text e :: r.lines
  | .loop x e b r => .foreach x e :: (b.lines ++ .next x :: r.lines)
  | .call p e r => .call p e :: r.lines

/-- The bindings of macros. -/
abbrev Env := Name → Option Val

def Env.upd (env : Env) (x : Name) (w : Option Val) : Env := fun y => if y = x then w else env y

/-- Bindings `a`, but those of the names in `ps` are taken from `b`. -/
def Env.restoring (a b : Env) (ps : List Name) : Env := fun y => if y ∈ ps then b y else a y

/-- The words of an expression. -/
def evalPiece (env : Env) : Piece → Val
  | .word w => [w]
  | .ref x => (env x).getD [['%'] ++ x ++ ['%']]

def eval (env : Env) (e : Expr) : Val := e.flatMap (evalPiece env)

/-- The bindings of the formal parameters: an actual one each, the last formal one takes what remains. `none`:
    values for a procedure without parameters. -/
def bindEnv (env : Env) : List Name → List Word → Option Env
  | _, [] => some env
  | [], _ :: _ => none
  | [p], ws => some (env.upd p (some ws))
  | p :: ps, w :: ws => bindEnv (env.upd p (some [w])) ps ws

/-- A name a report writer may use freely: valid, without the separator of saved macros and without the prefix of
    the macros the engine keeps for its loops. -/
def Plain (x : Name) : Prop :=
  checkName .objects x = true ∧ '#' ∉ x ∧ ¬ (['F', 'O', 'R', 'E', 'A', 'C', 'H', '_', '_'] <+: x)

/-- The expression refers to plain names only. -/
def Sees (e : Expr) : Prop := ∀ x, Piece.ref x ∈ e → Plain x

/-- Saving `x` under at most `d` enclosing loops and calls gives a valid name (of at most 20 characters). -/
def ShortFor (d : Nat) (x : Name) : Prop := ∀ k, k ≤ d → checkName .objects (saved x k) = true

/-- The same for a loop variable, whose remaining values are saved as well. -/
def LoopName (d : Nat) (x : Name) : Prop :=
  Plain x ∧ ShortFor d x ∧ ShortFor d (loopVar x) ∧ checkName .objects (loopVar x) = true

/-- No loop of the block runs over `x` (the engine matches `$next` without regard to case). -/
def Block.avoids (x : Name) : Block → Prop
  | .done => True
  | .define _ _ r => r.avoids x
  | .undef _ r => r.avoids x
  | .text _ r => r.avoids x
  | .loop y _ b r => toLower y ≠ toLower x ∧ b.avoids x ∧ r.avoids x
  | .call _ _ r => r.avoids x

/-- No loop contains, in the same file, a loop over the same variable. -/
def Block.Distinct : Block → Prop
  | .done => True
  | .define _ _ r => r.Distinct
  | .undef _ r => r.Distinct
  | .text _ r => r.Distinct
  | .loop x _ b r => b.avoids x ∧ b.Distinct ∧ r.Distinct
  | .call _ _ r => r.Distinct

/-- A procedure in structured form. -/
structure SProc where
  params : List Name
  body : Block

/-- What is executed: a block, or the remaining turns of a loop. -/
inductive Task where
  | block (b : Block)
  | turns (x : Name) (body : Block) (vs : Val)

/-- Big-step meaning of reports. `d` counts the enclosing loops and calls and `act` lists their variables: they bound
    the length of names and forbid to undefine a variable of an enclosing loop. -/
inductive Exec (P : Name → Option SProc) :
    Task → Nat → List Name → Env → List Val → Env → List Val → Prop where
  | done {d act env out} : Exec P (.block .done) d act env out env out
  | define {d act env out env' out' x e r} : Plain x → Sees e →
      Exec P (.block r) d act (env.upd x (some (eval env e))) out env' out' →
      Exec P (.block (.define x e r)) d act env out env' out'
  | undef {d act env out env' out' x r} : Plain x → x ∉ act →
      Exec P (.block r) d act (env.upd x none) out env' out' →
      Exec P (.block (.undef x r)) d act env out env' out'
  | text {d act env out env' out' e r} : Sees e →
      Exec P (.block r) d act env (out ++ [eval env e]) env' out' →
      Exec P (.block (.text e r)) d act env out env' out'
  | loop {d act env out env1 out1 env' out' x e b r} : LoopName d x → Sees e →
      Exec P (.turns x b (eval env e)) (d + 1) (x :: act) env out env1 out1 →
      Exec P (.block r) d act (env1.upd x (env x)) out1 env' out' →
      Exec P (.block (.loop x e b r)) d act env out env' out'
  | over {d act env out x b} : Exec P (.turns x b []) d act env out env out
  | turn {d act env out env1 out1 env' out' x b v vs} :
      Exec P (.block b) d act (env.upd x (some [v])) out env1 out1 →
      Exec P (.turns x b vs) d act env1 out1 env' out' →
      Exec P (.turns x b (v :: vs)) d act env out env' out'
  | call {d act env out env0 env1 out1 env' out' p e r pr} : P p = some pr → Sees e →
      pr.params.Nodup → (∀ x ∈ pr.params, Plain x ∧ ShortFor d x) →
      bindEnv env pr.params (eval env e) = some env0 →
      Exec P (.block pr.body) (d + 1) (pr.params ++ act) env0 out env1 out1 →
      Exec P (.block r) d act (env1.restoring env pr.params) out1 env' out' →
      Exec P (.block (.call p e r)) d act env out env' out'

end Iode.Macros
