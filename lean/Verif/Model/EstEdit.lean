import Verif.Model.EstSave
import Verif.Model.Lists

/-!
# Model of a session that edits and estimates equations (`EditAndEstimateEquations`, cpp_api/compute/estimation.cpp and estimation.h)

A session has its own databases of equations and of scalars. It begins with the objects of the workspaces, and `save` brings its own into the workspaces.

Simplifications
* the estimation of one block is a parameter, as in `EstSave`; so are the coefficients of a LEC, if it compiles, and the names a block stands for;
* a compiled equation is that of its LEC: the LEC `name := 0` compiles; coefficients have names that the scalars accept;
* the scalars of the session and of the workspace are different objects, until `save` puts the objects of the session into the workspace: `shared` are their names;
* the sample of the session exists; comments are not converted between character sets; what is read from an estimation (matrices, observed values) is left out.
-/
namespace Iode.EstEdit

open Iode.Args (Text)
open DataCmd (Out loop)
open EstSave (Eqn Scl Eng Found Req savedMethod testsOf saveAll blockOf cut testNames)

variable {F K : Type}

/-- What the session depends on: `init` is 0.9, `nought` is 0, `stop` the end of the sample of the variables. -/
structure Sys (F K : Type) where
  g : Eng F K
  init : K
  nought : K
  stop : Period
  coefs : Text → Text → Option (List Text)
  valid : Text → Bool
  filter : SMap (Eqn F) → Text → Option (List Text)

/-- The workspaces of equations, scalars and variables, and the session: `corr` is the number of coefficients of the last estimation. -/
structure Ses (F K : Type) where
  geqs : SMap (Eqn F)
  gscls : SMap (Scl K)
  gvars : SMap (List (Option K))
  eqs : SMap (Eqn F)
  scls : SMap (Scl K)
  shared : List Text
  names : List Text
  cur : Option Text
  block : Text
  instruments : Text
  method : Int
  sample : Sample
  done : Bool
  corr : Nat

/-- `std::set::insert`. -/
def put (n : Text) : List Text → List Text
  | [] => [n]
  | m :: l => if n = m then m :: l else if nameLt n m then n :: m :: l else m :: put n l

/-- `KDBEquations::add` with a LEC, api/objs/k_eqs.cpp 348-361. -/
def fresh (S : Sys F K) (name : Text) : Eqn F := ⟨name, name ++ " := 0".toList, 3, none, [], [], [], S.g.today, List.replicate 20 S.g.zero⟩

/-- The copy of an equation, api/objs/equations.h 174-192. -/
def copied (e : Eqn F) : Eqn F := { e with method := savedMethod e.method }

/-- One equation of a block, estimation.cpp 148-164. -/
def addEq (S : Sys F K) (geqs eqs : SMap (Eqn F)) (n : Text) : SMap (Eqn F) :=
  match eqs.find (toKey .equations n) with
  | some _ => eqs
  | none => eqs.insert (toKey .equations n) (match geqs.find (toKey .equations n) with | some e => copied e | none => fresh S n)

/-- `set_block`, estimation.cpp 119-185. -/
def setBlock (S : Sys F K) (s : Ses F K) (block cur : Text) : Out (Ses F K) :=
  let s0 := { s with block := [], names := [], cur := none }
  match S.filter s.geqs block with
  | none => .thrown s0
  | some ns =>
    let ns' := if cur ≠ [] ∧ cur ∉ ns then put cur ns else ns
    if ns'.all (checkName .equations) then
      .done { s0 with
        eqs := ns'.foldl (addEq S s.geqs) s.eqs
        names := ns'
        block := Lists.join ns'
        cur := if ns' = [] then none else if cur = [] then ns'.head? else some cur }
    else .thrown s0

/-- `get_coefficients_list` creates the scalars that are missing in the workspace, api/objs/equations.h 441-462. -/
def create (S : Sys F K) (gs : SMap (Scl K)) (cs : List Text) : SMap (Scl K) :=
  cs.foldl (fun m c => match m.find c with | some _ => m | none => m.insert c ⟨S.init, S.g.one, none⟩) gs

/-- The coefficients of all equations, estimation.cpp 193-207: none when one does not compile. -/
def gather (S : Sys F K) : SMap (Eqn F) → SMap (Scl K) → SMap (Scl K) × Option (List Text)
  | [], gs => (gs, some [])
  | (_, e) :: l, gs =>
    match S.coefs e.endo e.lec with
    | none => (gs, none)
    | some cs =>
      match gather S l (create S gs cs) with
      | (gs', r) => (gs', r.map (cs ++ ·))

/-- One scalar of the session, estimation.cpp 210-230. -/
def takeIn (S : Sys F K) (gs scls : SMap (Scl K)) (c : Text) : SMap (Scl K) :=
  match scls.find c with
  | some _ => scls
  | none => scls.insert c (match gs.find c with | some v => v | none => ⟨S.nought, S.g.one, none⟩)

/-- The coefficients of the equations outside the block, estimation.cpp 233-244. -/
def outside (S : Sys F K) (s : Ses F K) : List Text :=
  (s.eqs.filter fun p => p.1 ∉ s.names).flatMap fun p => (S.coefs p.2.endo p.2.lec).getD []

/-- `update_scalars`, estimation.cpp 187-245. -/
def updateScalars (S : Sys F K) (s : Ses F K) : Out (Ses F K) :=
  match gather S s.eqs s.gscls with
  | (gs, none) => .thrown { s with gscls := gs }
  | (gs, some cs) =>
    .done { s with
      gscls := gs
      scls := (outside S s).foldl (fun m c => m.erase c) (cs.foldl (takeIn S gs) s.scls)
      shared := s.shared.filter (· ∉ outside S s) }

/-- `set_lec`, api/objs/equations.h 242-256: a LEC that does not compile is not taken. -/
def setLec (S : Sys F K) (e : Eqn F) (lec : Text) : Eqn F := if (S.coefs e.endo lec).isSome then { e with lec := lec } else e

/-- `update_current_equation`, estimation.cpp 247-270. -/
def updateCurrent (S : Sys F K) (s : Ses F K) (lec comment : Text) : Out (Ses F K) :=
  if lec = [] then .thrown s
  else match s.cur with
    | none => .done s
    | some n =>
      match s.eqs.find (toKey .equations n) with
      | none => .thrown s
      | some e => .done { s with eqs := s.eqs.insert (toKey .equations n) { setLec S e lec with comment := comment } }

/-- `set_instruments`, estimation.h 249-280. -/
def setInstruments (S : Sys F K) (s : Ses F K) (t : Text) : Ses F K :=
  { s with instruments := if (t.splitOnP (· = ';')).all S.valid then t else [] }

/-- The scalars with some names are those of another database. -/
def copyIn (src : SMap (Scl K)) (ks : List Text) (m : SMap (Scl K)) : SMap (Scl K) :=
  ks.foldl (fun m k => match src.find k with | some v => m.insert k v | none => m) m

/-- The scalars of an estimation: those of the session are changed, and with them those of the workspace that are the same objects. -/
def written (scls : SMap (Scl K)) (s : Ses F K) : Ses F K :=
  { s with
    scls := scls
    gscls := copyIn scls s.shared s.gscls }

/-- The names of the scalars with the results of a block. -/
def resultNames (n : Nat) : List Text :=
  (List.range n).flatMap fun j => ("n".toList :: "k".toList :: testNames.map (·.1)).map fun t => 'e' :: (natToChars j ++ '_' :: t)

/-- One round of `KE_est_s` for a session, api/estimation/k_est.cpp 213-334: the equations of the block are looked up in the workspace, not in the session. -/
def estOne (S : Sys F K) (met : Int) (s : Sample) (p : Ses F K × List Text) (name : Text) : Out (Ses F K × List Text) :=
  let key := toKey .equations name
  if name ∈ p.2 then .done p
  else
    match p.1.eqs.find key with
    | none => .failed p
    | some e =>
      let t := { p.1 with eqs := p.1.eqs.insert key { e with tests := List.replicate 20 S.g.zero } }
      let m := if met < 0 then e.method else met
      if s.nb < 1 then .failed (t, p.2)
      else
        match blockOf t.geqs name e, s.start.difference S.g.first with
        | none, _ => .ub
        | some ms, .ok off =>
          match S.g.est ⟨ms.map (·.1), ms.map (·.2), cut [',', ';'] e.instruments, m, s⟩ t.scls t.gvars with
          | (scls, none) => .failed (written scls t, p.2)
          | (scls, some r) =>
            match saveAll S.g m s off r 0 ms ⟨t.eqs, t.eqs.keys, (written scls t).gscls, t.gvars, p.2⟩ with
            | .ok st => .done ({ written scls t with
                eqs := st.eqs, gscls := st.scls, gvars := st.vars, corr := r.nce, shared := t.shared.filter (· ∉ resultNames ms.length) }, st.seen)
            | _ => .ub
        | some _, .err => .thrown (t, p.2)
        | some _, .ub => .ub

/-- The parameters of the session in its equations, estimation.cpp 303-322. -/
def setParams (s : Ses F K) (eqs : SMap (Eqn F)) (n : Text) : SMap (Eqn F) :=
  match eqs.find (toKey .equations n) with
  | some e => eqs.insert (toKey .equations n) { e with method := s.method, block := s.block, instruments := s.instruments }
  | none => eqs

/-- `estimate`, estimation.cpp 272-347: without names there is no `Estimation`; the correlation matrix is refused when the session has another number of scalars. -/
def estimate (S : Sys F K) (s : Ses F K) : Out (Ses F K) :=
  let s0 := { s with done := false }
  if s.names.any fun n => (s.eqs.find (toKey .equations n)).isNone then .thrown s0
  else
    let s1 := { s0 with eqs := s.names.foldl (setParams s) s.eqs }
    if s.names = [] ∨ 5 ≤ s.method then .thrown s1
    else
      match loop (estOne S s.method s.sample) s.names (s1, []) with
      | .done (t, _) =>
        if t.corr = t.scls.length then .done { t with done := true } else .thrown { t with done := true }
      | .failed (t, _) => .done t
      | .thrown (t, _) => .thrown t
      | .ub => .ub

/-- A period or the one of the variables. -/
def periodOr (t : Text) (p : Period) : Res Period := if t = [] then .ok p else Period.parse t

/-- The sample that is saved, estimation.cpp 351-373. -/
def savedSample (S : Sys F K) (s : Ses F K) (start stop : Text) : Res Sample :=
  if s.done then .ok s.sample
  else if S.g.nb = 0 then .err
  else (periodOr start S.g.first).bind fun a => (periodOr stop S.stop).bind fun b => Sample.ofPeriods a b

/-- The equation that is saved, estimation.cpp 386-401, copied into the workspace. -/
def savedEq (S : Sys F K) (s : Ses F K) (smp : Sample) (e : Eqn F) : Eqn F :=
  { e with
    method := savedMethod s.method
    block := s.block
    instruments := s.instruments
    sample := some smp
    date := if s.done then S.g.today else 0
    tests := if s.done then e.tests else List.replicate 20 S.g.zero }

/-- The loop over the equations, estimation.cpp 376-417: the workspace and the names that are new. -/
def saveEqs (S : Sys F K) (s : Ses F K) (smp : Sample) : List Text → SMap (Eqn F) → Out (SMap (Eqn F)) × List Text
  | [], m => (.done m, [])
  | n :: ns, m =>
    match s.eqs.find (toKey .equations n) with
    | none => (.thrown m, [])
    | some e =>
      match saveEqs S s smp ns (m.insert (toKey .equations n) (savedEq S s smp e)) with
      | (o, new) => (o, if (m.find (toKey .equations n)).isSome then new else n :: new)

/-- `save`, estimation.cpp 349-424, with `merge`, api/objs/kdb.h 1039-1066: the objects of the scalars are put into the workspace, not copied. -/
def save (S : Sys F K) (s : Ses F K) (start stop : Text) : Out (Ses F K) × List Text :=
  match savedSample S s start stop with
  | .err => (.thrown s, [])
  | .ub => (.ub, [])
  | .ok smp =>
    match saveEqs S s smp s.names s.geqs with
    | (.done m, new) => (.done { s with
        geqs := m
        gscls := copyIn s.scls s.scls.keys s.gscls
        shared := s.scls.keys }, new)
    | (.failed m, _) => (.failed { s with geqs := m }, [])
    | (.thrown m, _) => (.thrown { s with geqs := m }, [])
    | (.ub, _) => (.ub, [])

/-- What can be done in a session. -/
inductive Op
  | block (b cur : Text)
  | scalars
  | current (lec comment : Text)
  | method (m : Int)
  | instruments (t : Text)
  | sample (s : Sample)
  | estimate
  | save (start stop : Text)
  deriving DecidableEq

/-- One operation. -/
def step (S : Sys F K) (s : Ses F K) : Op → Out (Ses F K)
  | .block b c => setBlock S s b c
  | .scalars => updateScalars S s
  | .current l c => updateCurrent S s l c
  | .method m => .done { s with method := m }
  | .instruments t => .done (setInstruments S s t)
  | .sample x => .done { s with sample := x }
  | .estimate => estimate S s
  | .save a b => (save S s a b).1

/-- A new session, estimation.cpp 99-105. -/
def begin (geqs : SMap (Eqn F)) (gscls : SMap (Scl K)) (gvars : SMap (List (Option K))) (smp : Sample) : Ses F K :=
  ⟨geqs, gscls, gvars, [], [], [], [], none, [], [], 0, smp, false, 0⟩

end Iode.EstEdit
