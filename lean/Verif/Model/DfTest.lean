import Verif.Model.EstSave
import Verif.Model.Report

/-!
# Model of the Dickey-Fuller test (api/estimation/e_dftest.cpp, cpp_api/compute/estimation.cpp, api/report/commands/b_ws.cpp)

Simplifications
* the values of the LEC expression are a parameter (`none` when it cannot be computed); the estimation is that of `EstSave`;
* `drift` and `trend` are 0 or 1 and `order` is not negative;
* the arithmetic is a parameter; the sample of the variables exists and has at most 32767 periods;
* `kwarning` and what is printed are left out.
-/
namespace Iode.DfTest

open Iode.Args (Text)
open DataCmd (Out left bseps)
open EstSave (Eqn Scl Eng St)

/-- The three workspaces. -/
structure Ws (F K : Type) where
  eqs : SMap (Eqn F)
  scls : SMap (Scl K)
  vars : SMap (List (Option K))

/-- What is done with numbers: the default value of a scalar (0.9, api/objs/scalars.h 22), `IODE_NAN`, `IODE_IS_0`, division and order. -/
structure Num (K : Type) where
  init : K
  na : K
  isZero : K → Bool
  div : K → K → K
  lt : K → K → Bool

/-- Three values of the result; the third is only set when the second is not zero. -/
structure Trip (K : Type) where
  value : K
  std : K
  t : Option K
  deriving DecidableEq

variable {F K : Type}

/-- The name of the variable and of the equation. -/
def dfName : Text := "_DF".toList

/-- The first loop of `E_GetSmpl`, e_dftest.cpp 47-48: the position of the first number from `t` on. -/
def firstNum : Nat → List (Option K) → Nat
  | t, [] => t
  | t, some _ :: _ => t
  | t, none :: l => firstNum (t + 1) l

/-- The second loop of `E_GetSmpl`, e_dftest.cpp 55-56. -/
def firstNa : Nat → List (Option K) → Nat
  | t, [] => t
  | t, none :: _ => t
  | t, some _ :: l => firstNa (t + 1) l

/-- `E_GetSmpl`, e_dftest.cpp 36-62: the end is the period behind the last one. -/
def getSmpl (g : Eng F K) (v : List (Option K)) : Res Sample :=
  let b := firstNum 0 v
  let d := firstNa b (v.drop b)
  (g.first.shift b).bind fun p => (g.first.shift d).bind fun q => (q.difference p).bind fun n => .ok ⟨p, q, n⟩

/-- The names of the scalars in the order of the results, e_dftest.cpp 184-208, 221-247. -/
def coefs (drift trend : Bool) (order : Nat) : List Text :=
  "df_".toList :: ((if drift then ["df_d".toList] else []) ++ (if trend then ["df_t".toList] else []) ++
    (List.range order).map fun i : Nat => 'd' :: 'f' :: natToChars (i + 1))

/-- The equation, e_dftest.cpp 184-214. -/
def lecText (drift trend : Bool) (order : Nat) : Text :=
  "d(_DF) := df_ * _DF[-1]".toList ++ (if drift then "+ df_d".toList else []) ++ (if trend then "+ df_t*t".toList else []) ++
    (List.range order).flatMap fun i : Nat => " + df".toList ++ natToChars (i + 1) ++ "*d(_DF[-".toList ++ natToChars (i + 1) ++ "])".toList

/-- `E_SclToReal`, e_dftest.cpp 263-273. -/
def toReal (a : Num K) (m : SMap (Scl K)) (name : Text) : Res (Trip K) :=
  match m.find (toKey .scalars name) with
  | none => .ub
  | some s => .ok ⟨s.value, s.std.getD a.na, if a.isZero (s.std.getD a.na) then none else some (a.div s.value (s.std.getD a.na))⟩

/-- The three values of each scalar in turn. -/
def toReals (a : Num K) (m : SMap (Scl K)) : List Text → Res (List (Trip K))
  | [] => .ok []
  | n :: ns => (toReal a m n).bind fun x => (toReals a m ns).bind fun xs => .ok (x :: xs)

/-- The scalars are removed. -/
def removed (m : SMap (Scl K)) (names : List Text) : SMap (Scl K) := names.foldl (fun m n => m.erase (toKey .scalars n)) m

/-- The scalars get the default values. -/
def defaults (g : Eng F K) (a : Num K) (m : SMap (Scl K)) (names : List Text) : SMap (Scl K) :=
  names.foldl (fun m n => m.insert (toKey .scalars n) ⟨a.init, g.one, none⟩) m

/-- `E_UnitRoot_1`, e_dftest.cpp 112-129: the equation is set, estimated with all equations as database, and removed. -/
def unitRoot1 (g : Eng F K) (s : Sample) (lec : Text) (w : Ws F K) : Out (Ws F K) :=
  let eqs := w.eqs.insert (toKey .equations dfName) ⟨dfName, lec, 0, none, [], [], [], 0, List.replicate 20 g.zero⟩
  match EstSave.estimate g (-1) s [dfName] ⟨eqs, eqs.keys, w.scls, w.vars, []⟩ with
  | .done st => .done ⟨st.eqs.erase (toKey .equations dfName), st.scls, st.vars⟩
  | .failed st => .failed ⟨st.eqs.erase (toKey .equations dfName), st.scls, st.vars⟩
  | .thrown st => .thrown ⟨st.eqs, st.scls, st.vars⟩
  | .ub => .ub

/-- `E_UnitRoot`, e_dftest.cpp 149-253, on a LEC expression with the values `vec`: the result and the workspaces.  `buf` takes 1023 characters. -/
def unitRoot (g : Eng F K) (a : Num K) (vec : Option (List (Option K))) (drift trend : Bool) (order : Nat) (w : Ws F K) :
    Out (Ws F K × Option (List (Trip K))) :=
  match vec with
  | none => .done (w, none)
  | some v =>
    let w1 := { w with vars := w.vars.insert (toKey .variables dfName) v }
    match (getSmpl g v).bind fun s => (s.start.shift 1).bind fun p => .ok (⟨p, s.stop, s.nb - 1⟩ : Sample) with
    | .err => .thrown (w1, none)
    | .ub => .ub
    | .ok s1 =>
      if s1.nb < (drift.toNat + trend.toNat + order + 1) * 2 then .done ({ w1 with vars := w1.vars.erase (toKey .variables dfName) }, none)
      else if 1024 ≤ (lecText drift trend order).length then .ub
      else
        let w2 := { w1 with scls := defaults g a w1.scls (coefs drift trend order) }
        match s1.start.shift order with
        | .err => .thrown (w2, none)
        | .ub => .ub
        | .ok p =>
          match unitRoot1 g ⟨p, s1.stop, s1.nb - order⟩ (lecText drift trend order) w2 with
          | .ub => .ub
          | .thrown w3 => .thrown (w3, none)
          | .failed w3 => .done ({ w3 with scls := removed w3.scls (coefs drift trend order) }, none)
          | .done w3 =>
            match toReals a w3.scls (coefs drift trend order) with
            | .ok r => .done ({ w3 with scls := removed w3.scls (coefs drift trend order) }, some r)
            | _ => .ub

/-- `add_df_test_coeff`, cpp_api/compute/estimation.cpp 40-47: reading a third value that is not set is undefined. -/
def coeff (a : Num K) (one : K) (x : Trip K) : Res (Scl K) :=
  match x.t with
  | none => .ub
  | some t => .ok ⟨x.value, if a.lt x.std one then x.std else one, if a.isZero t then none else some (a.div x.value t)⟩

/-- The scalars of the result. -/
def coeffs (a : Num K) (one : K) : List Text → List (Trip K) → SMap (Scl K) → Res (SMap (Scl K))
  | n :: ns, x :: xs, m => (coeff a one x).bind fun s => coeffs a one ns xs (m.insert (toKey .scalars n) s)
  | _, _, m => .ok m

/-- `dickey_fuller_test`, cpp_api/compute/estimation.cpp 52-98: no scalars when the test cannot be done. -/
def dickeyFuller (g : Eng F K) (a : Num K) (vec : Option (List (Option K))) (drift trend : Bool) (order : Nat) (w : Ws F K) :
    Out (Ws F K × SMap (Scl K)) :=
  match unitRoot g a vec drift trend order w with
  | .done (w', none) => .done (w', [])
  | .done (w', some r) =>
    match coeffs a g.one (coefs drift trend order) r [] with
    | .ok m => .done (w', m)
    | _ => .ub
  | .failed (w', _) => .failed (w', [])
  | .thrown (w', _) => .thrown (w', [])
  | .ub => .ub

/-- The first word of `B_get_arg0` (api/b_args.cpp 183-195) with the text it leaves behind it. -/
def word (t : Text) : Text × Text := ((left t).take 20 |>.takeWhile (· ∉ bseps), (left t).drop ((left t).take 20 |>.takeWhile (· ∉ bseps)).length)

/-- The arguments of `B_StatUnitRoot_1`, api/report/commands/b_ws.cpp 694-703, as `drift`, `trend`, `order` and the LEC expression.  The second word is read one
character behind the first; the positions of the third and of the expression count that character once, so that they begin at the character behind the word.
A text that ends with the first word is read behind its end. -/
def statArgs (arg : Text) : Res (Text × Text × Text × Text) :=
  match (word arg).2 with
  | [] => .ub
  | _ :: t =>
    .ok ((word arg).1, (word t).1, (word (word t).2).1, (word (word t).2).2)

end Iode.DfTest
