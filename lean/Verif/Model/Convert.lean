import Verif.Model.Idt

/-!
# Conversions between periodicities

api/report/commands/b_htol.cpp (high to low) and b_ltoh.cpp (low to high: steps and linear; cubic splines are in Spline.lean).
Doubles are an arbitrary `F` with the operations `Arith F`.

Simplifications: the file has been loaded (C16-C20) and has a sample; `int` does not overflow; `(double) (j + 1) / shift` is
exact when split into its integer part and remainder (`LTOH_ylin`).
-/
namespace Iode.Convert

open Iode.Lec Iode.Idt

variable {F : Type}

/-! ## High to low -/

/-- `HTOL_LAST`, `HTOL_MEAN`, `HTOL_SUM`. -/
inductive Method where
  | last | mean | sum
  deriving DecidableEq, Repr

/-- `HTOL_smpl`, b_htol.cpp 34-85: target sample, `skip`, `shift`. -/
def htolSmpl (f ws : Sample) : Res (Sample × Int × Int) :=
  (nbPeriodsPerYear f.start.periodicity).bind fun fn =>
  (nbPeriodsPerYear ws.start.periodicity).bind fun wn =>
    if wn ≤ 0 ∨ wn = 12 then .err
    else if wn ≥ fn then .err
    else
      (Period.shift ⟨f.start.year, 1, ws.start.periodicity⟩ ((f.start.step - 1).tdiv (fn.tdiv wn))).bind fun p1 =>
        let skip := (p1.year - f.start.year) * fn + (p1.step - 1) * fn.tdiv wn - (f.start.step - 1)
        if skip < 0 then
          (Sample.ofPeriods { p1 with year := p1.year + 1 } ⟨f.stop.year, wn, ws.start.periodicity⟩).bind fun t =>
            .ok (t, skip + fn.tdiv wn, fn.tdiv wn)
        else
          (Sample.ofPeriods p1 ⟨f.stop.year, wn, ws.start.periodicity⟩).bind fun t => .ok (t, skip, fn.tdiv wn)

/-- `v[i] = x`. -/
def put (v : List F) (i : Nat) (x : F) : Res (List F) := if i < v.length then .ok (v.set i x) else .ub

/-- `v[i]`; reading outside of a vector is undefined. -/
def get (v : List F) (i : Nat) : Res F :=
  match v[i]? with
  | some x => .ok x
  | none => .ub

/-- The loop over the periods to skip, b_htol.cpp 157-164, `n` rounds left: the vector and `t`. -/
def skipLoop (A : Arith F) (shift : Nat) : Nat → Nat → Nat → List F → Res (List F × Nat)
  | 0, _, t, dst => .ok (dst, t)
  | n + 1, f, t, dst =>
    if f ≠ 0 ∧ f % shift = 0 then (put dst t A.na).bind fun dst => skipLoop A shift n (f + 1) (t + 1) dst
    else skipLoop A shift n (f + 1) t dst

/-- The loop over the sub-periods for a sum, b_htol.cpp 172-181, `n` rounds left, `acc` is `to_values[t]`. -/
def sumLoop (A : Arith F) (x : List F) : Nat → Nat → F → Res F
  | 0, _, acc => .ok acc
  | n + 1, i, acc => (get x i).bind fun v => if A.isNum v then sumLoop A x n (i + 1) (A.add acc v) else .ok A.na

/-- The value of one target period, b_htol.cpp 168-184. -/
def blockValue (A : Arith F) (m : Method) (x : List F) (shift f : Nat) (init : F) : Res F :=
  match m with
  | .last => get x (f + shift - 1)
  | .sum => sumLoop A x shift f init
  | .mean => (sumLoop A x shift f init).bind fun s => .ok (if A.isNum s then A.div s (A.ofInt shift) else s)

/-- The loop over the target periods, b_htol.cpp 166-185; at most `n` rounds (enough, see `blockLoop_spec` in Lemmas/Convert). -/
def blockLoop (A : Arith F) (m : Method) (x : List F) (shift nb : Nat) : Nat → Nat → Nat → List F → Res (List F × Nat)
  | 0, _, t, dst => .ok (dst, t)
  | n + 1, f, t, dst =>
    if f + shift ≤ nb then
      (get dst t).bind fun init => (blockValue A m x shift f init).bind fun v =>
        (put dst t v).bind fun dst => blockLoop A m x shift nb n (f + shift) (t + 1) dst
    else .ok (dst, t)

/-- The loop over the target periods left, b_htol.cpp 187-189. -/
def naLoop (A : Arith F) : Nat → Nat → List F → Res (List F)
  | 0, _, dst => .ok dst
  | n + 1, t, dst => (put dst t A.na).bind fun dst => naLoop A n (t + 1) dst

/-- One variable, b_htol.cpp 152-191: `tn` target periods. -/
def htolVar (A : Arith F) (m : Method) (shift skip nb tn : Nat) (x : List F) : Res (List F) :=
  (skipLoop A shift skip 0 0 (List.replicate tn (A.ofInt 0))).bind fun r =>
    (blockLoop A m x shift nb (nb + 1) skip r.2 r.1).bind fun r => naLoop A (tn - r.2) r.2 r.1

/-- All variables, b_htol.cpp 150-192. -/
def htolAll (A : Arith F) (m : Method) (shift skip nb tn : Nat) : List (Name × List F) → Res (SMap (List F))
  | [] => .ok []
  | (k, x) :: es => (htolVar A m shift skip nb tn x).bind fun y =>
      (htolAll A m shift skip nb tn es).bind fun r => .ok ((k, y) :: r)

/-- `KV_merge(global_ws_var, to, 1)`, k_wsvar.cpp 25-95, when both have a sample; an exception if the samples have no common
period. -/
def merge (na : F) (ws : VarDb F) (vs ts : Sample) (m : SMap (List F)) : Res (VarDb F) :=
  match VWorld.overlap vs ts with
  | .err => .err
  | .ub => .ub
  | .ok (d1, d2, n) => (mergeLoop na vs.nb d1 d2 n m ws.vars).bind fun r => .ok ⟨ws.smpl, r⟩

/-- `B_htol`, b_htol.cpp 104-209, from the sample `fs` and the variables of the file; `vs` is the sample of the workspace.
Every error of `HTOL_smpl` ends with `to->clear()` on a null pointer (196-197). -/
def htol (A : Arith F) (m : Method) (ws : VarDb F) (vs fs : Sample) (file : SMap (List F)) : Res (VarDb F) :=
  match htolSmpl fs vs with
  | .err => .ub
  | .ub => .ub
  | .ok (ts, skip, shift) =>
    (htolAll A m shift.toNat skip.toNat fs.nb.toNat ts.nb.toNat file).bind fun dst => merge A.na ws vs ts dst

/-! ## Low to high -/

/-- `LTOH_FLOW`, `LTOH_STOCK`. -/
inductive Kind where
  | flow | stock
  deriving DecidableEq, Repr

/-- `LTOH_smpl`, b_ltoh.cpp 264-309: target sample and `shift`. -/
def ltohSmpl (f ws : Sample) : Res (Sample × Int) :=
  (nbPeriodsPerYear f.start.periodicity).bind fun fn =>
  (nbPeriodsPerYear ws.start.periodicity).bind fun wn =>
    if wn ≤ 0 then .err
    else if wn ≤ fn then .err
    else
      (Period.shift ⟨f.start.year, 1, ws.start.periodicity⟩ ((f.start.step - 1).tdiv (wn.tdiv fn))).bind fun p1 =>
        (Sample.ofPeriods p1 ⟨f.stop.year, wn, ws.start.periodicity⟩).bind fun t => .ok (t, wn.tdiv fn)

/-- The inner loop `for(j = 0; j < shift; j++) t_vec[t + j] = v`, b_ltoh.cpp 84-86, 135-137, 142-144, `n` rounds left. -/
def fillLoop (v : F) : Nat → Nat → List F → Res (List F)
  | 0, _, dst => .ok dst
  | n + 1, t, dst => (put dst t v).bind fun dst => fillLoop v n (t + 1) dst

/-- The value of a sub-period. -/
def stepValue (A : Arith F) (k : Kind) (shift : Nat) (v : F) : F :=
  match k with
  | .flow => A.div v (A.ofInt shift)
  | .stock => v

/-- `LTOH_step`, b_ltoh.cpp 120-152: the loops over the runs of numbers visit every number once, in order, at
`t = f * shift`; `f` is the position of the first element of the list. -/
def stepLoop (A : Arith F) (k : Kind) (shift : Nat) : List F → Nat → List F → Res (List F)
  | [], _, dst => .ok dst
  | v :: vs, f, dst =>
    if A.isNum v then (fillLoop (stepValue A k shift v) shift (f * shift) dst).bind fun dst => stepLoop A k shift vs (f + 1) dst
    else stepLoop A k shift vs (f + 1) dst

/-- One variable by steps. -/
def ltohStep (A : Arith F) (k : Kind) (shift tn : Nat) (x : List F) : Res (List F) :=
  stepLoop A k shift x 0 (List.replicate tn A.na)

/-- `LTOH_ylin`, b_ltoh.cpp 35-51, at `f + (j + 1) / shift`. -/
def ylin (A : Arith F) (shift : Nat) (x : List F) (f j : Nat) : Res F :=
  let lo := f + (j + 1) / shift
  let r := (j + 1) % shift
  let a := A.div (A.ofInt (shift - r : Nat)) (A.ofInt shift)
  let b := A.div (A.ofInt r) (A.ofInt shift)
  (get x lo).bind fun l =>
    if A.isNum l = false then .ok A.na
    else (get x (lo + 1)).bind fun h => .ok (if A.isNum h then A.add (A.mul a l) (A.mul b h) else A.na)

/-- The inner loop of `LTOH_lin` for a stock, b_ltoh.cpp 91-95, `n` rounds left. -/
def linStockFill (A : Arith F) (shift : Nat) (x : List F) (f t : Nat) : Nat → Nat → List F → Res (List F)
  | 0, _, dst => .ok dst
  | n + 1, j, dst => (ylin A shift x f j).bind fun v => (put dst (t + j) v).bind fun dst => linStockFill A shift x f t n (j + 1) dst

/-- The loop of `LTOH_lin` over `f = beg, ..., dim - 1`, b_ltoh.cpp 82-97, `n` rounds left. -/
def linRun (A : Arith F) (k : Kind) (shift : Nat) (x : List F) : Nat → Nat → List F → Res (List F)
  | 0, _, dst => .ok dst
  | n + 1, f, dst =>
    match k with
    | .flow => (get x f).bind fun v => (fillLoop (A.div v (A.ofInt shift)) shift (f * shift) dst).bind fun dst =>
        linRun A k shift x n (f + 1) dst
    | .stock => (linStockFill A shift x f ((f + 1) * shift) shift 0 dst).bind fun dst => linRun A k shift x n (f + 1) dst

/-- The number of numbers at the head of a list. -/
def runLength (A : Arith F) : List F → Nat
  | [] => 0
  | v :: vs => if A.isNum v then runLength A vs + 1 else 0

/-- The loop over the runs of numbers of `LTOH_lin`, b_ltoh.cpp 75-100: `dim` is the *last* position of the run, which is
not visited; at most `n` rounds. -/
def linLoop (A : Arith F) (k : Kind) (shift : Nat) (x : List F) : Nat → Nat → List F → Res (List F)
  | 0, _, dst => .ok dst
  | n + 1, beg, dst =>
    if x.length ≤ beg then .ok dst
    else
      let len := runLength A (x.drop beg)
      if len = 0 then linLoop A k shift x n (beg + 1) dst
      else (linRun A k shift x (len - 1) beg dst).bind fun dst => linLoop A k shift x n (beg + len) dst

/-- One variable by linear interpolation. -/
def ltohLin (A : Arith F) (k : Kind) (shift tn : Nat) (x : List F) : Res (List F) :=
  linLoop A k shift x (x.length + 1) 0 (List.replicate tn A.na)

/-- All variables, `conv` is the method. -/
def ltohAll (conv : List F → Res (List F)) : List (Name × List F) → Res (SMap (List F))
  | [] => .ok []
  | (k, x) :: es => (conv x).bind fun y => (ltohAll conv es).bind fun r => .ok ((k, y) :: r)

/-- `B_ltoh` by steps, b_ltoh.cpp 320-415. -/
def ltoh (A : Arith F) (k : Kind) (ws : VarDb F) (vs fs : Sample) (file : SMap (List F)) : Res (VarDb F) :=
  match ltohSmpl fs vs with
  | .err => .ub
  | .ub => .ub
  | .ok (ts, shift) => (ltohAll (ltohStep A k shift.toNat ts.nb.toNat) file).bind fun dst => merge A.na ws vs ts dst

end Iode.Convert
