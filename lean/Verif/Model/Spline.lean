import Verif.Model.Convert
import Mathlib.Algebra.Order.Field.Basic

/-!
# Cubic splines: `$WsLtoHStock C`, `$WsLtoHFlow C`

api/report/commands/b_ltoh.cpp 154-251. Exact arithmetic in an ordered field `K`; a value is `none` for `IODE_NAN`. The position
`x = f + (j + 1) / shift` is kept as the number of sub-periods from the start, `f * shift + j + 1`. Memory of `SW_nalloc` is set to
zero (scr4/s_allc.c 189-211). Writing in and reading the source and target outside of their bounds is undefined.
-/
namespace Iode.Spline

open Iode.Convert (Kind get put)

variable {K : Type} [Field K]

/-- `y[i]`, in `LTOH_y2cs`; what is computed from a missing value is not used. -/
def val (y : List (Option K)) (i : Nat) : K := (y[i]?.getD none).getD 0

/-- `y2[i]` and `u[i]` after the first loop of `LTOH_y2cs`, b_ltoh.cpp 163-171. -/
def fwd (y : Nat → K) : Nat → K × K
  | 0 => (0, 0)
  | i + 1 =>
    let r := fwd y i
    let s : K := 1 / 2
    let p := s * r.1 + 2
    ((s - 1) / p, (3 * (y (i + 2) - 2 * y (i + 1) + y i) - s * r.2) / p)

/-- The number of rounds of that loop, from `y + 1` on: as long as there is a number and something behind it. -/
def rounds : List (Option K) → Nat
  | some _ :: b :: l => rounds (b :: l) + 1
  | _ => 0

/-- `y2[dim - k]` after the second loop, b_ltoh.cpp 173-177. -/
def bwd (y : Nat → K) (dim : Nat) : Nat → K
  | 0 => 0
  | k + 1 =>
    let r := fwd y (dim - (k + 1))
    r.1 * bwd y dim k + r.2

/-- `LTOH_y2cs`, b_ltoh.cpp 156-181: what it returns and `y2`, of which it writes the positions `0` to `dim`. -/
def y2cs (y : List (Option K)) (y2 : Nat → K) : Nat × (Nat → K) :=
  let dim := rounds y.tail
  (dim, fun i => if i ≤ dim then bwd (val y) dim (dim - i) else y2 i)

/-- `LTOH_ycs`, b_ltoh.cpp 184-203, at `k / shift`. -/
def ycs (shift : Nat) (y : List (Option K)) (y2 : Nat → K) (k : Int) : Res (Option K) :=
  if k < 0 then .ok none
  else
    let lo := k.toNat / shift
    let b : K := ((k.toNat % shift : Nat) : K) / (shift : K)
    let a : K := 1 - b
    (get y lo).bind fun l => match l with
      | none => .ok none
      | some l => (get y (lo + 1)).bind fun h => match h with
        | none => .ok none
        | some h => .ok (some (a * l + b * h + ((a * a * a - a) * y2 lo + (b * b * b - b) * y2 (lo + 1)) / 6))

/-- The first loop over the sub-periods of a flow, b_ltoh.cpp 223-230, `n` rounds left: the target and `sum`. -/
def flowFill (shift : Nat) (y : List (Option K)) (y2 : Nat → K) (f : Nat) : Nat → Nat → Option K → List (Option K) →
    Res (List (Option K) × Option K)
  | 0, _, sum, dst => .ok (dst, sum)
  | n + 1, j, sum, dst =>
    (ycs shift y y2 ((f * shift + j : Nat) - 1)).bind fun v => (put dst (f * shift + j) v).bind fun dst =>
      flowFill shift y y2 f n (j + 1) (match v, sum with | some v, some s => some (s + v) | _, _ => none) dst

/-- The second one, b_ltoh.cpp 234. -/
def addLoop (d : K) (t : Nat) : Nat → Nat → List (Option K) → Res (List (Option K))
  | 0, _, dst => .ok dst
  | n + 1, j, dst => (get dst (t + j)).bind fun v => (put dst (t + j) (v.map (· + d))).bind fun dst => addLoop d t n (j + 1) dst

/-- The loop over the sub-periods of a stock, b_ltoh.cpp 241-245. -/
def stockFill (shift : Nat) (y : List (Option K)) (y2 : Nat → K) (f : Nat) : Nat → Nat → List (Option K) → Res (List (Option K))
  | 0, _, dst => .ok dst
  | n + 1, j, dst =>
    (ycs shift y y2 (f * shift + j + 1 : Nat)).bind fun v => (put dst ((f + 1) * shift + j) v).bind fun dst =>
      stockFill shift y y2 f n (j + 1) dst

/-- One period, b_ltoh.cpp 223-235 and 241-245. -/
def period (k : Kind) (shift : Nat) (y : List (Option K)) (y2 : Nat → K) (f : Nat) (dst : List (Option K)) : Res (List (Option K)) :=
  match k with
  | .flow => (flowFill shift y y2 f shift 0 (some 0) dst).bind fun r =>
      match r.2 with
      | none => .ok r.1
      | some sum => (get y f).bind fun v => addLoop ((v.getD 0 * (shift : K) - sum) / (shift : K)) (f * shift) shift 0 r.1
  | .stock => stockFill shift y y2 f shift 0 dst

/-- The periods `f, ..., f + n - 1`, b_ltoh.cpp 222-236 and 240-246. -/
def periods (k : Kind) (shift : Nat) (y : List (Option K)) (y2 : Nat → K) : Nat → Nat → List (Option K) → Res (List (Option K))
  | 0, _, dst => .ok dst
  | n + 1, f, dst => (period k shift y y2 f dst).bind fun dst => periods k shift y y2 n (f + 1) dst

/-- The numbers at the head are divided by `shift`, b_ltoh.cpp 219. -/
def scale (shift : Nat) : List (Option K) → List (Option K)
  | some v :: l => some (v / (shift : K)) :: scale shift l
  | l => l

/-- The source when the run at `beg` is computed: a flow is divided in place. -/
def sck (k : Kind) (s beg : Nat) (y : List (Option K)) : List (Option K) :=
  match k with
  | .flow => y.take beg ++ scale s (y.drop beg)
  | .stock => y

/-- The loop over the runs of numbers of `LTOH_cs`, b_ltoh.cpp 213-249; the source is changed in place and `y2` is kept from one run to
the next; at most `n` rounds. -/
def csLoop (k : Kind) (shift : Nat) : Nat → Nat → List (Option K) → (Nat → K) → List (Option K) → Res (List (Option K))
  | 0, _, _, _, dst => .ok dst
  | n + 1, beg, y, y2, dst =>
    match y[beg]? with
    | none => .ok dst
    | some none => csLoop k shift n (beg + 1) y y2 dst
    | some (some _) =>
      let y := sck k shift beg y
      let r := y2cs (y.drop beg) y2
      (periods k shift y r.2 r.1 beg dst).bind fun dst => csLoop k shift n (beg + r.1 + 1) y r.2 dst

/-- `LTOH_cs`, b_ltoh.cpp 206-251, one variable. -/
def ltohCs (k : Kind) (shift tn : Nat) (x : List (Option K)) : Res (List (Option K)) :=
  csLoop k shift (x.length + 1) 0 x (fun _ => 0) (List.replicate tn none)

end Iode.Spline
