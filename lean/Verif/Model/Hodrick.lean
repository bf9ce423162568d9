import Verif.Model.Linear

/-!
# Model of the Hodrick-Prescott filter (api/lec/l_hodrick.cpp, api/lec/l_exec_mtfn.cpp)

Numbers are exact (an ordered field `K`), `none` is the missing value `IODE_NAN`; `log` and `exp` are parameters.  The allocations
succeed, and matrices are filled with zeros when they are allocated (`SCR_malloc_chk`, scr4/s_allc.c 189-212).
-/
namespace Iode.Hodrick

variable {K : Type} [Field K] [LinearOrder K]

open Lin (Sys)

/-- `y1`, l_hodrick.cpp 32. -/
def y1 : Nat → K
  | 0 => 1 | 1 => -2 | 2 => 1 | _ => 0
/-- `y2`, l_hodrick.cpp 33. -/
def y2 : Nat → K
  | 0 => -2 | 1 => 5 | 2 => -4 | 3 => 1 | _ => 0
/-- `yn`, l_hodrick.cpp 34. -/
def yn : Nat → K
  | 0 => 1 | 1 => -4 | 2 => 6 | 3 => -4 | 4 => 1 | _ => 0

/-- `MATE(a, i, j) = v`. -/
def put (a : Nat → Nat → K) (i j : Nat) (v : K) : Nat → Nat → K :=
  fun i' j' => if i' = i ∧ j' = j then v else a i' j'

/-- The first and the last row, l_hodrick.cpp 54-57, `c` rounds left. -/
def ends1 (nb : Nat) (l : K) : Nat → Nat → (Nat → Nat → K) → Nat → Nat → K
  | 0, _, a => a
  | c + 1, j, a => ends1 nb l c (j + 1) (put (put a 0 j (l * y1 j)) (nb - 1) (nb - 1 - j) (l * y1 j))

/-- The second row and the last but one, l_hodrick.cpp 59-62. -/
def ends2 (nb : Nat) (l : K) : Nat → Nat → (Nat → Nat → K) → Nat → Nat → K
  | 0, _, a => a
  | c + 1, j, a => ends2 nb l c (j + 1) (put (put a 1 j (l * y2 j)) (nb - 2) (nb - 1 - j) (l * y2 j))

/-- One of the other rows, l_hodrick.cpp 65. -/
def midRow (l : K) (i : Nat) : Nat → Nat → (Nat → Nat → K) → Nat → Nat → K
  | 0, _, a => a
  | c + 1, j, a => midRow l i c (j + 1) (put a i (j + i - 2) (l * yn j))

/-- The other rows, l_hodrick.cpp 64-66. -/
def midRows (l : K) : Nat → Nat → (Nat → Nat → K) → Nat → Nat → K
  | 0, _, a => a
  | c + 1, i, a => midRows l c (i + 1) (midRow l i 5 0 a)

/-- One more on the diagonal, l_hodrick.cpp 67. -/
def diag : Nat → Nat → (Nat → Nat → K) → Nat → Nat → K
  | 0, _, a => a
  | c + 1, i, a => diag c (i + 1) (put a i i (a i i + 1))

/-- The matrix `a`, l_hodrick.cpp 54-67. -/
def weights (nb : Nat) (l : K) : Nat → Nat → K :=
  diag nb 0 (midRows l (nb - 4) 2 (ends2 nb l 4 0 (ends1 nb l 3 0 fun _ _ => 0)))

/-- `HP_calc`, l_hodrick.cpp 29-104: whether it returns 0, and the `nb` values put in `t_vec`.  The return value of `M_solve` is not
    looked at: when there is none, `gt` still has its initial zeros. -/
def hpCalc (log exp : K → K) (std : Bool) (nb : Nat) (f : Nat → K) (l : K) : Bool × (Nat → Option K) :=
  if nb < 4 then (false, fun _ => none)
  else if !std && (List.range nb).any (fun i => decide (f i ≤ 0)) then (false, fun _ => none)
  else
    let yt := fun i => if !std then log (f i) else f i
    let gt := (Lin.mSolve nb ⟨weights nb l, yt⟩ fun _ => 0).getD fun _ => 0
    (true, fun i => some (if !std then exp (gt i) else gt i))

/-- The first loop of `HP_test`, l_hodrick.cpp 128, `c` rounds left: `*beg`. -/
def firstKnown (f : Nat → Option K) : Nat → Nat → Nat
  | 0, i => i
  | c + 1, i => if (f i).isNone then firstKnown f c (i + 1) else i

/-- The second loop of `HP_test`, l_hodrick.cpp 130. -/
def firstMissing (f : Nat → Option K) : Nat → Nat → Nat
  | 0, i => i
  | c + 1, i => if (f i).isSome then firstMissing f c (i + 1) else i

/-- `HP_test` (l_hodrick.cpp 124-134): `*beg` and `*dim`. -/
def hpTest (nb : Nat) (f : Nat → Option K) : Nat × Nat :=
  let beg := firstKnown f nb 0
  (beg, firstMissing f (nb - beg) beg - beg)

/-- `HP_test` and `HP_calc` one after the other: l_exec_mtfn.cpp 688-697 and api/report/undoc/b_trend.cpp 111-112; the content of
    `otmp` or `t_vec`. -/
def hpSeries (log exp : K → K) (std : Bool) (nb : Nat) (f : Nat → Option K) (l : K) : Nat → Option K :=
  let bd := hpTest nb f
  fun i =>
    if i < bd.1 ∨ bd.1 + bd.2 ≤ i then none
    else (hpCalc log exp std bd.2 (fun k => (f (bd.1 + k)).getD 0) l).2 (i - bd.1)

/-- `L_hpall`, l_exec_mtfn.cpp 661-703: `l` is the value of the first argument at `t`, `e` the values of the second one. -/
def hpAll (log exp : K → K) (std : Bool) (l : Option K) (e : Int → Option K) (first last t : Int) : Option K :=
  match l with
  | none => none
  | some l =>
    if t < first ∨ t > last then none
    else
      let nb := (last - first + 1).toNat
      if nb < 5 then none
      else
        let f := fun i : Nat => e (first + i)
        if (hpTest nb f).2 < 5 then none
        else hpSeries log exp std nb f l (t - first).toNat

end Iode.Hodrick
