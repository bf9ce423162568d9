import Verif.Model.Period

/-!
# Samples

Models `api/time/sample.h`. `nb_periods` is a `short`: the assignment `nb_periods = diff + 1` narrows to
16 bits (two's complement), modelled by `Int.bmod _ 65536`.
-/
namespace Iode

/-- `struct Sample` (api/time/sample.h:7-11). -/
structure Sample where
  start : Period
  stop : Period
  nb : Int
  deriving Repr, DecidableEq

/-- Conversion to `short`. -/
def toShort (i : Int) : Int := Int.bmod i 65536

namespace Sample

/-- `Sample(start, end)` through `sample_from_periods` (api/time/sample.h:14-28, 43-46). -/
def ofPeriods (s e : Period) : Res Sample := do
  let diff ← e.difference s
  if diff < 0 then .err else .ok ⟨s, e, toShort (diff + 1)⟩

/-- `Sample(str_start, str_end)` (api/time/sample.h:48-70). -/
def ofStrings (s e : List Char) : Res Sample := do
  let p ← Period.parse s
  let q ← Period.parse e
  ofPeriods p q

/-- `Sample::get_period_position` (api/time/sample.h:72-79). -/
def position (s : Sample) (p : Period) : Res Int := do
  let t ← p.difference s.start
  if t < 0 ∨ t ≥ s.nb then .err else .ok t

/-- Loop of `get_list_periods` from index `t`, `k` rounds left. -/
def listLoop (start : Period) (t : Int) : Nat → Res (List Period)
  | 0 => .ok []
  | k + 1 => do
      let p ← start.shift t
      let rest ← listLoop start (t + 1) k
      .ok (p :: rest)

/-- `Sample::get_list_periods` (api/time/sample.h:86-94), before the conversion of each period to text.
    `reserve` of a negative count (converted to a huge unsigned number) throws. -/
def listPeriods (s : Sample) : Res (List Period) :=
  if s.nb < 0 then .err else listLoop s.start 0 s.nb.toNat

/-- `Sample::intersection` (api/time/sample.h:106-127). -/
def intersection (a b : Sample) : Res Sample :=
  if a.start.periodicity ≠ b.start.periodicity then .err
  else do
    let ds ← a.start.difference b.start
    let rs := if ds < 0 then b.start else a.start
    let de ← a.stop.difference b.stop
    let re := if de > 0 then b.stop else a.stop
    ofPeriods rs re

end Sample
end Iode
