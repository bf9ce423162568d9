import Verif.Model.TblCalc
import Verif.Model.SMap
import Verif.Model.Sample

/-!
# Model of the series of a computed table

Source: cpp_api/computed_table/computed_table.cpp (`initialize`, `find_file_op`, `compute_values`), computed_table.h (`get_value`), computed_table_graph.cpp.

Simplifications
* `columns` are what `COL_cc` gives (GSample, C43); two columns without an operation on files have the same second file, 0;
* the results of a row are given (`COL_exec`, TblCalc, C59);
* `suffix` is the text of the operation on files `get_series_name` appends, `COL_ctoa` with a blank in front, or nothing.
-/
namespace Iode.Graph

open Iode.GSample (Col)

variable {F : Type}

/-- Same files and operation on files, computed_table.cpp 169-171. -/
def sameFiles (a b : Col) : Bool := a.opf = b.opf && a.file = b.file

/-- `find_file_op`, computed_table.cpp 160-176. -/
def findFileOp : List Col → Col → Option Nat
  | [], _ => none
  | o :: ops, c => if sameFiles c o then some 0 else (findFileOp ops c).map (· + 1)

/-- The loop of `initialize`, computed_table.cpp 30-48. -/
def scan : List Col → Period → Period → List Col → Res (Period × Period × List Col)
  | [], start, stop, ops => .ok (start, stop, ops)
  | c :: cs, start, stop, ops =>
    let ops' := if findFileOp ops c = none then ops ++ [c] else ops
    (c.per.difference start).bind fun d =>
      let start' := if d < 0 then { start with year := c.per.year, step := c.per.step } else start
      (c.per.difference stop).bind fun e =>
        let stop' := if e > 0 then { stop with year := c.per.year, step := c.per.step } else stop
        scan cs start' stop' ops'

/-- `initialize`, computed_table.cpp 26-49: the sample of the table and the operations on files. -/
def prepare (cols : List Col) : Res (Sample × List Col) :=
  match cols with
  | [] => .ub
  | c :: cs => (scan (c :: cs) c.per c.per []).bind fun r => (Sample.ofPeriods r.1 r.2.1).bind fun s => .ok (s, r.2.2)

/-- The loop of `initialize` over the columns after resizing, computed_table.cpp 102-107: `v_pos_in_columns_struct`; the first argument bounds the rounds. -/
def positions (nb step : Nat) : Nat → Nat → List Nat
  | 0, _ => []
  | n + 1, col => if col < nb then col :: positions nb step n (col + step) else []

/-- A row of `values`, computed_table.cpp 199-203; there are no columns when no line has a `#` in its second cell, 84-111. -/
def rowValues (hash : Bool) (step : Nat) (results : List F) : Res (List F) :=
  if hash then (positions results.length step results.length 1).foldr (fun p r => match results[p]? with | none => .ub | some v => r.bind fun vs => .ok (v :: vs)) (.ok [])
  else .ok []

/-- `y[i] = v`. -/
def store (y : List F) (i : Int) (v : F) : Res (List F) :=
  if 0 ≤ i ∧ i < y.length then .ok (y.set i.toNat v) else .ub

/-- The loop of `get_series_values`, computed_table_graph.cpp 72-82; the first argument bounds the rounds, `get_value` throws when there is no such column (computed_table.h 210-212). -/
def seriesLoop (start : Period) (ops : List Col) (f : Nat) (cols : List Col) (step : Nat) (vals : List F) : Nat → Nat → Nat → List F → Res (List F)
  | 0, _, _, y => .ok y
  | n + 1, col, k, y =>
    match cols[col]? with
    | none => .ok y
    | some c =>
      if findFileOp ops c = some f then
        (c.per.difference start).bind fun i =>
          match vals[k]? with
          | none => .err
          | some v => (store y i v).bind fun y' => seriesLoop start ops f cols step vals n (col + step) (k + 1) y'
      else seriesLoop start ops f cols step vals n (col + step) (k + 1) y

/-- `get_series_values`, computed_table_graph.cpp 60-85: `cols` are the columns before resizing, `dim` is the number of columns of the table. -/
def seriesValues (na : F) (smp : Sample) (ops : List Col) (cols : List Col) (dim : Nat) (f : Nat) (vals : List F) : Res (List F) :=
  let cs := TblCalc.resize dim cols
  seriesLoop smp.start ops f cs dim vals cs.length 1 0 (List.replicate smp.nb.toNat na)

/-- The loop of `get_series_periods`, computed_table_graph.cpp 17-18. -/
def periodsLoop (start : Period) : Nat → Int → Res (List Period)
  | 0, _ => .ok []
  | n + 1, i => (start.shift i).bind fun p => (periodsLoop start n (i + 1)).bind fun ps => .ok (p :: ps)

/-- `get_series_periods`, computed_table_graph.cpp 9-21. -/
def seriesPeriods (smp : Sample) : Res (List Period) :=
  (periodsLoop smp.start (smp.nb - 1).toNat 1).bind fun ps => .ok (smp.start :: ps)

/-- The loop of `get_series`, computed_table_graph.cpp 104-108; rows are names with values. -/
def rowsLoop (na : F) (smp : Sample) (ops : List Col) (cols : List Col) (dim : Nat) (f : Nat) (suffix : List Char) :
    List (List Char × List F) → SMap (List F) → Res (SMap (List F))
  | [], m => .ok m
  | (name, vals) :: rows, m =>
    (seriesValues na smp ops cols dim f vals).bind fun y => rowsLoop na smp ops cols dim f suffix rows (m.insert (name ++ suffix) y)

/-- `get_series`, computed_table_graph.cpp 87-110. -/
def series (na : F) (smp : Sample) (ops : List Col) (cols : List Col) (dim : Nat) (f : Int) (suffix : List Char) (rows : List (List Char × List F)) : Res (SMap (List F)) :=
  if f < 0 ∨ f ≥ ops.length then .err else rowsLoop na smp ops cols dim f.toNat suffix rows []

end Iode.Graph
