import Verif.Model.GSample

/-!
# What a generalised sample means

Written from the manual of generalised samples (the syntax comments of api/gsample/c_cc.cpp, 141-300): a sample is a list of
parts; a part is a column or a group in parentheses, followed by suffixes in any order.
-/
namespace Iode.GSample

/-- A period as written. -/
inductive PerLit where
  /-- `2000` or `99` -/
  | year (y : Int)
  /-- `2000Q3` -/
  | sub (y : Int) (c : Char) (s : Int)
  /-- `EOS` ... -/
  | anchor (p : Period)

/-- A shift: to the left or to the right, and by how much. -/
abbrev Shift := Bool × Nat

structure PerT where
  lit : PerLit
  shifts : List Shift

structure ColT where
  first : PerT
  second : Option (Op × PerT)

inductive Suf where
  /-- `[1;2-1]` -/
  | files (fs : List Fil)
  /-- `:5` (increment 1) or `:5*2` or `:5*-2` -/
  | rep (n : Nat) (incr : Option Int)
  /-- `<1`, `>1` -/
  | shift (s : Shift)

mutual
inductive Item where
  | col (c : ColT)
  | group (ps : Parts)
inductive Parts where
  | one (i : Item) (sufs : List Suf)
  | cons (i : Item) (sufs : List Suf) (ps : Parts)
end

/-! ## How it is written -/

def printShift (s : Shift) : List Tok := [if s.1 then .left else .right, .num s.2]

def printLit : PerLit → List Tok
  | .year y => [.num y]
  | .sub y c s => [.num y, .letter c, .num s]
  | .anchor p => [.anchor p]

def printPer (p : PerT) : List Tok := printLit p.lit ++ p.shifts.flatMap printShift

def printCol (c : ColT) : List Tok := match c.second with
  | none => printPer c.first
  | some (o, q) => printPer c.first ++ .op o :: printPer q

def printFile : Fil → List Tok
  | (f, none) => [.num f]
  | (f, some (o, g)) => [.num f, .op o, .num g]

def printFiles : List Fil → List Tok
  | [] => [.cbrack]
  | [f] => printFile f ++ [.cbrack]
  | f :: fs => printFile f ++ .semicolon :: printFiles fs

def printSuf : Suf → List Tok
  | .files fs => .obrack :: printFiles fs
  | .rep n none => [.colon, .num n]
  | .rep n (some d) => if d < 0 then [.colon, .num n, .star, .op .diff, .num (-d)] else [.colon, .num n, .star, .num d]
  | .shift s => printShift s

mutual
def printItem : Item → List Tok
  | .col c => printCol c
  | .group ps => .opar :: (print ps ++ [.cpar])
def print : Parts → List Tok
  | .one i sufs => printItem i ++ sufs.flatMap printSuf
  | .cons i sufs ps => printItem i ++ (sufs.flatMap printSuf ++ .semicolon :: print ps)
end

/-! ## What it stands for -/

/-- Number of periods in a year. -/
def inYear : Char → Int
  | 'S' => 2
  | 'Q' => 4
  | 'M' => 12
  | 'W' => 52
  | 'D' => 365
  | _ => 1

/-- The period `k` periods later. -/
def later (k : Int) (p : Period) : Period :=
  let nb := inYear p.periodicity
  { p with year := (nb * p.year + (p.step - 1) + k) / nb, step := (nb * p.year + (p.step - 1) + k) % nb + 1 }

/-- The effect of `<n` and `>n` on one period: `<0` and `>0` stand for the first and the last period of the year. -/
def moved (s : Shift) (p : Period) : Period :=
  if s.2 = 0 then { p with step := if s.1 then 1 else inYear p.periodicity }
  else later (if s.1 then -(s.2 : Int) else s.2) p

/-- Years of less than three digits. -/
def fullYear (y : Int) : Int := if y < 50 then y + 2000 else if y < 200 then y + 1900 else y

def litPer : PerLit → Period
  | .year y => ⟨fullYear y, 1, 'Y'⟩
  | .sub y c s => ⟨fullYear y, s, toUpperC c⟩
  | .anchor p => p

def perOf (p : PerT) : Period := p.shifts.foldl (fun q s => moved s q) (litPer p.lit)

/-- `f` on all the periods of a column. -/
def onPers (f : Period → Period) (c : Col) : Col := { c with per := f c.per, opy := c.opy.map fun (o, q) => (o, f q) }

/-- The column of the repetition `k` periods later: the base of an index stays. -/
def repeated (k : Int) (c : Col) : Col :=
  { c with per := later k c.per, opy := c.opy.map fun (o, q) => (o, if o = .base then q else later k q) }

/-- The column in each of the files, unless it has one already. -/
def inFiles (fs : List Fil) (c : Col) : List Col := if c.file = 0 then fs.map fun f => { c with file := f.1, opf := f.2 } else [c]

def colOf (c : ColT) : Col := ⟨perOf c.first, c.second.map fun (o, q) => (o, perOf q), 0, none⟩

/-- The shifts of a part, in the order in which they are written. -/
def shiftsOf (sufs : List Suf) : List Shift := sufs.filterMap fun s => match s with
  | .shift s => some s
  | _ => none

/-- The number of repetitions and the increment of a part. -/
def repOf : List Suf → Nat × Int
  | [] => (1, 1)
  | .rep n d :: _ => (n, d.getD 1)
  | _ :: sufs => repOf sufs

/-- The files of a part. -/
def filesOf : List Suf → Option (List Fil)
  | [] => none
  | .files fs :: _ => some fs
  | _ :: sufs => filesOf sufs

/-- `k` columns repeated `n` times over `f` files: first the repetitions, then the columns, then the files. -/
def product (cs : List Col) (fs : Option (List Fil)) (n : Nat) (d : Int) : List Col :=
  (List.range n).flatMap fun (i : Nat) => cs.flatMap fun c => match fs with
    | none => [repeated (i * d) c]
    | some fs => inFiles fs (repeated (i * d) c)

/-- The columns of a part. -/
def partCols (cs : List Col) (sufs : List Suf) : List Col :=
  product ((shiftsOf sufs).foldl (fun cs s => cs.map (onPers (moved s))) cs) (filesOf sufs) (repOf sufs).1 (repOf sufs).2

mutual
def itemCols : Item → List Col
  | .col c => [colOf c]
  | .group ps => cols ps
def cols : Parts → List Col
  | .one i sufs => partCols (itemCols i) sufs
  | .cons i sufs ps => partCols (itemCols i) sufs ++ cols ps
end

/-- The columns of a sample: a column without a file is in the workspace, file 1. -/
def meaning (ps : Parts) : List Col := (cols ps).map fun c => if c.file = 0 then { c with file := 1, opf := none } else c

/-! ## Well written samples -/

/-- A period of a calendar. -/
def Good (p : Period) : Prop := p.periodicity ∈ ['Y', 'S', 'Q', 'M', 'W', 'D'] ∧ 1 ≤ p.step ∧ p.step ≤ inYear p.periodicity

def Shorts (n : Int) : Prop := -32768 ≤ n ∧ n ≤ 32767

def PerT.Ok (p : PerT) : Prop := Good (litPer p.lit)

def ColT.Ok (c : ColT) : Prop := c.first.Ok ∧ ∀ o q, c.second = some (o, q) → q.Ok

def FilOk (f : Fil) : Prop := 1 ≤ f.1 ∧ f.1 ≤ 10 ∧ ∀ o g, f.2 = some (o, g) → fileOp o = true ∧ Shorts g

def Suf.Ok : Suf → Prop
  | .files fs => fs ≠ [] ∧ ∀ f ∈ fs, FilOk f
  | .rep n d => 1 ≤ n ∧ n ≤ 32767 ∧ ∀ k, d = some k → -32767 ≤ k ∧ k ≤ 32767
  | .shift _ => True

def isFiles : Suf → Bool
  | .files _ => true
  | _ => false
def isRep : Suf → Bool
  | .rep _ _ => true
  | _ => false
def isShift : Suf → Bool
  | .shift _ => true
  | _ => false

/-- At most one list of files and one repetition. -/
def SufsOk (sufs : List Suf) : Prop := (∀ s ∈ sufs, s.Ok) ∧ (sufs.filter isFiles).length ≤ 1 ∧ (sufs.filter isRep).length ≤ 1

/-- All the periods of a column have the same periodicity. -/
def OnePeriodicity (c : Col) : Prop := ∀ o q, c.opy = some (o, q) → q.periodicity = c.per.periodicity

/-- The shifts of groups that are compiled as documented: not a proper shift to the left of several columns, nor a shift to the
end of the year of a column over two periodicities. -/
def ShiftOk (cs : List Col) (s : Shift) : Prop :=
  (s.1 = true ∧ s.2 ≠ 0 → cs.length ≤ 1) ∧ (s.1 = false ∧ s.2 = 0 → ∀ c ∈ cs, OnePeriodicity c)

mutual
def Item.Ok : Item → Prop
  | .col c => c.Ok
  | .group ps => ps.Ok
def Parts.Ok : Parts → Prop
  | .one i sufs => i.Ok ∧ SufsOk sufs ∧ (∀ s ∈ shiftsOf sufs, ShiftOk (itemCols i) s) ∧ Attached i sufs
  | .cons i sufs ps => (i.Ok ∧ SufsOk sufs ∧ (∀ s ∈ shiftsOf sufs, ShiftOk (itemCols i) s) ∧ Attached i sufs) ∧ ps.Ok
/-- A shift written right after a period belongs to this period. -/
def Attached : Item → List Suf → Prop
  | .col _, s :: _ => isShift s = false
  | _, _ => True
end

end Iode.GSample
