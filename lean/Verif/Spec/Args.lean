import Verif.Model.Args

/-!
# What the arguments of a command are
-/
namespace Iode.Args

/-- The pieces between the separators. -/
def pieces (sp : List Char) (t : Text) : List Text := (t.splitOnP (· ∈ sp)).filter (· ≠ [])

/-- Separators that are not characters with another meaning. -/
def Usual (sp : List Char) : Prop := '$' ∉ sp ∧ '@' ∉ sp ∧ '"' ∉ sp

/-- A text without quotes and with words that have room. -/
def Fit (sp : List Char) (t : Text) : Prop := '"' ∉ t ∧ ∀ w ∈ pieces sp t, w.length ≤ 128

/-- A word that stands for itself. -/
def Ordinary (w : Text) : Prop := w.head? ≠ some '$' ∧ w.head? ≠ some '@'

/-- The arguments that words mean, with lists and files nested at most `k` deep. -/
inductive Means (W : World) : Nat → List Text → List Text → Prop
  | nil (k) : Means W k [] []
  | word {k w ws out} : Ordinary w → Means W k ws out → Means W k (w :: ws) (w :: out)
  | list {k x t ws a b} : W.look x = some t → Fit W.sp t → Means W k (pieces W.sp t) a → Means W (k + 1) ws b →
      Means W (k + 1) (('$' :: x) :: ws) (a ++ b)
  | file {k x t ws a b} : W.file x = some t → Fit W.sp t → Means W k (pieces W.sp t) a → Means W (k + 1) ws b →
      Means W (k + 1) (('@' :: x) :: ws) (a ++ b)

/-- The arguments, whatever the lists contain: `none` if a list does not exist; lists nested deeper than `k` are left out. -/
def value (W : World) : Nat → List Text → Option (List Text)
  | _, [] => some []
  | k, w :: ws =>
    match w with
    | '$' :: x =>
      match k with
      | 0 => value W 0 ws
      | j + 1 =>
        match W.look x with
        | none => none
        | some t => (value W j (pieces W.sp t)).bind fun a => (value W (j + 1) ws).map (a ++ ·)
    | w => (value W k ws).map (w :: ·)
  termination_by k ws => (k, ws.length)

end Iode.Args
