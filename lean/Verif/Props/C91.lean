import Verif.Model.ImpCmd
import Verif.Props.C88

/-!
# C91: the commands that import variables and comments do what their words say
-/
namespace Iode.ImpCmd

open Iode.Args (Text Fit pieces Short value)
open Iode.Imp (Format)
open Iode.Asc (VDb)
open Iode.ModelCmd (argpos Readable Plain)

/-! ## What is written -/

/-- The format a word stands for, as documented: {Ascii, Rotated_Ascii, DIF, NIS, GEM, PRN, TXT_Belgostat}, by its first letter. -/
inductive Wanted : Text → Format → Prop
  | ascii {c r} : c ∈ ['A', 'a'] → Wanted (c :: r) .ascii
  | rotated {c r} : c ∈ ['R', 'r'] → Wanted (c :: r) .rotated
  | dif {c r} : c ∈ ['D', 'd'] → Wanted (c :: r) .dif
  | nis {c r} : c ∈ ['N', 'n'] → Wanted (c :: r) .nis
  | gem {c r} : c ∈ ['G', 'g'] → Wanted (c :: r) .gem
  | prn {c r} : c ∈ ['P', 'p'] → Wanted (c :: r) .prn
  | txt {c r} : c ∈ ['T', 't'] → Wanted (c :: r) .txt

/-- The language: 0 English, 1 French, 2 Dutch. -/
inductive Speaks : Text → Nat → Prop
  | english {c r} : c ∈ ['E', 'e'] → Speaks (c :: r) 0
  | french {c r} : c ∈ ['F', 'f'] → Speaks (c :: r) 1
  | dutch {c r} : c ∈ ['D', 'd'] → Speaks (c :: r) 2

/-- A word of visible characters. -/
def Visible (w : Text) : Prop := w ≠ [] ∧ ∀ c ∈ w, 32 < c.toNat

/-- The words of an argument once the lists are replaced. -/
def Words (E : Env) (arg : Text) (ws : List Text) : Prop :=
  Readable E.world ∧ Plain arg ∧ value E.world 10 (pieces Args.seps arg) = some ws ∧ ∀ w ∈ ws, Visible w

/-- One word behind the others is the name of a trace; no word is no trace. -/
inductive Traced : List Text → List Text → Prop
  | no : Traced [] []
  | yes (t : Text) : Traced [t] [t]

/-! ## Words -/

theorem strip_visible {w : Text} (h : ∀ c ∈ w, 32 < c.toNat) : Report.strip w = w := by
  unfold Report.strip
  cases hr : w.reverse with
  | nil => rw [List.reverse_eq_nil_iff.mp hr]; rfl
  | cons c r =>
    have hc : c ∈ w := by rw [← List.mem_reverse, hr]; simp
    rw [List.dropWhile_cons_of_neg (by have := h c hc; simp; omega), ← hr, List.reverse_reverse]

theorem init_words {E : Env} {arg : Text} (h1 : Readable E.world) (h2 : Plain arg) : Args.init E.world arg = .ok (value E.world 10 (pieces Args.seps arg)) := by
  obtain ⟨h, h'⟩ := h1
  have := Args.C64_exact (W := E.world) (by rw [h]; exact LstCalc.usual_seps) (fun x t e => by rw [h]; exact (h' x t e).1)
    (fun x t e => by rw [h]; exact (h' x t e).2) (t := arg) (by rw [h]; exact h2.1) (by rw [h]; exact h2.2)
  rw [this, h]

theorem wanted_format {w : Text} {f : Format} (h : Wanted w f) : formatOf w = f := by
  cases h <;> rename_i c r h <;> simp only [List.mem_cons, List.not_mem_nil, or_false] at h <;> rcases h with rfl | rfl <;> rfl

theorem speaks_language {w : Text} {k : Nat} (h : Speaks w k) : language w = k := by
  cases h <;> rename_i c r h <;> simp only [List.mem_cons, List.not_mem_nil, or_false] at h <;> rcases h with rfl | rfl <;> rfl

theorem given_ok {a b : Text} {x : Sample} (h : Sample.ofStrings a b = .ok x) (ha : a ≠ []) (hb : b ≠ []) : Imp.givenSample a b = .ok true := by
  unfold Imp.givenSample
  rw [if_neg (by simp [ha, hb])]
  have h' : ((Period.parse a).bind fun p => (Period.parse b).bind fun q => Sample.ofPeriods p q) = .ok x := h
  rw [h']

theorem given_err {a b : Text} (h : Sample.ofStrings a b = .err) : Imp.givenSample a b = .ok false := by
  unfold Imp.givenSample
  have h' : ((Period.parse a).bind fun p => (Period.parse b).bind fun q => Sample.ofPeriods p q) = .err := h
  rw [h']
  split <;> rfl

theorem open_keeps (s : State) (t : Text) : (openTrace s t).vars = s.vars ∧ (openTrace s t).cmts = s.cmts := by
  unfold openTrace
  by_cases h : t = []
  · rw [if_pos h]; exact ⟨rfl, rfl⟩
  · rw [if_neg h]; exact ⟨rfl, rfl⟩

/-! ## Variables -/

/-- C91. `$FileImportVar format rule infile outfile from to [trace]`: the file `infile` is read in the format named, with the rules of `rule`; what is read is saved in `outfile`,
nothing else is saved, and the trace is written when there is one and is closed again. When nothing can be read the command fails and no file is saved. -/
theorem C91_variables_partial {E : Env} (s : State) {arg w rule infile outfile first last : Text} {rest ts : List Text}
    (h : Words E arg (w :: rule :: infile :: outfile :: first :: last :: rest)) (ht : Traced rest ts) (h0 : s.opened = none) {f : Format} (hf : Wanted w f) {x : Sample}
    (hx : Sample.ofStrings first last = .ok x) (hw : E.canWrite outfile = true) :
    (∀ db, readVars E f (E.files rule) (E.files infile) = .ok (some db) →
      importVar E s arg = .ok (0, ⟨(outfile, db) :: s.vars, s.cmts, ts ++ s.traces, none⟩)) ∧
    (readVars E f (E.files rule) (E.files infile) = .ok none → importVar E s arg = .ok (-1, ⟨s.vars, s.cmts, ts ++ s.traces, none⟩)) := by
  obtain ⟨h1, h2, h3, h4⟩ := h
  have hv : ∀ u ∈ w :: rule :: infile :: outfile :: first :: last :: rest, Report.strip u = u := fun u hu => strip_visible (h4 u hu).2
  have e1 := hv rule (by simp)
  have e2 := hv infile (by simp)
  have e3 := hv outfile (by simp)
  have e4 := hv first (by simp)
  have e5 := hv last (by simp)
  have hg := given_ok hx (h4 first (by simp)).1 (h4 last (by simp)).1
  have key : importVar E s arg = ruleVar E s (match rest with | [t] => t | _ => []) rule outfile infile first last f := by
    have hi := init_words h1 h2
    rw [h3] at hi
    unfold importVar
    rw [hi]
    simp only [Res.bind, wanted_format hf]
    cases ht <;> rfl
  obtain ⟨sv, sc, st, so⟩ := s
  simp only at h0
  subst h0
  rw [key]
  unfold ruleVar
  simp only [e1, e2, e3, e4, e5, hg]
  cases ht with
  | no =>
    constructor
    · intro db hdb
      simp [Res.bind, hdb, hw, openTrace, closeTrace, show Report.strip [] = [] from rfl]
    · intro hdb
      simp [Res.bind, hdb, openTrace, closeTrace, show Report.strip [] = [] from rfl]
  | yes t =>
    have e6 := hv t (by simp)
    have e7 : t ≠ [] := (h4 t (by simp)).1
    constructor
    · intro db hdb
      simp [Res.bind, hdb, hw, openTrace, closeTrace, e6, e7]
    · intro hdb
      simp [Res.bind, hdb, openTrace, closeTrace, e6, e7]

/-- C91. Fewer than six words, a list that does not exist, or periods that are no sample: the command fails and saves nothing. -/
theorem C91_variables_refused {E : Env} (s : State) {arg : Text} (h1 : Readable E.world) (h2 : Plain arg) :
    (value E.world 10 (pieces Args.seps arg) = none → importVar E s arg = .ok (-1, s)) ∧
    (∀ ws : List Text, value E.world 10 (pieces Args.seps arg) = some ws → ws.length < 6 → importVar E s arg = .ok (-1, s)) ∧
    (∀ (w rule infile outfile first last : Text) (rest : List Text), value E.world 10 (pieces Args.seps arg) = some (w :: rule :: infile :: outfile :: first :: last :: rest) →
      (∀ c ∈ first, 32 < c.toNat) → (∀ c ∈ last, 32 < c.toNat) → Sample.ofStrings first last = .err →
      ∃ s', importVar E s arg = .ok (-1, s') ∧ s'.vars = s.vars ∧ s'.cmts = s.cmts) := by
  have hi := init_words h1 h2
  refine ⟨fun h => ?_, fun ws h hl => ?_, fun w rule infile outfile first last rest h ha hb he => ?_⟩
  · unfold importVar
    rw [hi, h]
    rfl
  · unfold importVar
    rw [hi, h]
    match ws, hl with
    | [], _ => rfl
    | [_], _ => rfl
    | [_, _], _ => rfl
    | [_, _, _], _ => rfl
    | [_, _, _, _], _ => rfl
    | [_, _, _, _, _], _ => rfl
    | _ :: _ :: _ :: _ :: _ :: _ :: _, h => simp at h; omega
  · unfold importVar
    rw [hi, h]
    simp only [Res.bind]
    unfold ruleVar
    simp only [strip_visible ha, strip_visible hb, given_err he, Res.bind]
    exact ⟨_, rfl, open_keeps _ _⟩

/-! ## Comments -/

/-- C91. `$FileImportCmt format rule infile outfile language [trace]`: the same for comments, which only some formats have; the other formats are refused. -/
theorem C91_comments_partial {E : Env} (s : State) {arg w rule infile outfile lang : Text} {rest ts : List Text}
    (h : Words E arg (w :: rule :: infile :: outfile :: lang :: rest)) (ht : Traced rest ts) (h0 : s.opened = none) {f : Format} (hf : Wanted w f) {k : Nat}
    (hk : Speaks lang k) (hw : E.canWrite outfile = true) :
    (f ∈ [.rotated, .dif, .nis, .gem] → importCmt E s arg = .ok (-1, ⟨s.vars, s.cmts, ts ++ s.traces, none⟩)) ∧
    (f = .ascii → ∀ db, Imp.importCmt (E.files rule) (E.files infile) = .ok (some db) →
      importCmt E s arg = .ok (0, ⟨s.vars, (outfile, db) :: s.cmts, ts ++ s.traces, none⟩)) ∧
    (f = .ascii → Imp.importCmt (E.files rule) (E.files infile) = .ok none → importCmt E s arg = .ok (-1, ⟨s.vars, s.cmts, ts ++ s.traces, none⟩)) ∧
    (f ∈ [.prn, .txt] → ∀ db, E.otherCmts f k (E.files rule) (E.files infile) = .ok (some db) →
      importCmt E s arg = .ok (0, ⟨s.vars, (outfile, db) :: s.cmts, ts ++ s.traces, none⟩)) ∧
    (f ∈ [.prn, .txt] → E.otherCmts f k (E.files rule) (E.files infile) = .ok none → importCmt E s arg = .ok (-1, ⟨s.vars, s.cmts, ts ++ s.traces, none⟩)) := by
  obtain ⟨h1, h2, h3, h4⟩ := h
  have hv : ∀ u ∈ w :: rule :: infile :: outfile :: lang :: rest, Report.strip u = u := fun u hu => strip_visible (h4 u hu).2
  have e1 := hv rule (by simp)
  have e2 := hv infile (by simp)
  have e3 := hv outfile (by simp)
  have key : importCmt E s arg = ruleCmt E s (match rest with | [t] => t | _ => []) rule outfile infile f k := by
    have hi := init_words h1 h2
    rw [h3] at hi
    unfold importCmt
    rw [hi]
    simp only [Res.bind, wanted_format hf, speaks_language hk]
    cases ht <;> rfl
  obtain ⟨sv, sc, st, so⟩ := s
  simp only at h0
  subst h0
  rw [key]
  unfold ruleCmt
  simp only [e1, e2, e3]
  cases ht with
  | no =>
    refine ⟨fun hm => ?_, fun hm db hdb => ?_, fun hm hdb => ?_, fun hm db hdb => ?_, fun hm hdb => ?_⟩ <;>
      try simp only [List.mem_cons, List.not_mem_nil, or_false] at hm
    · rcases hm with rfl | rfl | rfl | rfl <;> rfl
    · subst hm; simp [Res.bind, hasCmts, readCmts, hdb, hw, openTrace, closeTrace, show Report.strip [] = [] from rfl]
    · subst hm; simp [Res.bind, hasCmts, readCmts, hdb, openTrace, closeTrace, show Report.strip [] = [] from rfl]
    · rcases hm with rfl | rfl <;> simp [Res.bind, hasCmts, readCmts, hdb, hw, openTrace, closeTrace, show Report.strip [] = [] from rfl]
    · rcases hm with rfl | rfl <;> simp [Res.bind, hasCmts, readCmts, hdb, openTrace, closeTrace, show Report.strip [] = [] from rfl]
  | yes t =>
    have e6 := hv t (by simp)
    have e7 : t ≠ [] := (h4 t (by simp)).1
    refine ⟨fun hm => ?_, fun hm db hdb => ?_, fun hm hdb => ?_, fun hm db hdb => ?_, fun hm hdb => ?_⟩ <;>
      try simp only [List.mem_cons, List.not_mem_nil, or_false] at hm
    · rcases hm with rfl | rfl | rfl | rfl <;> simp [hasCmts, openTrace, closeTrace, e6, e7]
    · subst hm; simp [Res.bind, hasCmts, readCmts, hdb, hw, openTrace, closeTrace, e6, e7]
    · subst hm; simp [Res.bind, hasCmts, readCmts, hdb, openTrace, closeTrace, e6, e7]
    · rcases hm with rfl | rfl <;> simp [Res.bind, hasCmts, readCmts, hdb, hw, openTrace, closeTrace, e6, e7]
    · rcases hm with rfl | rfl <;> simp [Res.bind, hasCmts, readCmts, hdb, openTrace, closeTrace, e6, e7]

/-- C91. Fewer than five words, or a list that does not exist: nothing is done. -/
theorem C91_comments_refused {E : Env} (s : State) {arg : Text} (h1 : Readable E.world) (h2 : Plain arg) :
    (value E.world 10 (pieces Args.seps arg) = none → importCmt E s arg = .ok (-1, s)) ∧
    (∀ ws : List Text, value E.world 10 (pieces Args.seps arg) = some ws → ws.length < 5 → importCmt E s arg = .ok (-1, s)) := by
  have hi := init_words h1 h2
  refine ⟨fun h => ?_, fun ws h hl => ?_⟩
  · unfold importCmt
    rw [hi, h]
    rfl
  · unfold importCmt
    rw [hi, h]
    match ws, hl with
    | [], _ => rfl
    | [_], _ => rfl
    | [_, _], _ => rfl
    | [_, _, _], _ => rfl
    | [_, _, _, _], _ => rfl
    | _ :: _ :: _ :: _ :: _ :: _, h => simp at h; omega

/-! ## What is not as one expects -/

/-- No word stands for the format of Bistel: its place in the list of letters has the letter of DIF, which is found first. -/
theorem C91_bistel_counterexample (w : Text) : formatOf w ≠ .bistel := by
  unfold formatOf argpos
  generalize toUpperC (w.headD '\x00') = c
  by_cases h1 : c = 'A'
  · subst h1; decide
  by_cases h2 : c = 'R'
  · subst h2; decide
  by_cases h3 : c = 'D'
  · subst h3; decide
  by_cases h4 : c = 'N'
  · subst h4; decide
  by_cases h5 : c = 'G'
  · subst h5; decide
  by_cases h6 : c = 'P'
  · subst h6; decide
  by_cases h7 : c = 'T'
  · subst h7; decide
  have : List.findIdx? (fun x => decide (x = c)) ['A', 'R', 'D', 'D', 'N', 'G', 'P', 'T'] = none := by
    simp [Ne.symm h1, Ne.symm h2, Ne.symm h3, Ne.symm h4, Ne.symm h5, Ne.symm h6, Ne.symm h7]
  rw [this]
  decide

/-- A word that stands for no format is not refused: the file is read as if it were ascii. -/
theorem C91_unknown_format_counterexample (c : Char) (r : Text) (h : toUpperC c ∉ ['A', 'R', 'D', 'N', 'G', 'P', 'T']) : formatOf (c :: r) = .ascii := by
  simp only [List.mem_cons, List.not_mem_nil, or_false, not_or] at h
  obtain ⟨h1, h2, h3, h4, h5, h6, h7⟩ := h
  have e : List.findIdx? (fun x => decide (x = toUpperC ((c :: r).headD '\x00'))) ['A', 'R', 'D', 'D', 'N', 'G', 'P', 'T'] = none := by
    simp [Ne.symm h1, Ne.symm h2, Ne.symm h3, Ne.symm h4, Ne.symm h5, Ne.symm h6, Ne.symm h7]
  unfold formatOf argpos
  rw [e]
  rfl

/-- A file that cannot be written: nothing is saved, but the command succeeds. -/
theorem C91_not_saved_counterexample {E : Env} (s : State) {arg w rule infile outfile first last : Text}
    (h : Words E arg [w, rule, infile, outfile, first, last]) {f : Format} (hf : Wanted w f) {x : Sample}
    (hx : Sample.ofStrings first last = .ok x) (hw : E.canWrite outfile = false) {db : VDb} (hr : readVars E f (E.files rule) (E.files infile) = .ok (some db)) :
    importVar E s arg = .ok (0, s) := by
  obtain ⟨h1, h2, h3, h4⟩ := h
  have hv : ∀ u ∈ [w, rule, infile, outfile, first, last], Report.strip u = u := fun u hu => strip_visible (h4 u hu).2
  have e1 := hv rule (by simp)
  have e2 := hv infile (by simp)
  have e3 := hv outfile (by simp)
  have e4 := hv first (by simp)
  have e5 := hv last (by simp)
  have hg := given_ok hx (h4 first (by simp)).1 (h4 last (by simp)).1
  unfold importVar
  rw [init_words h1 h2, h3]
  simp only [Res.bind, wanted_format hf]
  unfold ruleVar
  simp only [e1, e2, e3, e4, e5, hg]
  simp [Res.bind, hr, hw, openTrace, closeTrace, show Report.strip [] = [] from rfl]

/-- When the periods are refused, the trace stays open. -/
theorem C91_trace_open_counterexample {E : Env} (s : State) {arg w rule infile outfile first last t : Text}
    (h : Words E arg [w, rule, infile, outfile, first, last, t]) (hx : Sample.ofStrings first last = .err) :
    importVar E s arg = .ok (-1, ⟨s.vars, s.cmts, t :: s.traces, some t⟩) := by
  obtain ⟨h1, h2, h3, h4⟩ := h
  have hv : ∀ u ∈ [w, rule, infile, outfile, first, last, t], Report.strip u = u := fun u hu => strip_visible (h4 u hu).2
  have e4 := hv first (by simp)
  have e5 := hv last (by simp)
  have e6 := hv t (by simp)
  unfold importVar
  rw [init_words h1 h2, h3]
  simp only [Res.bind]
  unfold ruleVar
  simp only [e4, e5, e6, given_err hx, Res.bind]
  simp [openTrace, (h4 t (by simp)).1]

/-! ## Examples -/

def exFiles (n : Text) : Option Text :=
  if n = ['i', 'n'] then some "sample 2000Y1 2001Y1\nA_X 1 na\nB_Y -3\nC 5 6 7\n".toList
  else if n = ['c', 'm', 't'] then some "A_X \"one\" C \"two\"".toList
  else if n = ['r'] then some "A_* --+\nB* T_+++\n".toList
  else none

def exEnv : Env := ⟨ModelCmd.world, exFiles, fun n => n ≠ ['/'], fun _ _ _ => .ok none, fun _ _ _ _ => .ok none⟩

def empty : State := ⟨[], [], [], none⟩

theorem ex_words (arg : Text) (ws : List Text) (h1 : Plain arg) (h2 : pieces Args.seps arg = ws) (h3 : ∀ w ∈ ws, w.head? ≠ some '$' ∧ Visible w) : Words exEnv arg ws := by
  refine ⟨ModelCmd.world_readable, h1, ?_, fun w hw => (h3 w hw).2⟩
  rw [h2]
  clear h1 h2
  induction ws with
  | nil => simp [value]
  | cons w ws ih =>
    have := ih fun u hu => h3 u (by simp [hu])
    have hw := (h3 w (by simp)).1
    rw [value]
    · simp [this]
    · rintro x rfl
      exact hw rfl

example : ∃ db, importVar exEnv empty "ascii r in out 2000Y1 2001Y1 log".toList = .ok (0, ⟨[("out".toList, db)], [], ["log".toList], none⟩) := by
  obtain ⟨db, hdb⟩ : ∃ db, readVars exEnv .ascii (exEnv.files ['r']) (exEnv.files ['i', 'n']) = .ok (some db) :=
    ⟨⟨some ⟨⟨2000, 1, 'Y'⟩, ⟨2001, 1, 'Y'⟩, 2⟩, [("T_B_Y".toList, [.num (-3), Asc.na]), ("X".toList, [.num 1, Asc.na])]⟩, by decide +kernel⟩
  have h := (C91_variables_partial (E := exEnv) empty (arg := "ascii r in out 2000Y1 2001Y1 log".toList)
    (ex_words _ ["ascii".toList, ['r'], ['i', 'n'], "out".toList, "2000Y1".toList, "2001Y1".toList, "log".toList]
      ⟨⟨by decide, by decide +kernel⟩, by unfold Short; decide +kernel⟩ (by decide +kernel) (by unfold Visible; decide +kernel))
    (Traced.yes _) rfl (f := .ascii) (by rw [show "ascii".toList = 'a' :: "scii".toList by decide +kernel]; exact .ascii (by decide))
    (x := ⟨⟨2000, 1, 'Y'⟩, ⟨2001, 1, 'Y'⟩, 2⟩) (by decide +kernel) (by decide +kernel)).1 db hdb
  exact ⟨db, h⟩

/-- The command on a file with two rules: a name is cut, one is lengthened, one is left out. -/
example : importVar exEnv empty "Ascii r in out 2000Y1 2001Y1 log".toList =
    .ok (0, ⟨[("out".toList, ⟨some ⟨⟨2000, 1, 'Y'⟩, ⟨2001, 1, 'Y'⟩, 2⟩, [("T_B_Y".toList, [.num (-3), Asc.na]), ("X".toList, [.num 1, Asc.na])]⟩)], [], ["log".toList], none⟩) := by
  decide +kernel

example : importVar exEnv empty "Ascii r in out 2000Y1".toList = .ok (-1, empty) :=
  (C91_variables_refused (E := exEnv) empty (arg := "Ascii r in out 2000Y1".toList) ModelCmd.world_readable ⟨⟨by decide, by decide +kernel⟩, by unfold Short; decide +kernel⟩).2.1
    ["Ascii".toList, ['r'], ['i', 'n'], "out".toList, "2000Y1".toList]
    (ex_words _ _ ⟨⟨by decide, by decide +kernel⟩, by unfold Short; decide +kernel⟩ (by decide +kernel) (by unfold Visible; decide +kernel)).2.2.1 (by decide)

example : importCmt exEnv empty "D r cmt out E".toList = .ok (-1, empty) :=
  (C91_comments_partial (E := exEnv) empty (arg := "D r cmt out E".toList) (w := ['D']) (rule := ['r']) (infile := ['c', 'm', 't']) (outfile := "out".toList) (lang := ['E'])
    (ex_words _ _ ⟨⟨by decide, by decide +kernel⟩, by unfold Short; decide +kernel⟩ (by decide +kernel) (by unfold Visible; decide +kernel))
    Traced.no rfl (.dif (by decide)) (.english (by decide)) (by decide +kernel)).1 (by decide)

example : importCmt exEnv empty "A r cmt out E log".toList = .ok (0, ⟨[], [("out".toList, [("X".toList, "one".toList)])], ["log".toList], none⟩) := by decide +kernel

example : importCmt exEnv empty "A r cmt out".toList = .ok (-1, empty) :=
  (C91_comments_refused (E := exEnv) empty (arg := "A r cmt out".toList) ModelCmd.world_readable ⟨⟨by decide, by decide +kernel⟩, by unfold Short; decide +kernel⟩).2
    [['A'], ['r'], ['c', 'm', 't'], "out".toList]
    (ex_words _ _ ⟨⟨by decide, by decide +kernel⟩, by unfold Short; decide +kernel⟩ (by decide +kernel) (by unfold Visible; decide +kernel)).2.2.1 (by decide)

example : importVar exEnv empty "A r in / 2000Y1 2001Y1".toList = .ok (0, empty) := by
  refine C91_not_saved_counterexample (E := exEnv) empty (arg := "A r in / 2000Y1 2001Y1".toList) (w := ['A']) (rule := ['r']) (infile := ['i', 'n']) (outfile := ['/'])
    (first := "2000Y1".toList) (last := "2001Y1".toList)
    (ex_words _ _ ⟨⟨by decide, by decide +kernel⟩, by unfold Short; decide +kernel⟩ (by decide +kernel) (by unfold Visible; decide +kernel))
    (.ascii (by decide)) (x := ⟨⟨2000, 1, 'Y'⟩, ⟨2001, 1, 'Y'⟩, 2⟩) (by decide +kernel) (by decide +kernel)
    (db := ⟨some ⟨⟨2000, 1, 'Y'⟩, ⟨2001, 1, 'Y'⟩, 2⟩, [("T_B_Y".toList, [.num (-3), Asc.na]), ("X".toList, [.num 1, Asc.na])]⟩) (by decide +kernel)

example : importVar exEnv empty "A r in out 2001Y1 2000Y1 log".toList = .ok (-1, ⟨[], [], ["log".toList], some "log".toList⟩) :=
  C91_trace_open_counterexample (E := exEnv) empty (w := ['A']) (rule := ['r']) (infile := ['i', 'n']) (outfile := "out".toList)
    (first := "2001Y1".toList) (last := "2000Y1".toList) (t := "log".toList)
    (ex_words _ _ ⟨⟨by decide, by decide +kernel⟩, by unfold Short; decide +kernel⟩ (by decide +kernel) (by unfold Visible; decide +kernel)) (by decide +kernel)

example : formatOf "Bistel".toList = .ascii ∧ formatOf "DIF".toList = .dif := by decide +kernel

/-- A word behind the trace: there is no trace at all. -/
theorem C91_extra_word_counterexample : importVar exEnv empty "Ascii r in out 2000Y1 2001Y1 log more".toList =
    .ok (0, ⟨[("out".toList, ⟨some ⟨⟨2000, 1, 'Y'⟩, ⟨2001, 1, 'Y'⟩, 2⟩, [("T_B_Y".toList, [.num (-3), Asc.na]), ("X".toList, [.num 1, Asc.na])]⟩)], [], [], none⟩) := by
  decide +kernel

/-- The periods asked for are not those saved: the file has its own. -/
theorem C91_periods_counterexample : importVar exEnv empty "Ascii r in out 1990M1 1990M2".toList =
    .ok (0, ⟨[("out".toList, ⟨some ⟨⟨2000, 1, 'Y'⟩, ⟨2001, 1, 'Y'⟩, 2⟩, [("T_B_Y".toList, [.num (-3), Asc.na]), ("X".toList, [.num 1, Asc.na])]⟩)], [], [], none⟩) := by
  decide +kernel

end Iode.ImpCmd
