import Verif.Model.DataCalc
import Verif.Lemmas.IdtRun
import Verif.Props.C39
import Verif.Props.C74

/-!
# C86: a variable computed by a formula gets the values of the formula
-/
namespace Iode.DataCmd

open Iode.DataCmd.Written
open Iode.Lec

variable {F : Type}

/-! ## What is meant -/

/-- A workspace: the names are in order, all series have the length of the sample. -/
structure Fine (w : Ws F) : Prop where
  sorted : SMap.Sorted w.vars
  len : ∀ k y, w.vars.find k = some y → y.length = w.nb.toNat

/-- The series before the command: all values missing when there is none. -/
def before (A : Arith F) (w : Ws F) (x : Text) : List F :=
  (w.vars.find (toKey .variables x)).getD (List.replicate w.nb.toNat A.na)

/-- The workspace with another series for `x`. -/
def withSeries (w : Ws F) (x : Text) (y : List F) : Ws F := { w with vars := w.vars.insert (toKey .variables x) y }

/-- The formula of the command as the user writes it: a text that does not end by a blank and has no tab. -/
structure Formula (t : Text) : Prop where
  tab : '\t' ∉ t
  last : ∀ c ∈ t.getLast?, 32 < c.toNat
  ne : t ≠ []

/-- The state a command leaves. -/
def Leaves (o : Out (Ws F)) (w : Ws F) : Prop := o = .done w ∨ o = .failed w ∨ o = .thrown w

/-! ## Parts -/

theorem tabs_self {t : Text} (h : '\t' ∉ t) : tabs t = t := by
  unfold tabs
  conv => rhs; rw [← List.map_id t]
  refine List.map_congr_left fun c hc => ?_
  rw [if_neg (by rintro rfl; exact h hc)]; rfl

theorem strip_self {t : Text} (h : Formula t) : RepFn.stripText t = t := by
  unfold RepFn.stripText
  have h1 := h.last
  rw [← List.head?_reverse] at h1
  cases hr : t.reverse with
  | nil => rw [List.reverse_eq_nil_iff] at hr; exact absurd hr h.ne
  | cons c r =>
    rw [hr] at h1
    have := h1 c (by simp)
    rw [List.dropWhile_cons_of_neg (by simp; omega), ← hr, List.reverse_reverse]

theorem created_ok {A : Arith F} {w : Ws F} (hw : Fine w) {x : Text} (hx : Typed .variables x) :
    created A w x = some (withSeries w x (before A w x)) := by
  have hh : has .variables w.vars x = SMap.has (toKey .variables x) w.vars := rfl
  unfold created
  rw [hh]
  unfold before withSeries
  cases hf : SMap.find (toKey .variables x) w.vars with
  | some y =>
    rw [if_pos ((SMap.has_iff _ _).2 ⟨y, hf⟩), Option.getD_some, Idt.insert_find hw.sorted hf]
  | none =>
    rw [(SMap.has_false_iff _ _).2 hf]
    simp [put, hx.2]

theorem before_length {A : Arith F} {w : Ws F} (hw : Fine w) (x : Text) : (before A w x).length = w.nb.toNat := by
  unfold before
  cases hf : SMap.find (toKey .variables x) w.vars with
  | some y => simpa using hw.len _ _ hf
  | none => simp

theorem fine_with {w : Ws F} (hw : Fine w) (x : Text) {y : List F} (hy : y.length = w.nb.toNat) : Fine (withSeries w x y) := by
  refine ⟨SMap.sorted_insert _ _ _ hw.sorted, fun k z hz => ?_⟩
  simp only [withSeries, SMap.find_insert] at hz
  split at hz
  · cases hz; exact hy
  · exact hw.len _ _ hz

theorem with_with (w : Ws F) (x : Text) (y z : List F) : withSeries (withSeries w x y) x z = withSeries w x z := by
  unfold withSeries; simp [Idt.insert_same]

theorem calc_arg (A : Arith F) (lex : Text → List RTok) {w : Ws F} (hw : Fine w) {x t : Text} (hx : Typed .variables x) (ht : Formula t) :
    calcVar A lex w (x ++ ' ' :: t) = calcRun A (withSeries w x (before A w x)) x (lex t) := by
  unfold calcVar
  have h1 : left (x ++ ' ' :: t) = x ++ ' ' :: t := by
    rw [left_name hx, show tabs (' ' :: t) = ' ' :: tabs t from rfl, tabs_self ht.tab]
  have h2 : arg0 (x ++ ' ' :: t) = x := arg0_name hx (Or.inr ⟨' ', by simp [bseps], t, rfl⟩)
  simp only [h1, h2]
  rw [List.drop_left, if_neg (by simp), ← List.drop_drop, List.drop_left, List.drop_succ_cons, List.drop_zero, strip_self ht, created_ok hw hx]
  simp only []
  rw [if_neg ht.ne]

/-- The loop: what it leaves in the series and where the values come from. -/
theorem calcLoop_spec {A : Arith F} {l : Linked} {x : Text} : ∀ (n t : Nat) (w w' : Ws F) (y : List F), t + n = y.length →
    Leaves (calcLoop A l x n t (withSeries w x y)) w' → ∃ z, w' = withSeries w x z ∧ z.length = y.length ∧ z.take t = y.take t ∧
      (calcLoop A l x n t (withSeries w x y) = .done w' → ∀ u, t ≤ u → u < y.length →
        ∃ d, z[u]? = some d ∧ l.exec A (withSeries w x (z.take u ++ y.drop u)) u = .ok d)
  | 0, t, w, w', y, hn, h => by
    simp only [calcLoop, Leaves] at h
    rcases h with h | h | h <;> cases h
    exact ⟨y, rfl, rfl, rfl, fun _ u h1 h2 => by omega⟩
  | n + 1, t, w, w', y, hn, h => by
    have hs : ∀ d, Idt.store (withSeries w x y) x t d = .ok (withSeries w x (y.set t d)) := by
      intro d
      unfold Idt.store
      simp only [withSeries, SMap.find_insert_self]
      rw [if_pos (by omega)]
      simp [Idt.insert_same]
    unfold calcLoop at h ⊢
    cases he : l.exec A (withSeries w x y) t with
    | ub => simp [he, Leaves] at h
    | err =>
      simp only [he, Leaves] at h ⊢
      rcases h with h | h | h <;> cases h
      exact ⟨y, rfl, rfl, rfl, fun h => by cases h⟩
    | ok d =>
      simp only [he, hs] at h ⊢
      rw [show ((t : Int) + 1) = ((t + 1 : Nat) : Int) by omega] at h ⊢
      obtain ⟨z, e1, e2, e3, e4⟩ := calcLoop_spec n (t + 1) w w' (y.set t d) (by simp; omega) h
      have hzt : z.take t = y.take t := by
        have := congrArg (List.take t) e3
        rw [List.take_take, List.take_take, List.take_set_of_le (by omega)] at this
        simpa using this
      refine ⟨z, e1, by simpa using e2, hzt, fun hd u h1 h2 => ?_⟩
      by_cases hu : u = t
      · subst hu
        refine ⟨d, ?_, ?_⟩
        · have h5 : (z.take (u + 1))[u]? = ((y.set u d).take (u + 1))[u]? := by rw [e3]
          rw [List.getElem?_take_of_lt (by omega), List.getElem?_take_of_lt (by omega), List.getElem?_set_self h2] at h5
          exact h5
        · rw [hzt, List.take_append_drop]; exact he
      · obtain ⟨d', g1, g2⟩ := e4 hd u (by omega) (by simpa using h2)
        refine ⟨d', g1, ?_⟩
        rw [List.drop_set_of_lt (by omega)] at g2
        exact g2

/-- What the steps in front of the loop do. -/
theorem calcRun_spec {A : Arith F} {x : Text} {ts : List RTok} {w w' : Ws F} (hw : Fine w) {y : List F} (hy : y.length = w.nb.toNat)
    (h : Leaves (calcRun A (withSeries w x y) x ts) w') : ∃ z, w' = withSeries w x z ∧ z.length = w.nb.toNat ∧
      (calcRun A (withSeries w x y) x ts = .failed w' → z = y) ∧
      (calcRun A (withSeries w x y) x ts = .done w' → ∀ u, u < w.nb.toNat →
        ∃ d, z[u]? = some d ∧ runText A (withSeries w x (z.take u ++ y.drop u)) [] ts u = .ok d) := by
  have hnf : ∀ l n t (w v : Ws F), calcLoop A l x n t w ≠ .failed v := by
    intro l n
    induction n with
    | zero => intro t w v h; simp [calcLoop] at h
    | succ n ih =>
      intro t w v h
      unfold calcLoop at h
      split at h
      · split at h
        · exact ih _ _ _ h
        · cases h
        · cases h
      · cases h
      · cases h
  have hst : ∀ {o : Out (Ws F)}, calcRun A (withSeries w x y) x ts = o → o = .failed (withSeries w x y) ∨ o = .thrown (withSeries w x y) →
      ∃ z, w' = withSeries w x z ∧ z.length = w.nb.toNat ∧ (calcRun A (withSeries w x y) x ts = .failed w' → z = y) ∧
      (calcRun A (withSeries w x y) x ts = .done w' → ∀ u, u < w.nb.toNat →
        ∃ d, z[u]? = some d ∧ runText A (withSeries w x (z.take u ++ y.drop u)) [] ts u = .ok d) := by
    intro o e ho
    rw [e] at h ⊢
    rcases ho with rfl | rfl <;> rcases h with h | h | h <;> cases h <;>
      exact ⟨y, rfl, hy, fun _ => rfl, fun h => by cases h⟩
  cases hc : compile [] (group ts) with
  | err o => exact hst (by unfold calcRun; rw [hc]) (.inl rfl)
  | ub => unfold calcRun at h; rw [hc] at h; simp [Leaves] at h
  | ok as =>
    cases hb : build as with
    | err => exact hst (by unfold calcRun; rw [hc]; simp only [hb]) (.inl rfl)
    | ub => unfold calcRun at h; rw [hc] at h; simp [hb, Leaves] at h
    | ok code =>
      cases hn : linkNames (withSeries w x y) (lnames (group ts)) with
      | err => exact hst (by unfold calcRun; rw [hc]; simp only [hb, hn]) (.inl rfl)
      | ub => unfold calcRun at h; rw [hc] at h; simp [hb, hn, Leaves] at h
      | ok poss =>
        cases hl : linkSample (withSeries w x y) code with
        | err => exact hst (by unfold calcRun; rw [hc]; simp only [hb, hn, hl]) (.inr rfl)
        | ub => unfold calcRun at h; rw [hc] at h; simp [hb, hn, hl, Leaves] at h
        | ok _ =>
          have e : calcRun A (withSeries w x y) x ts = calcLoop A ⟨code, lnames (group ts), poss⟩ x w.nb.toNat (0 : Nat) (withSeries w x y) := by
            unfold calcRun; rw [hc]; simp only [hb, hn, hl]; rfl
          rw [e] at h ⊢
          obtain ⟨z, e1, e2, _, e4⟩ := calcLoop_spec w.nb.toNat 0 w w' y (by omega) h
          refine ⟨z, e1, by omega, fun h => absurd h (hnf _ _ _ _ _), fun hd u hu => ?_⟩
          obtain ⟨d, g1, g2⟩ := e4 hd u (by omega) (by omega)
          refine ⟨d, g1, ?_⟩
          have hlink : linkText (withSeries w x y) [] ts = .ok ⟨code, lnames (group ts), poss⟩ := by
            unfold linkText; simp only [hc, hb, hn, hl, Res.bindOk]
          have hk : (withSeries w x (z.take u ++ y.drop u)).vars.keys = (withSeries w x y).vars.keys := by
            have hm : toKey .variables x ∈ (withSeries w x y).vars.keys := (SMap.mem_keys_iff _ _).2 ⟨y, SMap.find_insert_self _ _ _⟩
            have := Idt.keys_insert (v := z.take u ++ y.drop u) (fine_with hw x hy).sorted hm
            rw [← this]
            exact congrArg (fun v : Ws F => v.vars.keys) (with_with w x y _).symm
          unfold runText
          rw [Idt.linkText_keys (w := withSeries w x (z.take u ++ y.drop u)) (w' := withSeries w x y) rfl hk rfl, hlink]
          exact g2

/-! ## The command -/

/-- Whatever `$DataCalcVar` does, it changes the one series, which keeps the length of the sample: the sample, the scalars and the other series are what they were. -/
theorem C86_only_the_variable (A : Arith F) (lex : Text → List RTok) {w w' : Ws F} (hw : Fine w) {x t : Text} (hx : Typed .variables x) (ht : Formula t)
    (h : Leaves (calcVar A lex w (x ++ ' ' :: t)) w') :
    Fine w' ∧ w'.start = w.start ∧ w'.nb = w.nb ∧ w'.scls = w.scls ∧ (∃ z, w'.vars.find (toKey .variables x) = some z) ∧
      ∀ k, k ≠ toKey .variables x → w'.vars.find k = w.vars.find k := by
  rw [calc_arg A lex hw hx ht] at h
  obtain ⟨z, rfl, hz, _⟩ := calcRun_spec hw (before_length hw x) h
  exact ⟨fine_with hw x hz, rfl, rfl, rfl, ⟨z, SMap.find_insert_self _ _ _⟩, fun k hk => SMap.find_insert_ne _ _ hk⟩

/-- On success the value at each period is that of the formula, evaluated with the new values of the variable at the periods before and the old values from that
period on. -/
theorem C86_values (A : Arith F) (lex : Text → List RTok) {w w' : Ws F} (hw : Fine w) {x t : Text} (hx : Typed .variables x) (ht : Formula t)
    (h : calcVar A lex w (x ++ ' ' :: t) = .done w') :
    ∃ new, w'.vars.find (toKey .variables x) = some new ∧ new.length = w.nb.toNat ∧ ∀ u, u < w.nb.toNat → ∃ d, new[u]? = some d ∧
      runText A (withSeries w x (new.take u ++ (before A w x).drop u)) [] (lex t) u = .ok d := by
  rw [calc_arg A lex hw hx ht] at h
  obtain ⟨z, rfl, hz, _, h4⟩ := calcRun_spec hw (before_length hw x) (.inl h)
  exact ⟨z, SMap.find_insert_self _ _ _, hz, h4 h⟩

/-- A formula without the variable: the values are those of the formula in the workspaces as they were, and as they are now. -/
theorem C86_values_of_others (A : Arith F) (lex : Text → List RTok) {w w' : Ws F} (hw : Fine w) {x t : Text} (hx : Typed .variables x) (ht : Formula t)
    (hl : Lexed (lex t)) (hm : ∀ y ∈ mentions (lex t), toKey .variables y ≠ toKey .variables x) (h : calcVar A lex w (x ++ ' ' :: t) = .done w') :
    ∃ new, w'.vars.find (toKey .variables x) = some new ∧ new.length = w.nb.toNat ∧ ∀ u, u < w.nb.toNat → ∃ d, new[u]? = some d ∧
      runText A w [] (lex t) u = .ok d ∧ runText A w' [] (lex t) u = .ok d := by
  rw [calc_arg A lex hw hx ht] at h
  obtain ⟨z, rfl, hz, _, h4⟩ := calcRun_spec hw (before_length hw x) (.inl h)
  refine ⟨z, SMap.find_insert_self _ _ _, hz, fun u hu => ?_⟩
  obtain ⟨d, h5, h6⟩ := h4 h u hu
  have h7 : ∀ y, runText A (withSeries w x y) [] (lex t) u = runText A w [] (lex t) u :=
    fun y => C29_other_variables_do_not_matter A w hl _ y hm [] u
  rw [h7] at h6
  exact ⟨d, h5, h6, by rw [h7]; exact h6⟩

/-- A formula that reads the variable at earlier periods only holds afterwards at all periods. -/
theorem C86_recurrence (A : Arith F) (lex : Text → List RTok) {w w' : Ws F} (hw : Fine w) {x t : Text} (hx : Typed .variables x) (ht : Formula t)
    (hr : Idt.ReadsItselfBefore A ⟨[], lex t⟩ (toKey .variables x)) (h : calcVar A lex w (x ++ ' ' :: t) = .done w') :
    ∃ new, w'.vars.find (toKey .variables x) = some new ∧ new.length = w.nb.toNat ∧ ∀ u, u < w.nb.toNat → ∃ d, new[u]? = some d ∧
      runText A w' [] (lex t) u = .ok d := by
  rw [calc_arg A lex hw hx ht] at h
  obtain ⟨z, rfl, hz, _, h4⟩ := calcRun_spec hw (before_length hw x) (.inl h)
  refine ⟨z, SMap.find_insert_self _ _ _, hz, fun u hu => ?_⟩
  obtain ⟨d, h5, h6⟩ := h4 h u hu
  refine ⟨d, h5, ?_⟩
  rw [← h6]
  have hb := before_length (A := A) hw x
  refine hr w z _ u (by simp; omega) fun v hv => ?_
  rw [List.getElem?_append_left (by simp; omega), List.getElem?_take_of_lt hv]

/-- When a failure is reported no value has changed; but a variable that was missing has been created, with all values missing. -/
theorem C86_failure (A : Arith F) (lex : Text → List RTok) {w w' : Ws F} (hw : Fine w) {x t : Text} (hx : Typed .variables x) (ht : Formula t)
    (h : calcVar A lex w (x ++ ' ' :: t) = .failed w') :
    (∀ y, w.vars.find (toKey .variables x) = some y → w' = w) ∧
      (w.vars.find (toKey .variables x) = none → w' = withSeries w x (List.replicate w.nb.toNat A.na)) := by
  rw [calc_arg A lex hw hx ht] at h
  obtain ⟨z, rfl, _, h3, _⟩ := calcRun_spec hw (before_length hw x) (.inr (.inl h))
  rw [h3 h]
  refine ⟨fun y hy => ?_, fun hy => ?_⟩
  · unfold before withSeries
    rw [hy, Option.getD_some, Idt.insert_find hw.sorted hy]
  · unfold before
    rw [hy]; rfl

/-- A name that is in no workspace, other than that of the variable, makes the command fail. -/
theorem C86_unknown_name (A : Arith F) (lex : Text → List RTok) {w : Ws F} (hw : Fine w) {x t : Text} (hx : Typed .variables x) (ht : Formula t)
    {as : List Atom} {code : List Instr} (hc : compile [] (group (lex t)) = .ok as) (hb : build as = .ok code) {y : Name} (hy : y ∈ mentions (lex t))
    (hn : w.obj y = none) (hne : isCoef y = true ∨ toKey .variables y ≠ toKey .variables x) :
    ∃ w', calcVar A lex w (x ++ ' ' :: t) = .failed w' := by
  rw [calc_arg A lex hw hx ht]
  refine ⟨withSeries w x (before A w x), ?_⟩
  have h1 : (withSeries w x (before A w x)).obj y = none := by
    rw [← hn]
    unfold Ws.obj
    split
    · rfl
    · next hcf => simp only [withSeries, SMap.find_insert_ne _ _ (hne.resolve_left hcf)]
  have h2 : linkNames (withSeries w x (before A w x)) (lnames (group (lex t))) = .err := by
    have h3 : y ∈ lnames (group (lex t)) := lnames_mem.2 hy
    have h4 : linkName (withSeries w x (before A w x)) y = none := by
      have := linkName_obj (w := withSeries w x (before A w x)) (x := y)
      rw [h1] at this
      simpa using this
    revert h3
    generalize lnames (group (lex t)) = ns
    intro h3
    induction ns with
    | nil => cases h3
    | cons a ns ih =>
      unfold linkNames
      rcases List.mem_cons.1 h3 with rfl | h3
      · rw [h4]
      · cases linkName (withSeries w x (before A w x)) a with
        | none => rfl
        | some i => simp only [ih h3]; rfl
  unfold calcRun
  simp only [hc, hb, h2]

/-- A name alone, without even a blank, is read beyond its end. -/
theorem C86_name_alone_undefined (A : Arith F) (lex : Text → List RTok) (w : Ws F) {x : Text} (hx : Typed .variables x) :
    calcVar A lex w x = .ub := by
  unfold calcVar
  have h1 : left x = x := by
    have := left_name hx []
    simpa [tabs] using this
  have h2 : arg0 x = x := by
    have := arg0_name hx (r := []) (.inl rfl)
    simpa using this
  simp [h1, h2]

/-! ## The hypotheses are met -/

/-- `B`, `C` and `c` of C29. -/
theorem exWs_fine : Fine exWs := by
  refine ⟨by simp [exWs, SMap.Sorted, SMap.keys, nm]; decide, fun k y h => ?_⟩
  simp only [exWs, SMap.find] at h
  split at h
  · cases h; rfl
  · split at h
    · cases h; rfl
    · cases h

/-- The values of the variables a command leaves, and whether it succeeds. -/
def shown (o : Out (Ws (Option Int))) : Option (Bool × SMap (List (Option Int))) :=
  match o with
  | .done w => some (true, w.vars)
  | .failed w => some (false, w.vars)
  | _ => none

/-- The classes of names, to be computed. -/
def lexedB (ts : List RTok) : Bool := (group ts).all fun k => match k with | .var y => !isCoef y | .coef y => isCoef y | _ => true

theorem lexed_of {ts : List RTok} (h : lexedB ts = true) : Lexed ts := by
  intro x
  have h1 := List.all_eq_true.1 h
  exact ⟨fun hk => by simpa using h1 _ hk, fun hk => by simpa using h1 _ hk⟩

/-- `C * c + B` -/
def exOthers : List RTok := [.var (nm 'C'), .op .times, .coef (nm 'c'), .op .plus, .var (nm 'B')]
/-- `C[-1] + B` -/
def exLagged : List RTok := [.var (nm 'C'), .openb, .op .minus, .cst (.long 1), .closeb, .op .plus, .var (nm 'B')]

example : Typed .variables (nm 'X') ∧ Formula "C*c+B".toList := ⟨⟨by decide, by decide⟩, ⟨by decide, by decide, by decide⟩⟩

/-- `$DataCalcVar X C*c+B` -/
example : shown (calcVar exArith (fun _ => exOthers) exWs "X C*c+B".toList) =
    some (true, [(nm 'B', [some 1, some 2]), (nm 'C', [some 10, some 20]), (nm 'X', [some 51, some 102])]) := by decide +kernel

/-- `$DataCalcVar B B+C[+1]`: the old value of `B` and the next one of `C`. -/
example : shown (calcVar exArith (fun _ => [.var (nm 'B'), .op .plus, .var (nm 'C'), .openb, .op .plus, .cst (.long 1), .closeb]) exWs "B B+C[+1]".toList) =
    some (true, [(nm 'B', [some 21, none]), (nm 'C', [some 10, some 20])]) := by decide +kernel

example : Lexed exOthers ∧ ∀ y ∈ mentions exOthers, toKey .variables y ≠ toKey .variables (nm 'X') := ⟨lexed_of (by decide +kernel), by decide⟩

example : Idt.ReadsItselfBefore exArith ⟨[], exLagged⟩ (toKey .variables (nm 'C')) := by
  refine Idt.C39_lagged_self _ (lexed_of (by decide +kernel)) (as := [.var (nm 'C') (-1) none, .var (nm 'B') 0 none, .op .plus])
    (code := [.var (nm 'C') (-1) none, .var (nm 'B') 0 none, .op .plus]) (by rfl) (by rfl) ?_
  intro i hi
  simp only [List.mem_cons, List.not_mem_nil, or_false] at hi
  rcases hi with rfl | rfl | rfl
  · exact Or.inl ⟨_, _, rfl, by decide⟩
  · exact Or.inr (by intro n hn; simp only [namesI, List.mem_singleton] at hn; cases hn; decide)
  · exact Or.inr (by intro n hn; cases hn)

/-- A formula that reads the variable at the same period does not hold afterwards: `$DataCalcVar C C+B` gives 11, and `C + B` is then 12. -/
theorem C86_itself_counterexample :
    shown (calcVar exArith (fun _ => [.var (nm 'C'), .op .plus, .var (nm 'B')]) exWs "C C+B".toList) =
      some (true, [(nm 'B', [some 1, some 2]), (nm 'C', [some 11, some 22])]) ∧
    runText exArith (withSeries exWs (nm 'C') [some 11, some 22]) [] [.var (nm 'C'), .op .plus, .var (nm 'B')] 0 = .ok (some 12) := by
  constructor <;> decide +kernel

/-- A command that fails leaves a new variable behind: `$DataCalcVar X Y` without a variable `Y`. -/
theorem C86_left_behind_counterexample : shown (calcVar exArith (fun _ => [.var (nm 'Y')]) exWs "X Y".toList) =
    some (false, [(nm 'B', [some 1, some 2]), (nm 'C', [some 10, some 20]), (nm 'X', [none, none])]) := by decide +kernel

/-- A name of 21 characters, which is none, is cut without a message: another variable gets the values. -/
theorem C86_long_name_counterexample :
    shown (calcVar exArith (fun t => if t = " B".toList then [.var (nm 'B')] else []) exWs "CCCCCCCCCCCCCCCCCCCCC B".toList) =
      some (true, [(nm 'B', [some 1, some 2]), (nm 'C', [some 10, some 20]), ("CCCCCCCCCCCCCCCCCCCC".toList, [some 1, some 2])]) ∧
    checkName .variables "CCCCCCCCCCCCCCCCCCCCC".toList = false := by
  constructor <;> decide +kernel

end Iode.DataCmd
