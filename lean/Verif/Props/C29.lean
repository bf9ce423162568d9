import Verif.Lemmas.LecLink
import Verif.Lemmas.LecBuild
import Verif.Lemmas.LecCompile
import Verif.Lemmas.SMap

/-!
# C29: the value of a formula depends only on what it mentions

The names a formula mentions are those of its text.  Linking looks them up by position, executing goes back from the
positions to the objects.  Evaluation yields a value only: the workspaces are not part of the result of `L_exec`
(no function of api/lec/l_exec*.cpp writes to them).
-/
namespace Iode.Lec

variable {F : Type}

/-- The names written in a text (up to its end). -/
def mentions (rts : List RTok) : List Name := (group rts).filterMap tokName

/-- The object a name stands for: a scalar if it is a coefficient name, else a series. -/
inductive Obj (F : Type) where
  | scl (v : F)
  | var (vs : List F)

/-- The object of a name in the workspaces. -/
def Ws.obj (w : Ws F) (x : Name) : Option (Obj F) :=
  if isCoef x then (w.scls.find (toKey .scalars x)).map .scl else (w.vars.find (toKey .variables x)).map .var

/-- The workspaces have the same sample and the same objects for the names of the text. -/
structure Agree (w1 w2 : Ws F) (rts : List RTok) : Prop where
  start : w1.start = w2.start
  nb : w1.nb = w2.nb
  obj : ∀ x ∈ mentions rts, w1.obj x = w2.obj x

/-- The lexer's classes: a name in a variable token is no coefficient name, a name in a coefficient token is one
(l_token.cpp 385-388). -/
def Lexed (rts : List RTok) : Prop :=
  ∀ x, (Tok.var x ∈ group rts → isCoef x = false) ∧ (Tok.coef x ∈ group rts → isCoef x = true)

theorem linkName_obj {w : Ws F} {x : Name} : (linkName w x).isSome = (w.obj x).isSome := by
  unfold linkName Ws.obj
  split
  · have := (indexOf_find .scalars x w.scls).2
    cases h1 : indexOf .scalars w.scls x <;> cases h2 : w.scls.find (toKey .scalars x) <;> simp_all
  · have := (indexOf_find .variables x w.vars).2
    cases h1 : indexOf .variables w.vars x <;> cases h2 : w.vars.find (toKey .variables x) <;> simp_all

/-- What a formula reads in the workspaces: the objects of its names. -/
def Ws.env (A : Arith F) (w : Ws F) (t : Int) : Env F where
  nb := w.nb
  posOf := perPos w
  var x i :=
    match w.obj x with
    | some (.var vs) => vs.getD i.toNat A.na
    | _ => A.na
  coef x :=
    match w.obj x with
    | some (.scl v) => v
    | _ => A.na
  curt := t

theorem nameTok_tokName {ts : List Tok} {k : Tok} (h : k ∈ ts.filterMap nameTok) :
    k ∈ ts ∧ ∃ x, tokName k = some x ∧ x ∈ ts.filterMap tokName := by
  obtain ⟨a, ha, hk⟩ := List.mem_filterMap.1 h
  cases a with
  | var x => cases hk; exact ⟨ha, x, rfl, List.mem_filterMap.2 ⟨_, ha, rfl⟩⟩
  | coef x => cases hk; exact ⟨ha, x, rfl, List.mem_filterMap.2 ⟨_, ha, rfl⟩⟩
  | _ => cases hk

/-- The variables and coefficients in the code are tokens of the text; the list of names of the formula has their
names and is the list of the names written in the text, each once. -/
theorem C29_names_are_those_written {ops : List Entry} {rts : List RTok} {as : List Atom} {code : List Instr}
    (hc : compile ops (group rts) = .ok as) (hb : build as = .ok code) :
    (∀ k ∈ namesC code, k ∈ group rts ∧ ∃ x, tokName k = some x ∧ x ∈ lnames (group rts)) ∧
      (∀ x, x ∈ lnames (group rts) ↔ x ∈ mentions rts) ∧ (lnames (group rts)).Nodup := by
  refine ⟨fun k hk => ?_, fun _ => lnames_mem, lnames_nodup _⟩
  obtain ⟨h1, x, h2, h3⟩ := nameTok_tokName ((build_names (compile_names hc) hb).namesC k hk)
  exact ⟨h1, x, h2, lnames_mem.2 h3⟩

/-- Linking succeeds exactly if all names are found and all periods of the code have a position in the sample. -/
theorem C29_link_succeeds_iff (w : Ws F) {ops : List Entry} {rts : List RTok} {as : List Atom} {code : List Instr}
    (hc : compile ops (group rts) = .ok as) (hb : build as = .ok code) :
    (∃ l, linkText w ops rts = .ok l) ↔
      (∀ x ∈ mentions rts, (w.obj x).isSome = true) ∧ ∀ p ∈ periodsC code, hasPos w p = true := by
  have hn : (∀ x ∈ lnames (group rts), (linkName w x).isSome = true) ↔ ∀ x ∈ mentions rts, (w.obj x).isSome = true := by
    simp only [linkName_obj, lnames_mem, mentions]
  rw [← hn, ← linkNames_iff]
  simp only [linkText, hc, hb, Res.bindOk]
  constructor
  · rintro ⟨l, h⟩
    obtain ⟨poss, h1, h2⟩ := Res.bind_eq_ok' h
    obtain ⟨_, h3, _⟩ := Res.bind_eq_ok' h2
    refine ⟨⟨poss, h1⟩, ?_⟩
    unfold linkSample at h3
    split at h3
    · rename_i h; simpa using h
    · cases h3
  · rintro ⟨⟨poss, h1⟩, h2⟩
    refine ⟨⟨code, lnames (group rts), poss⟩, ?_⟩
    rw [h1, Res.bindOk, linkSample, if_pos (by simpa using h2)]
    rfl

theorem periodsC_append (a b : List Instr) : periodsC (a ++ b) = periodsC a ++ periodsC b := by
  induction a with
  | nil => simp [periodsC]
  | cons i is ih => simp [periodsC, ih]

theorem periodsOfL_append (a b : List Expr) : periodsOfL (a ++ b) = periodsOfL a ++ periodsOfL b := by
  induction a with
  | nil => simp [periodsOfL]
  | cons i is ih => simp [periodsOfL, ih]

theorem periods_codeL : ∀ es : List Expr, (∀ a ∈ es, periodsC (codeOf a) = periodsOf a) →
    periodsC (codeL es) = periodsOfL es
  | [], _ => by simp [codeL, periodsC, periodsOfL]
  | e :: es, h => by
    simp only [codeL, periodsC_append, periodsOfL]
    rw [h e (by simp), periods_codeL es (fun a ha => h a (by simp [ha]))]

theorem Good.periods {e : Expr} (h : Good e) : periodsC (codeOf e) = periodsOf e := by
  induction h with
  | cst k => cases k <;> simp [codeOf, periodsC, periodsI, periodsOf]
  | val v => simp [codeOf, periodsC, periodsI, periodsOf]
  | var x l p => cases p <;> simp [codeOf, periodsC, periodsI, periodsOf]
  | coef x => simp [codeOf, periodsC, periodsI, periodsOf]
  | par _ ih => simpa [codeOf, periodsOf] using ih
  | bin o _ _ iha ihb => simp [codeOf, periodsC_append, periodsOf, iha, ihb, periodsC, periodsI]
  | @fn f args _ ih =>
    simp [codeOf, periodsC_append, periodsOf, periods_codeL args ih, periodsC, periodsI]
  | @tfn f opts body _ _ _ iho ihb =>
    have hl : codeLast (opts ++ [body]) = codeOf body := codeLast_append opts body
    simp [codeOf, codeInit_append, hl, periodsC_append, periodsOf, periodsOfL_append, periodsOfL,
      periods_codeL opts iho, periodsC, periodsI, ihb]

/-- The same on the formula as written: the names are found, and every period written anywhere in it, also inside
time functions, has the periodicity of the sample. -/
theorem C29_link_succeeds_iff_written (w : Ws F) {n : Int} (hw : nbPeriodsPerYear w.start.periodicity = .ok n)
    {rts : List RTok} {e : Expr} (hr : Reads (group rts) e) (hg : Good e) :
    (∃ l, linkText w [] rts = .ok l) ↔
      (∀ x ∈ mentions rts, (w.obj x).isSome = true) ∧
      ∀ p ∈ periodsOf e, p.periodicity = w.start.periodicity := by
  rw [C29_link_succeeds_iff w (G.compile hr) hg.build, hg.periods]
  have : ∀ p : Period, hasPos w p = true ↔ p.periodicity = w.start.periodicity := by
    intro p
    unfold hasPos Period.difference
    by_cases h : p.periodicity = w.start.periodicity
    · simp [h, hw]
    · simp [h]
  simp only [this]

theorem linkText_parts {w : Ws F} {ops : List Entry} {rts : List RTok} {l : Linked} (h : linkText w ops rts = .ok l) :
    ∃ as, compile ops (group rts) = .ok as ∧ build as = .ok l.code ∧ l.names = lnames (group rts) ∧
      linkNames w l.names = .ok l.poss := by
  unfold linkText at h
  cases hc : compile ops (group rts) with
  | ok as =>
    rw [hc] at h
    simp only at h
    obtain ⟨code, h1, h2⟩ := Res.bind_eq_ok' h
    obtain ⟨poss, h3, h4⟩ := Res.bind_eq_ok' h2
    obtain ⟨_, _, h5⟩ := Res.bind_eq_ok' h4
    cases h5
    exact ⟨as, rfl, h1, rfl, h3⟩
  | err o => rw [hc] at h; cases h
  | ub => rw [hc] at h; cases h

/-- The positions lead to the objects of the names. -/
theorem linked_env {A : Arith F} {w : Ws F} {ops : List Entry} {rts : List RTok} {l : Linked}
    (h : linkText w ops rts = .ok l) (t : Int) {x : Name} (hx : x ∈ mentions rts) :
    (isCoef x = false → (linkedEnv A l.names l.poss w t).var x = (w.env A t).var x) ∧
    (isCoef x = true → (linkedEnv A l.names l.poss w t).coef x = (w.env A t).coef x) := by
  obtain ⟨as, _, _, hnm, hln⟩ := linkText_parts h
  obtain ⟨q, hq1, hq2⟩ := linkNames_ok hln x (by rw [hnm]; exact lnames_mem.2 hx)
  constructor
  · intro hc
    simp only [linkName, hc, Bool.false_eq_true, if_false] at hq2
    funext i
    simp only [linkedEnv, Ws.env, hq1, objAt_indexOf .variables _ _ hq2, Ws.obj, hc, Bool.false_eq_true, if_false]
    cases w.vars.find (toKey .variables x) <;> rfl
  · intro hc
    simp only [linkName, hc, if_true] at hq2
    simp only [linkedEnv, Ws.env, hq1, objAt_indexOf .scalars _ _ hq2, Ws.obj, hc, if_true]
    cases w.scls.find (toKey .scalars x) <;> rfl

/-- A linked text computes with the objects of its names: linking by position gives the value that C24 describes
for the environment `w.env`. -/
theorem C29_linked_value (A : Arith F) (w : Ws F) {ops : List Entry} {rts : List RTok} (hl : Lexed rts) {l : Linked}
    (h : linkText w ops rts = .ok l) (t : Int) :
    runText A w ops rts t = evalText A (w.env A t) ops rts t := by
  obtain ⟨as, hc, hb, hnm, hln⟩ := linkText_parts h
  have hS : SameOn (namesC l.code) (linkedEnv A l.names l.poss w t) (w.env A t) := by
    have hk := (C29_names_are_those_written hc hb).1
    refine ⟨rfl, rfl, rfl, ?_, ?_⟩
    · intro x hx
      obtain ⟨h1, y, h2, h3⟩ := hk _ hx
      cases h2
      exact (linked_env h t (lnames_mem.1 h3)).1 ((hl x).1 h1)
    · intro x hx
      obtain ⟨h1, y, h2, h3⟩ := hk _ hx
      cases h2
      exact (linked_env h t (lnames_mem.1 h3)).2 ((hl x).2 h1)
  unfold runText evalText
  rw [h, hc]
  simp only [hb, Res.bind, Linked.exec, execSub]
  rw [exec_same A true l.code hS]

/-- Two workspaces that agree on the names of the text give the same value, error or undefined behaviour. -/
theorem C29_depends_only_on_its_names (A : Arith F) {w1 w2 : Ws F} {rts : List RTok} (hl : Lexed rts)
    (ha : Agree w1 w2 rts) (ops : List Entry) (t : Int) : runText A w1 ops rts t = runText A w2 ops rts t := by
  have hper : perPos w1 = perPos w2 := by funext p; simp only [perPos, ha.start]
  have hhas : hasPos w1 = hasPos w2 := by funext p; simp only [hasPos, ha.start]
  cases hc : compile ops (group rts) with
  | err o => simp only [runText, linkText, hc]; rfl
  | ub => simp only [runText, linkText, hc]; rfl
  | ok as =>
    cases hb : build as with
    | err => simp only [runText, linkText, hc, hb]; rfl
    | ub => simp only [runText, linkText, hc, hb]; rfl
    | ok code =>
      have hiff : (∃ l, linkText w1 ops rts = .ok l) ↔ ∃ l, linkText w2 ops rts = .ok l := by
        rw [C29_link_succeeds_iff w1 hc hb, C29_link_succeeds_iff w2 hc hb, hhas]
        constructor
        · rintro ⟨h1, h2⟩; exact ⟨fun x hx => by rw [← ha.obj x hx]; exact h1 x hx, h2⟩
        · rintro ⟨h1, h2⟩; exact ⟨fun x hx => by rw [ha.obj x hx]; exact h1 x hx, h2⟩
      have hnub : ∀ w : Ws F, linkText w ops rts ≠ .ub := by
        intro w h
        simp only [linkText, hc, hb, Res.bindOk] at h
        cases hn : linkNames w (lnames (group rts)) with
        | ub => exact linkNames_not_ub _ hn
        | err => rw [hn] at h; cases h
        | ok p =>
          rw [hn] at h
          simp only [Res.bindOk] at h
          cases hs : linkSample w code with
          | ok _ => rw [hs] at h; cases h
          | err => rw [hs] at h; cases h
          | ub => unfold linkSample at hs; split at hs <;> cases hs
      cases h1 : linkText w1 ops rts with
      | ub => exact absurd h1 (hnub w1)
      | err =>
        cases h2 : linkText w2 ops rts with
        | ub => exact absurd h2 (hnub w2)
        | err => simp only [runText, h1, h2]; rfl
        | ok l => obtain ⟨l', hl'⟩ := hiff.2 ⟨l, h2⟩; rw [hl'] at h1; cases h1
      | ok l =>
        obtain ⟨l', h2⟩ := hiff.1 ⟨l, h1⟩
        rw [C29_linked_value A w1 hl h1, C29_linked_value A w2 hl h2]
        unfold evalText
        rw [hc]
        simp only [hb, Res.bindOk, execSub]
        have hk := (C29_names_are_those_written hc hb).1
        have hS : SameOn (namesC code) (w1.env A t) (w2.env A t) := by
          refine ⟨ha.nb, hper, rfl, ?_, ?_⟩
          · intro x hx
            obtain ⟨_, y, hy, h3⟩ := hk _ hx
            cases hy
            funext i
            simp only [Ws.env, ha.obj x (lnames_mem.1 h3)]
          · intro x hx
            obtain ⟨_, y, hy, h3⟩ := hk _ hx
            cases hy
            simp only [Ws.env, ha.obj x (lnames_mem.1 h3)]
        rw [exec_same A true code hS]

/-- In particular: adding, changing or removing an object the text does not mention changes nothing. -/
theorem C29_other_variables_do_not_matter (A : Arith F) (w : Ws F) {rts : List RTok} (hl : Lexed rts) (y : Name) (vs : List F)
    (hy : ∀ x ∈ mentions rts, toKey .variables x ≠ y)
    (ops : List Entry) (t : Int) :
    runText A { w with vars := w.vars.insert y vs } ops rts t = runText A w ops rts t := by
  refine C29_depends_only_on_its_names A (w1 := { w with vars := w.vars.insert y vs }) (w2 := w) hl ⟨rfl, rfl, ?_⟩ ops t
  intro x hx
  unfold Ws.obj
  split
  · rfl
  · simp only [SMap.find_insert_ne vs w.vars (hy x hx)]

/-! ## A link is valid for the workspaces it was made with -/

/-- Two series, B and C. -/
def exWs : Ws (Option Int) where
  start := ⟨2000, 1, 'Y'⟩
  nb := 2
  vars := [(nm 'B', [some 1, some 2]), (nm 'C', [some 10, some 20])]
  scls := [(nm 'c', some 5)]

/-- The formula `C` is linked, then a variable `A` is added: the linked formula now reads `B`.  The positions are not
renewed. -/
theorem C29_stale_link_counterexample :
    ∃ l, linkText exWs [] [.var (nm 'C')] = .ok l ∧ l.exec exArith exWs 1 = .ok (some 20) ∧
      l.exec exArith { exWs with vars := exWs.vars.insert (nm 'A') [some 7, some 8] } 1 = .ok (some 2) := by
  refine ⟨⟨[.var (nm 'C') 0 none], [nm 'C'], [1]⟩, ?_, by decide +kernel, by decide +kernel⟩
  rfl

/-! ## The hypotheses are met -/

/-- `C * c + C[-1] + B[2001Y1]` -/
def exLinkText : List RTok :=
  [.var (nm 'C'), .op .times, .coef (nm 'c'), .op .plus, .var (nm 'C'), .openb, .op .minus, .cst (.long 1), .closeb,
    .op .plus, .var (nm 'B'), .openb, .cst (.period ⟨2001, 1, 'Y'⟩), .closeb]

example : mentions exLinkText = [nm 'C', nm 'c', nm 'C', nm 'B'] ∧ lnames (group exLinkText) = [nm 'C', nm 'c', nm 'B'] ∧
    runText exArith exWs [] exLinkText 1 = .ok (some 112) := by decide +kernel

example : Lexed exLinkText := by
  intro x
  constructor
  · intro h
    simp [exLinkText, group] at h
    rcases h with rfl | rfl <;> decide
  · intro h
    simp [exLinkText, group] at h
    subst h
    decide

example : ∃ l, linkText exWs [] exLinkText = .ok l := ⟨_, rfl⟩

/-- Other names may differ: `Z` is added, the scalar `d` too. -/
example : Agree exWs { exWs with vars := exWs.vars ++ [(nm 'Z', [none, none])], scls := exWs.scls ++ [(nm 'd', none)] }
    exLinkText := by
  refine ⟨rfl, rfl, ?_⟩
  intro x hx
  simp [mentions, exLinkText, group, tokName] at hx
  rcases hx with rfl | rfl | rfl | rfl <;> rfl

/-- `exLinkText` with its tree: the date is in `periodsOf`; dated with a quarter the link fails. -/
example : periodsOf (.bin .plus (.bin .plus (.bin .times (.var (nm 'C') 0 none) (.coef (nm 'c'))) (.var (nm 'C') (-1) none))
      (.app (.tfn .lag) [.var (nm 'B') 0 (some ⟨2001, 1, 'Y'⟩)])) = [⟨2001, 1, 'Y'⟩] ∧
    nbPeriodsPerYear exWs.start.periodicity = .ok 1 := by decide +kernel

end Iode.Lec
