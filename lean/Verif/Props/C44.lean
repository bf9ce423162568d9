import Verif.Lemmas.MacroRun

/-!
# C44: the variables of loops and the parameters of procedures are restored

`RP_define_save`/`RP_define_restore` (api/report/engine/b_rep_defs.cpp), `$foreach`/`$next`
(b_rep_foreach.cpp) and `$procexec` (b_rep_proc.cpp), executed by the line engine of reports.

Proved: a macro saved, redefined at will and restored is what it was (`C44_save_restore`); a structured report —
loops nested in any way, procedures calling each other — prints and defines what its meaning says, in which a loop
or a call gives its variables back the bindings they had (`C44_report_partial`), and leaves no trace among the
macros of the engine. Reports without calls always end (`C44_terminates_partial`).

Partial, as the property fails without the hypotheses: see the counterexamples at the end.
-/
namespace Iode.Macros

/-- What a report may do to macros between a save and the restore: definitions and removals of ordinary names. -/
inductive Op where
  | set (x : Name) (v : Val)
  | del (x : Name)
  deriving Repr, DecidableEq

def Op.name : Op → Name
  | .set x _ => x
  | .del x => x

/-- Execution through `RP_define_1` and `RP_undef_1`. -/
def runOps (m : MacroDb) : List Op → Res MacroDb
  | [] => .ok m
  | .set x v :: os => (define1 m x v).bind fun m' => runOps m' os
  | .del x :: os => runOps (undef1 m x) os

theorem runOps_find {os : List Op} {m m' : MacroDb} (h : runOps m os = .ok m') {k : Name}
    (hk : ∀ o ∈ os, o.name ≠ k) : m'.find k = m.find k := by
  induction os generalizing m with
  | nil => simp only [runOps, Res.ok.injEq] at h; rw [h]
  | cons o os ih =>
    have hk' := hk o List.mem_cons_self
    cases o with
    | set x v =>
      simp only [runOps, define1] at h
      by_cases hc : checkName .objects x = true
      · rw [if_pos hc] at h
        rw [ih h (fun o ho => hk o (List.mem_cons_of_mem _ ho)), SMap.find_insert_ne _ _ (show k ≠ x from Ne.symm hk')]
      · rw [if_neg hc] at h; cases h
    | del x =>
      simp only [runOps] at h
      rw [ih h (fun o ho => hk o (List.mem_cons_of_mem _ ho))]
      unfold undef1
      rw [SMap.find_erase, if_neg (show ¬ k = x from Ne.symm hk')]

theorem runOps_clean {os : List Op} {m m' : MacroDb} {d : Nat} (h : runOps m os = .ok m') (hc : Clean d m)
    (hn : ∀ o ∈ os, '#' ∉ o.name) : Clean d m' := by
  induction os generalizing m with
  | nil => simp only [runOps, Res.ok.injEq] at h; rw [← h]; exact hc
  | cons o os ih =>
    have hn' := hn o List.mem_cons_self
    cases o with
    | set x v =>
      simp only [runOps, define1] at h
      by_cases hx : checkName .objects x = true
      · rw [if_pos hx] at h
        exact ih h (hc.insert hn' v) (fun o ho => hn o (List.mem_cons_of_mem _ ho))
      · rw [if_neg hx] at h; cases h
    | del x =>
      simp only [runOps] at h
      exact ih h (hc.erase x) (fun o ho => hn o (List.mem_cons_of_mem _ ho))

/-- A macro that is saved, then redefined and removed in any way, then restored, has the value it had at the save, or
    is absent as it was then; its older saved copies and all names the operations did not touch are as before.
    `d` bounds the depth of the saved copies already present. -/
theorem C44_save_restore (d : Nat) (m m1 m2 : MacroDb) (b : Name) (os : List Op) (hb : '#' ∉ b)
    (hname : checkName .objects b = true) (hkeys : Clean d m)
    (hstack : ∀ i, m.find (saved b i) ≠ none → m.find b ≠ none) (hshort : ShortFor d b)
    (hsave : save m b = .ok m1) (hos : ∀ o ∈ os, '#' ∉ o.name) (hrun : runOps m1 os = .ok m2) :
    ∃ m3, restore m2 b = .ok m3 ∧ m3.find b = m.find b ∧
      (∀ k, k ≠ b → (∀ o ∈ os, o.name ≠ k) → m3.find k = m.find k) ∧
      (∀ k, k ≠ b → '#' ∉ k → m3.find k = m2.find k) := by
  obtain ⟨m1', h1, h2, h3⟩ := save_ok (hkeys.mono (Nat.le_succ d)) hb (nextDepth_le hkeys hb) (Nat.lt_succ_self d) hshort
  rw [hsave, Res.ok.injEq] at h1
  subst h1
  have hs : ∀ i, m2.find (saved b i) = m1.find (saved b i) := fun i =>
    runOps_find hrun (fun o ho e => hos o ho (e ▸ hash_mem_saved b i))
  obtain ⟨m3, r1, r2, r3, r4, r5⟩ := restore_ok hb hname hstack h2 (runOps_clean hrun h3 hos) hs
  refine ⟨m3, r1, r2, ?_, fun k hk hk2 => r4 k hk (fun i e => saved_ne i hk2 e.symm)⟩
  intro k hk hk2
  by_cases hsv : ∃ i, k = saved b i
  · obtain ⟨i, rfl⟩ := hsv
    exact r3 i
  · have hne : ∀ i, k ≠ saved b i := fun i e => hsv ⟨i, e⟩
    rw [r4 k hk hne, runOps_find hrun hk2, save_other h2 hne]

/-- A structured report, run by the line engine from macros that contain no leftover saved copies, ends, prints what
    its meaning says, and leaves each plain macro with the value the meaning gives it; the other macros of the engine
    are untouched. Partial: see the conditions in `Exec` (no removal of the variable of an enclosing loop, names short
    enough for the nesting) and `Distinct` (no loop directly inside a loop over the same variable). -/
theorem C44_report_partial (S : Name → Option SProc) (P : Procs)
    (hP : ∀ p pr, S p = some pr → P p = some ⟨pr.params, pr.body.lines⟩ ∧ pr.body.Distinct)
    (b : Block) (hb : b.Distinct) (m : MacroDb) (env env' : Env) (out : List Val)
    (henv : ∀ x, Plain x → m.find x = env x) (hkeys : ∀ k ∈ SMap.keys m, '#' ∉ k)
    (h : Exec S (.block b) 0 [] env [] env' out) :
    ∃ n m', steps P n (start b.lines m) = .ok ⟨[], m', out⟩ ∧ (∀ x, Plain x → m'.find x = env' x) ∧
      ∀ k, ¬ Plain k → m'.find k = m.find k := by
  have hnone : ∀ c i, m.find (saved c i) = none := fun c i => by
    cases hf : m.find (saved c i) with
    | none => rfl
    | some v => exact absurd (hash_mem_saved c i) (hkeys _ ((SMap.mem_keys_iff _ m).mpr ⟨v, hf⟩))
  have hr : Rep 0 [] env m :=
    ⟨henv, fun k hk => .inl (hkeys k hk), fun c i _ hf => absurd (hnone c i) hf, fun c i _ hf => absurd (hnone c i) hf⟩
  obtain ⟨m', r1, s1, g1⟩ := claim_of_exec hP h hb m hr [] [] b.lines (by simp) [] []
  have hstop : step P ⟨[⟨b.lines, b.lines.length, []⟩], m', out⟩ = .ok ⟨[], m', out⟩ := by
    unfold step
    simp only
    rw [List.getElem?_eq_none (Nat.le_refl _)]
    rfl
  have g2 : Reaches P (start b.lines m) ⟨[], m', out⟩ := by
    refine Reaches.trans ?_ (Reaches.head hstop (Reaches.refl _ _))
    simpa [start] using g1
  obtain ⟨n, hn⟩ := g2
  exact ⟨n, m', hn, r1.vals, s1⟩

/-- In particular, after a loop its variable is what it was before, whatever the body does to it. -/
theorem C44_loop_variable_partial (S : Name → Option SProc) (P : Procs)
    (hP : ∀ p pr, S p = some pr → P p = some ⟨pr.params, pr.body.lines⟩ ∧ pr.body.Distinct)
    (x : Name) (e : Expr) (body : Block) (hav : body.avoids x) (hd : body.Distinct) (m : MacroDb) (env env' : Env)
    (out : List Val) (henv : ∀ x, Plain x → m.find x = env x) (hkeys : ∀ k ∈ SMap.keys m, '#' ∉ k)
    (h : Exec S (.block (.loop x e body .done)) 0 [] env [] env' out) :
    ∃ n m', steps P n (start (.foreach x e :: (body.lines ++ [.next x])) m) = .ok ⟨[], m', out⟩ ∧
      m'.find x = m.find x := by
  have hx : Plain x ∧ env' x = env x := by
    cases h with
    | loop hx _ _ hr =>
      cases hr
      exact ⟨hx.1, by simp [Env.upd]⟩
  obtain ⟨n, m', h1, h2, _⟩ := C44_report_partial S P hP (.loop x e body .done) ⟨hav, hd, trivial⟩ m env env' out henv
    hkeys h
  exact ⟨n, m', h1, by rw [h2 x hx.1, hx.2, henv x hx.1]⟩

/-- A report without calls whose names are short enough and whose removals spare the variables of enclosing loops. -/
def Block.Simple (d : Nat) (act : List Name) : Block → Prop
  | .done => True
  | .define x e r => Plain x ∧ Sees e ∧ r.Simple d act
  | .undef x r => Plain x ∧ x ∉ act ∧ r.Simple d act
  | .text e r => Sees e ∧ r.Simple d act
  | .loop x e b r => LoopName d x ∧ Sees e ∧ b.Simple (d + 1) (x :: act) ∧ r.Simple d act
  | .call _ _ _ => False

theorem exec_total (S : Name → Option SProc) (b : Block) : ∀ (d : Nat) (act : List Name) (env : Env) (out : List Val),
    b.Simple d act → ∃ env' out', Exec S (.block b) d act env out env' out' := by
  induction b with
  | done => exact fun d act env out _ => ⟨env, out, .done⟩
  | define x e r ih =>
    intro d act env out h
    obtain ⟨e1, o1, h1⟩ := ih d act _ out h.2.2
    exact ⟨e1, o1, .define h.1 h.2.1 h1⟩
  | undef x r ih =>
    intro d act env out h
    obtain ⟨e1, o1, h1⟩ := ih d act _ out h.2.2
    exact ⟨e1, o1, .undef h.1 h.2.1 h1⟩
  | text e r ih =>
    intro d act env out h
    obtain ⟨e1, o1, h1⟩ := ih d act env _ h.2
    exact ⟨e1, o1, .text h.1 h1⟩
  | loop x e b r ihb ihr =>
    intro d act env out h
    have turns : ∀ vs (env : Env) (out : List Val),
        ∃ env' out', Exec S (.turns x b vs) (d + 1) (x :: act) env out env' out' := by
      intro vs
      induction vs with
      | nil => exact fun env out => ⟨env, out, .over⟩
      | cons v vs ih =>
        intro env out
        obtain ⟨e1, o1, h1⟩ := ihb (d + 1) (x :: act) (env.upd x (some [v])) out h.2.2.1
        obtain ⟨e2, o2, h2⟩ := ih e1 o1
        exact ⟨e2, o2, .turn h1 h2⟩
    obtain ⟨e1, o1, h1⟩ := turns (eval env e) env out
    obtain ⟨e2, o2, h2⟩ := ihr d act (e1.upd x (env x)) o1 h.2.2.2
    exact ⟨e2, o2, .loop h.1 h.2.1 h1 h2⟩
  | call p e r _ => exact fun d act env out h => absurd h (by simp [Block.Simple])

/-- Such a report ends without an error from every set of macros without leftover saved copies. -/
theorem C44_terminates_partial (P : Procs) (b : Block) (hb : b.Distinct) (hs : b.Simple 0 []) (m : MacroDb)
    (hkeys : ∀ k ∈ SMap.keys m, '#' ∉ k) :
    ∃ n m' out, steps P n (start b.lines m) = .ok ⟨[], m', out⟩ := by
  obtain ⟨env', out, h⟩ := exec_total (fun _ => none) b 0 [] (fun k => m.find k) [] hs
  obtain ⟨n, m', h1, _⟩ := C44_report_partial (fun _ => none) P (fun p pr h => by cases h) b hb m _ env' out
    (fun x _ => rfl) hkeys h
  exact ⟨n, m', out, h1⟩

/-! ## Examples -/

private def w (s : String) : List Char := s.toList

/-- Three nested loops, one of them over the lists the others build; the variable `i` has a value before the loop. -/
def exBlock : Block :=
  .loop (w "i") [.word (w "a"), .word (w "b")]
    (.define (w "l") [.ref (w "i"), .word (w "z")]
      (.loop (w "j") [.ref (w "l")] (.text [.ref (w "i"), .ref (w "j")] .done) .done))
    (.text [.ref (w "i"), .ref (w "j")] .done)

def exMacros : MacroDb := [(w "i", [w "old"])]

example : (steps (fun _ => none) 40 (start exBlock.lines exMacros)) =
    .ok (⟨[], [(w "i", [w "old"]), (w "l", [w "b", w "z"])],
      [[w "a", w "a"], [w "a", w "z"], [w "b", w "b"], [w "b", w "z"], [w "old", w "%j%"]]⟩ : Cfg) := by decide +kernel

instance (x : Name) : Decidable (Plain x) := by unfold Plain; infer_instance

theorem sees_of_all {e : Expr} (h : ∀ p ∈ e, ∀ x, p = .ref x → Plain x) : Sees e := fun x hx => h _ hx x rfl

theorem exLoop {d : Nat} {x : Name} (hd : d ≤ 1) (h : LoopName 0 x ∧ ShortFor 1 x ∧ ShortFor 1 (loopVar x)) : LoopName d x :=
  ⟨h.1.1, fun k hk => h.2.1 k (by omega), fun k hk => h.2.2 k (by omega), h.1.2.2.2⟩

theorem shortFor_one {x : Name} (h : checkName .objects (saved x 0) = true ∧ checkName .objects (saved x 1) = true) :
    ShortFor 1 x := fun k hk => by
  rcases (by omega : k = 0 ∨ k = 1) with rfl | rfl
  · exact h.1
  · exact h.2

/-- The hypotheses of the theorems hold for this report. -/
theorem exBlock_simple : exBlock.Simple 0 [] ∧ exBlock.Distinct := by
  have pi : Plain (w "i") := by decide +kernel
  have pj : Plain (w "j") := by decide +kernel
  have pl : Plain (w "l") := by decide +kernel
  have li : LoopName 0 (w "i") := ⟨pi, fun k hk => by rw [Nat.le_zero.mp hk]; decide +kernel,
    fun k hk => by rw [Nat.le_zero.mp hk]; decide +kernel, by decide +kernel⟩
  have lj : LoopName 1 (w "j") := ⟨pj, shortFor_one (by decide +kernel), shortFor_one (by decide +kernel),
    by decide +kernel⟩
  refine ⟨⟨li, fun x hx => ?_, ⟨pl, fun x hx => ?_, ⟨lj, fun x hx => ?_, ⟨fun x hx => ?_, trivial⟩, trivial⟩⟩,
    ⟨fun x hx => ?_, trivial⟩⟩, ?_⟩
  · simp at hx
  · simp at hx; rw [hx]; exact pi
  · simp at hx; rw [hx]; exact pl
  · simp at hx; rcases hx with rfl | rfl
    · exact pi
    · exact pj
  · simp at hx; rcases hx with rfl | rfl
    · exact pi
    · exact pj
  · refine ⟨⟨?_, trivial, trivial⟩, ⟨trivial, trivial, trivial⟩, trivial⟩
    decide +kernel

example : ∃ n m' out, steps (fun _ => none) n (start exBlock.lines exMacros) = .ok ⟨[], m', out⟩ :=
  C44_terminates_partial _ exBlock exBlock_simple.2 exBlock_simple.1 exMacros (by decide +kernel)

/-- A save and a restore around changes, with an older copy on the stack. -/
example : ∃ m1 m2 m3, save [(w "x", [w "new"]), (w "x#0", [w "old"])] (w "x") = .ok m1 ∧
    runOps m1 [.set (w "x") [w "1"], .del (w "x"), .set (w "y") []] = .ok m2 ∧ restore m2 (w "x") = .ok m3 ∧
    m3.find (w "x") = some [w "new"] ∧ m3.find (w "x#0") = some [w "old"] := by
  refine ⟨[(w "x", [w "new"]), (w "x#0", [w "old"]), (w "x#1", [w "new"])],
    [(w "x#0", [w "old"]), (w "x#1", [w "new"]), (w "y", [])],
    [(w "x", [w "new"]), (w "x#0", [w "old"]), (w "y", [])], ?_⟩
  decide +kernel

/-! ## What goes wrong outside the hypotheses -/

/-- `$undef` removes only the first existing macro of its list: the loop over the arguments stops at the first non-zero
    return code, and the removal returns 1. -/
theorem C44_undef_list_counterexample :
    (steps (fun _ => none) 5 (start [.undef [w "A", w "B"]] [(w "A", []), (w "B", [])])) =
      .ok (⟨[], [(w "B", [])], []⟩ : Cfg) := by decide +kernel

/-- A loop directly inside a loop over the same variable. -/
def exSame : List Line :=
  [.foreach (w "x") [.word (w "1"), .word (w "2")], .foreach (w "x") [.word (w "3"), .word (w "4")],
    .text [.ref (w "x")], .next (w "x"), .next (w "x")]

def exSameAt (pc : Nat) (m : MacroDb) (out : List Val) : Cfg := ⟨[⟨exSame, pc, []⟩], m, out⟩

def exSameMid : MacroDb := [(w "FOREACH__x", []), (w "x", [w "%FOREACH__x%"])]

/-- The report above should print `3 4 3 4`. It prints `3 4 2` and then the text `%FOREACH__x%` for ever: the outer
    `$next` finds the inner `$foreach`. -/
theorem C44_same_variable_counterexample :
    steps (fun _ => none) 9 (start exSame []) = .ok (exSameAt 4 [] [[w "3"], [w "4"], [w "2"]]) ∧
    ∀ n, ∃ c, steps (fun _ => none) n (start exSame []) = .ok c ∧ c.stack ≠ [] := by
  have h0 : steps (fun _ => none) 9 (start exSame []) = .ok (exSameAt 4 [] [[w "3"], [w "4"], [w "2"]]) := by
    decide +kernel
  have h1 : ∀ out, step (fun _ => none) (exSameAt 4 [] out) = .ok (exSameAt 2 exSameMid out) := fun out => by rfl
  have h2 : ∀ out, step (fun _ => none) (exSameAt 2 exSameMid out) =
      .ok (exSameAt 3 exSameMid (out ++ [[w "%FOREACH__x%"]])) := fun out => by rfl
  have h3 : ∀ out, step (fun _ => none) (exSameAt 3 exSameMid out) = .ok (exSameAt 4 [] out) := fun out => by rfl
  have h4 : ∀ n out, ∃ c, steps (fun _ => none) n (exSameAt 4 [] out) = .ok c ∧ c.stack ≠ [] := by
    intro n
    induction n using Nat.strongRecOn with
    | ind n ih =>
      intro out
      match n with
      | 0 => exact ⟨_, rfl, by simp [exSameAt]⟩
      | 1 => exact ⟨exSameAt 2 exSameMid out, by simp only [steps]; rw [h1]; rfl, by simp [exSameAt]⟩
      | 2 =>
        refine ⟨exSameAt 3 exSameMid (out ++ [[w "%FOREACH__x%"]]), ?_, by simp [exSameAt]⟩
        simp only [steps]; rw [h1]; simp only [Res.bind]; rw [h2]
      | n + 3 =>
        obtain ⟨c, hc, hs⟩ := ih n (by omega) (out ++ [[w "%FOREACH__x%"]])
        refine ⟨c, ?_, hs⟩
        simp only [steps]; rw [h1]; simp only [Res.bind]; rw [h2]; simp only; rw [h3]
        exact hc
  refine ⟨h0, fun n => ?_⟩
  by_cases hn : 9 ≤ n
  · rw [show n = 9 + (n - 9) by omega, steps_add, h0]
    exact h4 _ _
  · -- an earlier stop would have kept the state
    have hstop : ∀ k c, c.stack = [] → steps (fun _ => none) k c = .ok c := by
      intro k
      induction k with
      | zero => exact fun c _ => rfl
      | succ k ih =>
        intro c hc
        have : step (fun _ => none) c = .ok c := by unfold step; rw [hc]
        simp only [steps]; rw [this]; exact ih c hc
    have hsplit : (steps (fun _ => none) n (start exSame [])).bind (steps (fun _ => none) (9 - n)) =
        .ok (exSameAt 4 [] [[w "3"], [w "4"], [w "2"]]) := by
      rw [← steps_add, show n + (9 - n) = 9 by omega]; exact h0
    cases hs : steps (fun _ => none) n (start exSame []) with
    | err => rw [hs] at hsplit; cases hsplit
    | ub => rw [hs] at hsplit; cases hsplit
    | ok c =>
      rw [hs] at hsplit
      by_cases hst : c.stack = []
      · have h5 := hstop (9 - n) c hst
        have h6 : steps (fun _ => none) (9 - n) c = .ok (exSameAt 4 [] [[w "3"], [w "4"], [w "2"]]) := hsplit
        rw [h5] at h6
        have h7 : c = exSameAt 4 [] [[w "3"], [w "4"], [w "2"]] := by injection h6
        rw [h7] at hst
        simp [exSameAt] at hst
      · exact ⟨c, rfl, hst⟩

/-- The procedures of the next counterexamples. -/
def exProcs : Procs := fun p =>
  if p = w "loop" then some ⟨[], [.foreach (w "x") [.word (w "9")], .next (w "x")]⟩
  else if p = w "leave" then some ⟨[], [.foreach (w "x") [.word (w "1"), .word (w "2")], .ret, .next (w "x")]⟩
  else if p = w "deep" then some ⟨[], [.foreach (w "longestvar") [.word (w "9")], .next (w "longestvar")]⟩
  else none

/-- A loop whose body removes its variable and calls a procedure with a loop over the same variable: the inner loop
    takes the value saved by the outer one, and the variable is lost in the end. -/
theorem C44_undef_in_loop_counterexample :
    (steps exProcs 60 (start
      [.foreach (w "x") [.word (w "1")], .undef [w "x"], .call (w "loop") [], .next (w "x")]
      [(w "x", [w "old"])])) = .ok (⟨[], [], []⟩ : Cfg) := by decide +kernel

/-- Without the removal the variable gets its value back. -/
example : (steps exProcs 60 (start
      [.foreach (w "x") [.word (w "1")], .call (w "loop") [], .next (w "x")]
      [(w "x", [w "old"])])) = .ok (⟨[], [(w "x", [w "old"])], []⟩ : Cfg) := by decide +kernel

/-- `$return` inside a loop: the variable keeps the value of the turn and the saved copies stay. -/
theorem C44_return_in_loop_counterexample :
    (steps exProcs 60 (start [.call (w "leave") []] [(w "x", [w "old"])])) =
      .ok (⟨[], [(w "FOREACH__x", [w "2"]), (w "x", [w "1"]), (w "x#0", [w "old"])], []⟩ : Cfg) := by decide +kernel

/-- A loop variable of ten characters used again in a procedure called by the loop: the name `FOREACH__longestvar#0` has
    21 characters, the definition of the saved copy throws. -/
theorem C44_nested_name_counterexample :
    steps exProcs 20 (start
      [.foreach (w "longestvar") [.word (w "1")], .call (w "deep") [], .next (w "longestvar")] []) = .err := by
  decide +kernel

/-- A procedure without parameters called with an argument: `proc_parms[-1]` is read. -/
theorem C44_no_parameter_counterexample :
    steps exProcs 20 (start [.call (w "loop") [.word (w "1")]] []) = .ub := by decide +kernel

/-- The state in which the loop over a variable of twelve characters stays for ever. -/
def exEndless : Cfg :=
  ⟨[⟨[.foreach (w "twelve_chars") [.word (w "1")], .next (w "twelve_chars")], 1, []⟩],
   [(w "FOREACH__twelve_char", []), (w "twelve_chars", [w "%FOREACH__twelve_chars%"])], []⟩

/-- A loop over a variable of twelve characters never ends: the list of remaining values is kept under a name cut to 20
    characters and never found again. -/
theorem C44_long_name_counterexample (n : Nat) :
    steps (fun _ => none) (n + 1)
      (start [.foreach (w "twelve_chars") [.word (w "1")], .next (w "twelve_chars")] []) = .ok exEndless := by
  have h1 : step (fun _ => none) (start [.foreach (w "twelve_chars") [.word (w "1")], .next (w "twelve_chars")] []) =
      .ok exEndless := by decide +kernel
  have h2 : step (fun _ => none) exEndless = .ok exEndless := by decide +kernel
  have h3 : ∀ n, steps (fun _ => none) n exEndless = .ok exEndless := by
    intro n
    induction n with
    | zero => rfl
    | succ n ih => simp only [steps]; rw [h2]; exact ih
  simp only [steps]
  rw [h1]
  exact h3 n

end Iode.Macros
