import Verif.Props.C24

/-!
# C25: malformed formulas are rejected, never mis-evaluated

Two independent descriptions of well-formed texts: the grammar of `Verif/Spec/Lec.lean`, and (below) a
two-state automaton for the alternation of operands and operators together with a parenthesis count.

Proved: starting from an empty stack of operators, what is accepted is exactly what the grammar reads
(with the reading of a bracket behind a call); nothing accepted violates the alternation or the balance of
parentheses; alternation is enforced from any state; the only texts with undefined behaviour are those with
`()` and those that begin with a parenthesised expression and a comma; the code of an accepted
text never pops an empty stack and leaves one value, apart from `lcount`, functions of several
expressions, and a time function in front of an unparenthesised call.

False of the code: the stack of operators survives a rejected formula (`L_OPS` is never cleared), so the
formula compiled next may be accepted although malformed, or mis-evaluated although correct.
-/
namespace Iode.Lec

variable {F : Type}

/-! ## Alternation and balance, as an automaton -/

/-- One token: `true` means that an operand is expected.  `none` is a syntax error. -/
def shape : Bool → Tok → Option Bool
  | true, .cst _ | true, .val _ | true, .var _ | true, .coef _ => some false
  | true, .op .minus | true, .op .plus | true, .fun _ | true, .openp => some true
  | true, .ocpar => some false
  | true, _ => none
  | false, .op _ | false, .comma => some true
  | false, .closep | false, .lag _ | false, .date _ => some false
  | false, _ => none

/-- The alternation of a whole text. -/
def shapes : Bool → List Tok → Option Bool
  | b, [] => some b
  | b, t :: ts => (shape b t).bind fun b => shapes b ts

/-- Depth of parentheses behind a text, `none` if one closes too many. -/
def depth : Nat → List Tok → Option Nat
  | d, [] => some d
  | d, .openp :: ts => depth (d + 1) ts
  | 0, .closep :: _ => none
  | d + 1, .closep :: ts => depth d ts
  | d, _ :: ts => depth d ts

theorem step_shape {st st' : St} {t : Tok} (h : step st t = .ok st') : shape st.beg t = some st'.beg := by
  have hval : ∀ a, value a st = .ok st' → st.beg = true ∧ st'.beg = false := by
    intro a h
    unfold value at h
    split at h
    · cases h; exact ⟨by assumption, rfl⟩
    · cases h
  have hfun : ∀ f, pushFun f st = .ok st' → st.beg = true ∧ st'.beg = true := by
    intro a h
    unfold pushFun at h
    split at h
    · cases h; exact ⟨by assumption, by assumption⟩
    · cases h
  have hbr : ∀ g, bracket g st = .ok st' → st.beg = false ∧ st'.beg = false := by
    intro g h
    unfold bracket at h
    split at h
    · cases h
    · have := mapLast_fields h
      rename_i hb
      have hb' : st.beg = false := by simpa using hb
      exact ⟨hb', by rw [this.2.1]; exact hb'⟩
  cases t with
  | cst k => obtain ⟨h1, h2⟩ := hval _ h; rw [h1, h2]; rfl
  | val k => obtain ⟨h1, h2⟩ := hval _ h; rw [h1, h2]; rfl
  | var k => obtain ⟨h1, h2⟩ := hval _ h; rw [h1, h2]; rfl
  | coef k => obtain ⟨h1, h2⟩ := hval _ h; rw [h1, h2]; rfl
  | op o =>
    rw [step] at h
    unfold operator at h
    split at h
    · rename_i hb
      cases o with
      | minus => obtain ⟨h1, h2⟩ := hfun _ h; rw [h1, h2]; rfl
      | plus => obtain ⟨h1, h2⟩ := hfun _ h; rw [h1, h2]; rfl
      | _ => cases h
    · rename_i hb
      obtain ⟨r, _, h⟩ := CRes.bind_eq_ok h
      cases h
      have hb' : st.beg = false := by simpa using hb
      rw [hb']; rfl
  | «fun» f => obtain ⟨h1, h2⟩ := hfun _ h; rw [h1, h2]; rfl
  | openp =>
    rw [step, openPar] at h
    split at h
    · rename_i hb; cases h; simp [hb, shape]
    · cases h
  | closep =>
    rw [step, closePar] at h
    split at h
    · cases h
    · rename_i hb
      obtain ⟨r, _, h⟩ := CRes.bind_eq_ok h
      cases h
      have hb' : st.beg = false := by simpa using hb
      simp [hb', shape]
  | ocpar =>
    rw [step, openClose] at h
    split at h
    · rename_i hb
      split at h
      · cases h
      · cases h; simp [hb, shape]
      · cases h
    · cases h
  | comma =>
    rw [step, commaStep] at h
    split at h
    · cases h
    · rename_i hb
      obtain ⟨r, _, h⟩ := CRes.bind_eq_ok h
      have hb' : st.beg = false := by simpa using hb
      rw [hb']
      split at h
      · cases h
      · cases h; rfl
      · cases h
  | lag k => obtain ⟨h1, h2⟩ := hbr _ h; rw [h1, h2]; rfl
  | date k => obtain ⟨h1, h2⟩ := hbr _ h; rw [h1, h2]; rfl
  | bad => cases h

theorem run_shape : ∀ {ts : List Tok} {st st' : St}, run st ts = .ok st' → shapes st.beg ts = some st'.beg
  | [], st, st', h => by cases h; rfl
  | t :: ts, st, st', h => by
    obtain ⟨s1, h1, h2⟩ := CRes.bind_eq_ok h
    rw [shapes, step_shape h1]
    exact run_shape h2

/-! ## Theorems -/

/-- From an empty stack, exactly the texts of the grammar compile, to the postfix form of their tree. -/
theorem C25_accepts_exactly_the_grammar (ts : List Tok) (as : List Atom) :
    compile [] ts = .ok as ↔ ∃ e, ReadsExt ts e ∧ as = atomsOf e := by
  constructor
  · exact compile_inv
  · rintro ⟨e, h, rfl⟩
    exact h.compile

/-- An operator or operand is missing: rejected, whatever was compiled before. -/
theorem C25_missing_piece_rejected (ops : List Entry) (ts : List Tok)
    (h : shapes true ts ≠ some false) : ∀ as, compile ops ts ≠ .ok as := by
  intro as hc
  unfold compile at hc
  split at hc
  · cases hc
  · obtain ⟨st, hr, hf⟩ := CRes.bind_eq_ok hc
    have h1 : shapes true ts = some st.beg := run_shape hr
    unfold finish at hf
    split at hf
    · cases hf
    · rename_i hb
      have hb' : st.beg = false := by simpa using hb
      rw [hb'] at h1
      exact h h1

theorem depth_append (ts us : List Tok) : ∀ d, depth d (ts ++ us) = (depth d ts).bind fun d => depth d us := by
  induction ts with
  | nil => intro d; simp [depth]
  | cons t ts ih =>
    intro d
    cases t <;> simp only [List.cons_append, depth, ih]
    cases d <;> simp [depth, ih]

theorem G.depth {ext k ts es} (h : G ext k ts es) : ∀ d, match k with
    | .args => Lec.depth d ts = some (d + 1)
    | _ => Lec.depth d ts = some d := by
  induction h with
  | cst k => intro d; rfl
  | val k => intro d; rfl
  | var k => intro d; rfl
  | coef k => intro d; rfl
  | par _ ih => intro d; simp [Lec.depth, depth_append, ih (d + 1)]
  | lag k _ ih => intro d; simp [depth_append, ih d, Lec.depth]
  | date k _ ih => intro d; simp [depth_append, ih d, Lec.depth]
  | up _ ih => exact ih
  | minus _ ih => intro d; simpa [Lec.depth] using ih d
  | plus _ ih => intro d; simpa [Lec.depth] using ih d
  | un f _ _ ih => intro d; simpa [Lec.depth] using ih d
  | bin o _ _ iha ihb => intro d; simp [depth_append, iha d, Lec.depth, ihb d]
  | arg1 _ ih => intro d; simp [Lec.depth, ih (d + 1)]
  | argN _ _ iha ihb => intro d; simp [depth_append, iha d, Lec.depth, ihb (d + 1)]
  | call f _ _ _ ih => intro d; simp [Lec.depth, depth_append, ih d]
  | ofCall _ ih => exact ih
  | callLag k _ _ ih => intro d; simp [depth_append, ih d, Lec.depth]
  | callDate k _ _ ih => intro d; simp [depth_append, ih d, Lec.depth]

/-- Unbalanced parentheses are rejected (from an empty stack). -/
theorem C25_unbalanced_rejected (ts : List Tok) (h : depth 0 ts ≠ some 0) : ∀ as, compile [] ts ≠ .ok as := by
  intro as hc
  obtain ⟨e, he, _⟩ := compile_inv hc
  exact h (he.depth 0)

/-- `G` never contains an empty pair of parentheses nor a bad token. -/
theorem G.tokens {ext k ts es} (h : G ext k ts es) : Tok.ocpar ∉ ts ∧ Tok.bad ∉ ts := by
  induction h with
  | par _ ih => simp [ih]
  | lag k _ ih => simp [ih]
  | date k _ ih => simp [ih]
  | up _ ih => exact ih
  | minus _ ih => simp [ih]
  | plus _ ih => simp [ih]
  | un f _ _ ih => simp [ih]
  | bin o _ _ iha ihb => simp [iha, ihb]
  | arg1 _ ih => simp [ih]
  | argN _ _ iha ihb => simp [iha, ihb]
  | call f _ _ _ ih => simp [ih]
  | ofCall _ ih => exact ih
  | callLag k _ _ ih => simp [ih]
  | callDate k _ _ ih => simp [ih]
  | _ => simp

/-- `f()` is never accepted, for no function. -/
theorem C25_empty_call_rejected (ts : List Tok) (h : Tok.ocpar ∈ ts) : ∀ as, compile [] ts ≠ .ok as := by
  intro as hc
  obtain ⟨e, he, _⟩ := compile_inv hc
  exact he.tokens.1 h

/-! ## Undefined behaviour of the compiler -/

theorem saveOp_ne_ub (e : Entry) (r : List Entry) (out : List Atom) : saveOp e r out ≠ .ub := by
  cases e <;> simp only [saveOp] <;> (try split) <;> simp

theorem CRes.bind_eq_ub {α β : Type} {x : CRes α} {f : α → CRes β} (h : x.bind f = .ub) :
    x = .ub ∨ ∃ a, x = .ok a ∧ f a = .ub := by
  cases x with
  | ok a => exact .inr ⟨a, rfl, h⟩
  | err o => cases h
  | ub => exact .inl rfl

theorem popWhile_ne_ub (o : Op) : ∀ ops out, popWhile o ops out ≠ .ub
  | [], out => by simp [popWhile]
  | e :: r, out => by
    rw [popWhile]
    split
    · intro h
      rcases CRes.bind_eq_ub h with h | ⟨a, _, h⟩
      · exact saveOp_ne_ub _ _ _ h
      · exact popWhile_ne_ub o r a h
    · simp

theorem closeLoop_ne_ub : ∀ ops out, closeLoop ops out ≠ .ub
  | [], out => by simp [closeLoop]
  | .openp :: r, out => by simp [closeLoop]
  | .op o :: r, out => by
    rw [closeLoop]
    · intro h
      rcases CRes.bind_eq_ub h with h | ⟨a, _, h⟩
      · exact saveOp_ne_ub _ _ _ h
      · exact closeLoop_ne_ub r a h
    · simp
  | .fun f n :: r, out => by
    rw [closeLoop]
    · intro h
      rcases CRes.bind_eq_ub h with h | ⟨a, _, h⟩
      · exact saveOp_ne_ub _ _ _ h
      · exact closeLoop_ne_ub r a h
    · simp

theorem flush_ne_ub : ∀ ops out, flush ops out ≠ .ub
  | [], out => by simp [flush]
  | e :: r, out => by
    rw [flush]
    intro h
    rcases CRes.bind_eq_ub h with h | ⟨a, _, h⟩
    · exact saveOp_ne_ub _ _ _ h
    · exact flush_ne_ub r a h

/-- States without a pending `f()`. -/
def NoEmpty (st : St) : Prop := ∀ f, Entry.fun (.fn f) 0 ∉ st.ops

theorem popWhile_mem {o : Op} {x : Entry} : ∀ {ops out ops' out'}, popWhile o ops out = .ok (ops', out') →
    x ∈ ops' → x ∈ ops
  | [], out, ops', out', h, hx => by cases h; exact hx
  | e :: r, out, ops', out', h, hx => by
    rw [popWhile] at h
    split at h
    · obtain ⟨a, _, h⟩ := CRes.bind_eq_ok h
      exact List.mem_cons_of_mem _ (popWhile_mem h hx)
    · cases h; exact hx

theorem closeLoop_mem {x : Entry} : ∀ {ops out ops' out'}, closeLoop ops out = .ok (ops', out') →
    x ∈ ops' → x ∈ ops
  | [], out, ops', out', h, hx => by cases h
  | .openp :: r, out, ops', out', h, hx => by
    rw [closeLoop] at h; cases h; exact List.mem_cons_of_mem _ hx
  | .op o :: r, out, ops', out', h, hx => by
    rw [closeLoop] at h
    · obtain ⟨a, _, h⟩ := CRes.bind_eq_ok h
      exact List.mem_cons_of_mem _ (closeLoop_mem h hx)
    · simp
  | .fun f n :: r, out, ops', out', h, hx => by
    rw [closeLoop] at h
    · obtain ⟨a, _, h⟩ := CRes.bind_eq_ok h
      exact List.mem_cons_of_mem _ (closeLoop_mem h hx)
    · simp

theorem step_noEmpty {st st' : St} {t : Tok} (hn : NoEmpty st) (ht : t ≠ .ocpar) (h : step st t = .ok st') :
    NoEmpty st' := by
  have hval : ∀ a, value a st = .ok st' → NoEmpty st' := by
    intro a h
    unfold value at h
    split at h
    · cases h; exact hn
    · cases h
  have hfun : ∀ f, pushFun f st = .ok st' → NoEmpty st' := by
    intro a h
    unfold pushFun at h
    split at h
    · cases h; intro f; simpa using hn f
    · cases h
  have hbr : ∀ g, bracket g st = .ok st' → NoEmpty st' := by
    intro g h
    unfold bracket at h
    split at h
    · cases h
    · have := mapLast_fields h
      intro f
      rw [this.1]
      exact hn f
  cases t with
  | cst k => exact hval _ h
  | val k => exact hval _ h
  | var k => exact hval _ h
  | coef k => exact hval _ h
  | op o =>
    rw [step] at h
    unfold operator at h
    split at h
    · cases o with
      | minus => exact hfun _ h
      | plus => exact hfun _ h
      | _ => cases h
    · obtain ⟨⟨ops', out'⟩, hr, h⟩ := CRes.bind_eq_ok h
      cases h
      intro f hf
      rcases List.mem_cons.1 hf with hf | hf
      · cases hf
      · exact hn f (popWhile_mem hr hf)
  | «fun» f => exact hfun _ h
  | openp =>
    rw [step, openPar] at h
    split at h
    · cases h; intro f; simpa using hn f
    · cases h
  | closep =>
    rw [step, closePar] at h
    split at h
    · cases h
    · obtain ⟨⟨ops', out'⟩, hr, h⟩ := CRes.bind_eq_ok h
      cases h
      exact fun f hf => hn f (closeLoop_mem hr hf)
  | ocpar => exact absurd rfl ht
  | comma =>
    rw [step, commaStep] at h
    split at h
    · cases h
    · obtain ⟨⟨ops', out'⟩, hr, h⟩ := CRes.bind_eq_ok h
      dsimp only at h
      split at h
      · cases h
      · rename_i f n rest
        cases h
        intro g hg
        rcases List.mem_cons.1 hg with hg | hg
        · cases hg
        rcases List.mem_cons.1 hg with hg | hg
        · cases hg
        · exact hn g (closeLoop_mem hr (List.mem_cons_of_mem _ hg))
      · cases h
  | lag k => exact hbr _ h
  | date k => exact hbr _ h
  | bad => cases h

theorem bracket_ne_ub {st : St} {ts : List Tok} (g) (hi : Inv st ts) (hn : NoEmpty st) :
    bracket (mapAtom g) st ≠ .ub := by
  unfold bracket
  split
  · simp
  · rename_i hb
    have h2 := hi.2
    rw [if_neg hb] at h2
    rcases h2 with ⟨ts0, us, e, out0, hctx, hg, rfl, ho⟩ |
        ⟨ts0, us, es, out0, t', f, ops0, hctx, ht, hpc, hops, rfl, ho⟩ | ⟨f, ops0, hops⟩
    · rw [mapLast_prim _ hg.prim st out0 ho]; simp
    · obtain ⟨es', e, rfl, hp⟩ := hpc.last
      rw [mapLast_prim _ hp st (out0 ++ atomsOfL es') (by rw [ho]; simp [atomsOfL_append, atomsOfL])]
      simp
    · exact absurd (by rw [hops]; simp) (hn f)

theorem step_ub {st : St} {ts : List Tok} {t : Tok} (hi : Inv st ts) (hn : NoEmpty st) (ht : t ≠ .ocpar)
    (h : step st t = .ub) : t = .comma ∧ ∃ us e, ts = .openp :: us ∧ G true (.lev 0) us [e] := by
  cases t with
  | cst k => simp only [step, value] at h; split at h <;> cases h
  | val k => simp only [step, value] at h; split at h <;> cases h
  | var k => simp only [step, value] at h; split at h <;> cases h
  | coef k => simp only [step, value] at h; split at h <;> cases h
  | op o =>
    rw [step] at h
    unfold operator at h
    split at h
    · cases o with
      | minus => simp only [pushFun] at h; split at h <;> cases h
      | plus => simp only [pushFun] at h; split at h <;> cases h
      | _ => cases h
    · rcases CRes.bind_eq_ub h with h | ⟨a, _, h⟩
      · exact absurd h (popWhile_ne_ub _ _ _)
      · cases h
  | «fun» f => simp only [step, pushFun] at h; split at h <;> cases h
  | openp => simp only [step, openPar] at h; split at h <;> cases h
  | closep =>
    rw [step, closePar] at h
    split at h
    · cases h
    · rcases CRes.bind_eq_ub h with h | ⟨a, _, h⟩
      · exact absurd h (closeLoop_ne_ub _ _)
      · cases h
  | ocpar => exact absurd rfl ht
  | comma =>
    refine ⟨rfl, ?_⟩
    rw [step, commaStep] at h
    split at h
    · cases h
    · rename_i hb
      rcases CRes.bind_eq_ub h with h | ⟨⟨ops', out'⟩, hr, h⟩
      · exact absurd h (closeLoop_ne_ub _ _)
      · dsimp only at h
        have h2 := hi.2
        rw [if_neg hb] at h2
        have hcl := h2.closeLoop hr
        split at h
        · obtain ⟨ts1, us, e, out1, hg, hcl⟩ := hcl
          rcases hcl with ⟨hc, rfl, rfl⟩ | ⟨t, f', es, vs, ops0, hc, ht, hga, hops, rfl, rfl⟩
          · cases hc
            exact ⟨us, e, rfl, hg⟩
          · cases hops
        · cases h
        · cases h
  | lag k =>
    rw [step, lagAtom_eq] at h
    exact absurd h (bracket_ne_ub _ hi hn)
  | date p =>
    rw [step, dateAtom_eq] at h
    exact absurd h (bracket_ne_ub _ hi hn)
  | bad => cases h

theorem run_ub : ∀ {us : List Tok} {st : St} {ts : List Tok}, Inv st ts → NoEmpty st → Tok.ocpar ∉ us →
    run st us = .ub → ∃ vs e post, ts ++ us = .openp :: vs ++ .comma :: post ∧ G true (.lev 0) vs [e]
  | [], st, ts, _, _, _, h => by cases h
  | t :: us, st, ts, hi, hn, ho, h => by
    have ht : t ≠ .ocpar := fun h => ho (by simp [h])
    rcases CRes.bind_eq_ub h with h | ⟨s1, h1, h⟩
    · obtain ⟨rfl, vs, e, rfl, hg⟩ := step_ub hi hn ht h
      exact ⟨vs, e, us, by simp, hg⟩
    · obtain ⟨vs, e, post, h2, h3⟩ := run_ub (inv_step t hi h1) (step_noEmpty hn ht h1)
        (fun h => ho (by simp [h])) h
      exact ⟨vs, e, post, by simpa using h2, h3⟩

/-- The texts without `()` on which the compiler reads the end of an empty vector: exactly those that start
with `(`, an expression and a comma. -/
theorem C25_undefined_exactly (ts : List Tok) (ho : Tok.ocpar ∉ ts) :
    compile [] ts = .ub ↔ ∃ us e post, ts = .openp :: us ++ .comma :: post ∧ ReadsExt us e := by
  constructor
  · intro h
    unfold compile at h
    split at h
    · cases h
    · rcases CRes.bind_eq_ub h with h | ⟨st, _, h⟩
      · have hi : Inv ⟨[], [], true, 0⟩ [] := ⟨by simp, .nil⟩
        exact run_ub hi (fun f => by simp) ho h
      · unfold finish at h
        split at h
        · cases h
        · split at h
          · cases h
          · exact absurd h (flush_ne_ub _ _)
  · rintro ⟨us, e, post, rfl, hg⟩
    unfold compile
    rw [if_neg (by simp)]
    obtain ⟨e', he, hd⟩ := hg.does
    obtain ⟨pend, o', hr, hp, _⟩ := hd [.openp] [.openp] 1 (.inr (.inr (.inl ⟨[], rfl⟩)))
    rw [List.cons_append, run, step, openPar]
    simp only [if_true, CRes.bind, List.nil_append, Int.zero_add]
    rw [run_append, hr]
    simp only [CRes.bind]
    rw [run, step, commaStep]
    simp only [Bool.false_eq_true, if_false]
    rw [closeLoop_pend (p := 0) pend hp]
    rfl

/-- Without commas and `()` the compiler is defined: it accepts or reports an error. -/
theorem C25_always_defined (ts : List Tok) (ho : Tok.ocpar ∉ ts) (hc : Tok.comma ∉ ts) : compile [] ts ≠ .ub := by
  intro h
  obtain ⟨us, e, post, rfl, _⟩ := (C25_undefined_exactly ts ho).1 h
  exact hc (by simp)

/-! ## The executed code of an accepted text -/

mutual
/-- The functions of a tree. -/
def funs : Expr → List Fun
  | .par e => funs e
  | .bin _ a b => funs a ++ funs b
  | .app f args => f :: funsL args
  | _ => []
/-- The functions of a list of trees. -/
def funsL : List Expr → List Fun
  | [] => []
  | e :: es => funs e ++ funsL es
end

theorem funsL_mem {f : Fun} : ∀ {es : List Expr}, f ∈ funsL es ↔ ∃ e ∈ es, f ∈ funs e
  | [] => by simp [funsL]
  | e :: es => by simp [funsL, funsL_mem (es := es)]

theorem WF.mapVar (g) {e : Expr} (h : WF e) : WF (e.mapVar g) := by
  induction h with
  | cst k => exact .cst k
  | val k => exact .val k
  | var x l p => exact .var _ _ _
  | coef x => exact .coef x
  | par _ ih => exact .par ih
  | bin o _ _ iha ihb => exact .bin o iha ihb
  | app f h1 h2 _ ih =>
    rw [Expr.mapVar, mapVarL_eq]
    refine .app f (by simpa using h1) (by simpa using h2) ?_
    intro a ha
    obtain ⟨b, hb, rfl⟩ := List.mem_map.1 ha
    exact ih b hb

theorem G.wf {ext k ts es} (h : G ext k ts es) : ∀ e ∈ es, WF e := by
  have hone : ∀ {e : Expr}, WF e → ∀ x ∈ [e], WF x := by
    intro e h x hx; rw [List.mem_singleton.1 hx]; exact h
  induction h with
  | cst k => exact hone (.cst k)
  | val k => exact hone (.val k)
  | var k => exact hone (.var k _ _)
  | coef k => exact hone (.coef k)
  | par _ ih => exact hone (.par (ih _ (by simp)))
  | lag k _ ih => exact hone ((ih _ (by simp)).mapVar _)
  | date k _ ih => exact hone ((ih _ (by simp)).mapVar _)
  | up _ ih => exact ih
  | minus _ ih => exact hone (.app _ (by simp) (by rfl) ih)
  | plus _ ih => exact hone (.app _ (by simp) (by rfl) ih)
  | un f hf _ ih => exact hone (.app _ (by simp) hf ih)
  | bin o _ _ iha ihb => exact hone (.bin o (iha _ (by simp)) (ihb _ (by simp)))
  | arg1 _ ih => exact hone (.par (ih _ (by simp)))
  | argN _ _ iha ihb =>
    intro x hx
    rcases List.mem_append.1 hx with hx | hx
    · exact iha x hx
    · rw [List.mem_singleton.1 hx]; exact .par (ihb _ (by simp))
  | call f h2 hf _ ih =>
    exact hone (.app f (by rintro rfl; simp at h2) hf ih)
  | ofCall _ ih => exact ih
  | callLag k _ _ ih =>
    cases ih _ (List.mem_singleton.2 rfl) with
    | app f h1 h2 h3 =>
      refine hone (.app _ (by simp) (by simpa using h2) ?_)
      intro x hx
      rcases List.mem_append.1 hx with hx | hx
      · exact h3 x (by simp [hx])
      · rw [List.mem_singleton.1 hx]; exact (h3 _ (by simp)).mapVar _
  | callDate k _ _ ih =>
    cases ih _ (List.mem_singleton.2 rfl) with
    | app f h1 h2 h3 =>
      refine hone (.app _ (by simp) (by simpa using h2) ?_)
      intro x hx
      rcases List.mem_append.1 hx with hx | hx
      · exact h3 x (by simp [hx])
      · rw [List.mem_singleton.1 hx]; exact (h3 _ (by simp)).mapVar _

/-- Every conversion of a number to an integer is defined. -/
structure Casts (A : Arith F) : Prop where
  toInt : ∀ x, ∃ n, A.toInt x = some n
  pow10 : ∀ x, ∃ s, A.pow10 x = some s

theorem Casts.intlag {A : Arith F} (h : Casts A) (x : F) : ∃ n, A.intlag x = some n := by
  unfold Arith.intlag
  split
  · exact h.toInt _
  · exact h.toInt _

/-- Code that pushes exactly `n` values, whatever is on the stack (or stops at an NA coefficient). -/
def Pushes (A : Arith F) (E : Env F) (code : List Instr) (n : Nat) : Prop :=
  ∀ t S, exec A E true code t S = .ok none ∨
    ∃ ws, ws.length = n ∧ exec A E true code t S = .ok (some (ws ++ S))

theorem Pushes.append {A : Arith F} {E : Env F} {c d : List Instr} {n m : Nat} (h1 : Pushes A E c n)
    (h2 : Pushes A E d m) : Pushes A E (c ++ d) (m + n) := by
  intro t S
  rw [exec_append]
  rcases h1 t S with h | ⟨ws, hl, h⟩
  · exact .inl (by rw [h]; rfl)
  · rw [h]
    simp only [Res.bind]
    rcases h2 t (ws ++ S) with h | ⟨ws', hl', h⟩
    · exact .inl h
    · exact .inr ⟨ws' ++ ws, by simp [hl, hl'], by rw [h]; simp⟩

theorem Pushes.list {A : Arith F} {E : Env F} {args : List Expr}
    (h : ∀ a ∈ args, Pushes A E (codeOf a) 1) : Pushes A E (codeL args) args.length := by
  induction args with
  | nil => intro t S; exact .inr ⟨[], rfl, by simp [codeL, exec]⟩
  | cons a as ih =>
    rw [codeL]
    exact (h a (by simp)).append (ih fun x hx => h x (by simp [hx]))

theorem Pushes.then {A : Arith F} {E : Env F} {c : List Instr} {n : Nat} (h1 : Pushes A E c n) (i : Instr)
    (h2 : ∀ t ws S, ws.length = n → ∃ w, execI A E true i t (ws ++ S) = .ok (some (w :: S))) :
    Pushes A E (c ++ [i]) 1 := by
  intro t S
  rw [exec_append]
  rcases h1 t S with h | ⟨ws, hl, h⟩
  · exact .inl (by rw [h]; rfl)
  · rw [h]
    simp only [Res.bind]
    obtain ⟨w, hw⟩ := h2 t ws S hl
    exact .inr ⟨[w], rfl, by rw [exec_single, hw]; rfl⟩

theorem execOp_pushes (A : Arith F) (o : Op) (ws S : List F) (h : ws.length = 2) :
    ∃ w, execOp A o (ws ++ S) = .ok (w :: S) := by
  match ws, h with
  | [b, a], _ => exact ⟨_, rfl⟩

theorem fnRev_defined {A : Arith F} (hc : Casts A) (f : Fn) (ws : List F)
    (ha : (Fun.fn f).arityOk ws.length = true) (hl : f ≠ .lcount) : ∃ w, A.fnRev f ws = .ok w := by
  have h1 : f.minArgs ≤ ws.length ∧ ws.length ≤ f.maxArgs := by simpa [Fun.arityOk] using ha
  cases f with
  | lcount => exact absurd rfl hl
  | log => exact ⟨_, rfl⟩
  | expn => exact ⟨_, rfl⟩
  | max => exact ⟨_, rfl⟩
  | min => exact ⟨_, rfl⟩
  | lsum => exact ⟨_, rfl⟩
  | lmean => exact ⟨_, rfl⟩
  | lprod => exact ⟨_, rfl⟩
  | lstderr => exact ⟨_, rfl⟩
  | round =>
    match ws, h1 with
    | [v], _ => exact ⟨_, rfl⟩
    | [n, v], _ =>
      obtain ⟨s, hs⟩ := hc.pow10 n
      exact ⟨_, by simp only [Arith.fnRev, Arith.round, hs]; rfl⟩
    | [], h => simp [Fn.minArgs] at h
    | _ :: _ :: _ :: _, h => simp [Fn.maxArgs] at h
  | «if» =>
    match ws, h1 with
    | [_, _, _], _ => exact ⟨_, rfl⟩
    | [], h => simp [Fn.minArgs] at h
    | [_], h => simp [Fn.minArgs] at h
    | [_, _], h => simp [Fn.minArgs] at h
    | _ :: _ :: _ :: _ :: _, h => simp [Fn.maxArgs] at h
  | grandom =>
    match ws, h1 with
    | _ :: _ :: _, _ => exact ⟨_, rfl⟩
    | [], h => simp [Fn.minArgs] at h
    | [_], h => simp [Fn.minArgs] at h
  | div0 =>
    match ws, h1 with
    | _ :: _ :: _, _ => exact ⟨_, rfl⟩
    | [], h => simp [Fn.minArgs] at h
    | [_], h => simp [Fn.minArgs] at h
  | _ =>
    match ws, h1 with
    | _ :: _, _ => exact ⟨_, rfl⟩
    | [], h => simp [Fn.minArgs] at h

theorem execFn_pushes {A : Arith F} (hc : Casts A) (f : Fn) (ws S : List F)
    (ha : (Fun.fn f).arityOk ws.length = true) (hl : f ≠ .lcount) :
    ∃ w, execFn A f ws.length (ws ++ S) = .ok (w :: S) := by
  have hdrop : (ws ++ S).drop ws.length = S := by simp
  have htake : (ws ++ S).take ws.length = ws := by simp
  unfold execFn
  rw [hdrop, htake]
  split
  · rw [if_neg (by simp)]; exact ⟨_, rfl⟩
  · rw [if_neg (by simp)]
    obtain ⟨w, hw⟩ := fnRev_defined hc f ws ha hl
    exact ⟨w, by rw [hw]; rfl⟩

theorem foldBody_defined {S : Type} (A : Arith F) {run : Int → Res F} (h : ∀ u, ∃ v, run u = .ok v)
    (f : S → F → S) : ∀ js acc, ∃ r, foldBody A run f js acc = .ok r
  | [], acc => ⟨_, rfl⟩
  | j :: js, acc => by
    obtain ⟨v, hv⟩ := h j
    rw [foldBody, hv, Res.bind]
    split
    · exact foldBody_defined A h f js _
    · exact ⟨_, rfl⟩

theorem orNa_defined {S : Type} (A : Arith F) {run : Int → Res F} (h : ∀ u, ∃ v, run u = .ok v)
    (f : S → F → S) (js acc k) : ∃ r, orNa A (foldBody A run f js acc) k = .ok r := by
  obtain ⟨r, hr⟩ := foldBody_defined A h f js acc
  rw [hr, orNa, Res.bind]
  cases r <;> exact ⟨_, rfl⟩

theorem lastObs_defined (A : Arith F) {run : Int → Res F} (h : ∀ u, ∃ v, run u = .ok v) :
    ∀ js, ∃ r, lastObs A run js = .ok r
  | [] => ⟨_, rfl⟩
  | j :: js => by
    obtain ⟨v, hv⟩ := h j
    rw [lastObs, hv, Res.bind]
    split
    · exact ⟨_, rfl⟩
    · exact lastObs_defined A h js

theorem twoPoints_defined (A : Arith F) {run : Int → Res F} (h : ∀ u, ∃ v, run u = .ok v) (t lag k) :
    ∃ r, twoPoints A run t lag k = .ok r := by
  obtain ⟨v, hv⟩ := h t
  obtain ⟨v2, hv2⟩ := h (t - lag)
  rw [twoPoints, hv, Res.bind]
  split
  · rw [hv2, Res.bind]; split <;> exact ⟨_, rfl⟩
  · exact ⟨_, rfl⟩

theorem lagFn_defined (A : Arith F) {run : Int → Res F} (h : ∀ u, ∃ v, run u = .ok v) (f : TFn)
    (hf : f.lagged = true) (t lag) : ∃ r, lagFn A f run t lag = .ok r := by
  cases f with
  | lag => exact h _
  | diff => exact twoPoints_defined A h _ _ _
  | rapp => exact twoPoints_defined A h _ _ _
  | dln => exact twoPoints_defined A h _ _ _
  | grt =>
    obtain ⟨r, hr⟩ := twoPoints_defined A h t lag A.divide
    exact ⟨_, by rw [lagFn, hr]; rfl⟩
  | mavg => exact orNa_defined A h _ _ _ _
  | _ => cases hf

theorem best_defined (A : Arith F) {run : Int → Res F} (h : ∀ u, ∃ v, run u = .ok v) (a : Int)
    (f : F → F → F) (js : List Int) :
    ∃ r, ((run a).bind fun v => if A.isNum v then orNa A (foldBody A run f js v) id else .ok A.na) = .ok r := by
  obtain ⟨v, hv⟩ := h a
  rw [hv, Res.bind]
  split
  · exact orNa_defined A h _ _ _ _
  · exact ⟨_, rfl⟩

theorem rangeFn_defined (A : Arith F) {run : Int → Res F} (h : ∀ u, ∃ v, run u = .ok v) (f : TFn)
    (hf : f.lagged = false) (hd : f ≠ .dlag) (a b) : ∃ r, rangeFn A f run a b = .ok r := by
  cases f with
  | vmax => exact best_defined A h a _ _
  | vmin => exact best_defined A h a _ _
  | sum => exact orNa_defined A h _ _ _ _
  | prod => exact orNa_defined A h _ _ _ _
  | mean => exact orNa_defined A h _ _ _ _
  | stderr => exact orNa_defined A h _ _ _ _
  | lastobs => exact lastObs_defined A h _
  | dlag => exact absurd rfl hd
  | _ => cases hf

theorem execTfn_pushes {A : Arith F} (hc : Casts A) {run : Int → Res F} (h : ∀ u, ∃ v, run u = .ok v)
    (f : TFn) (ws S : List F) (t : Int) (ha : (Fun.tfn f).arityOk (ws.length + 1) = true) :
    ∃ w, execTfn A f (ws.length + 1) run t (ws ++ S) = .ok (w :: S) := by
  have h1 : f.minArgs ≤ ws.length + 1 ∧ ws.length + 1 ≤ f.maxArgs := by simpa [Fun.arityOk] using ha
  have hd : f ≠ .dlag := by rintro rfl; simp [TFn.maxArgs] at h1
  unfold execTfn
  split
  · rename_i hf
    have h2 : ws.length ≤ 1 := by
      have : f.maxArgs = 2 := by cases f <;> first | rfl | cases hf
      omega
    match ws, h2 with
    | [], _ =>
      obtain ⟨r, hr⟩ := lagFn_defined A h f hf t 1
      exact ⟨r, by simp [popLag, Res.bind, hr]⟩
    | [x], _ =>
      obtain ⟨l, hl⟩ := hc.intlag x
      obtain ⟨r, hr⟩ := lagFn_defined A h f hf t l
      exact ⟨r, by simp [popLag, Res.bind, hl, hr]⟩
  · rename_i hf
    have hf' : f.lagged = false := by simpa using hf
    have h2 : ws.length ≤ 2 := by
      have : f.maxArgs ≤ 3 := by cases f <;> simp [TFn.maxArgs]
      omega
    match ws, h2 with
    | [], _ =>
      obtain ⟨r, hr⟩ := rangeFn_defined A h f hf' hd 0 t
      refine ⟨r, ?_⟩
      simp only [List.length_nil, popRange]
      rw [if_pos (by rfl)]
      simp [Res.bind, hr]
    | [x], _ =>
      obtain ⟨l, hl⟩ := hc.intlag x
      obtain ⟨r, hr⟩ := rangeFn_defined A h f hf' hd (orderRange l t).1 (orderRange l t).2
      refine ⟨r, ?_⟩
      simp only [List.length_singleton, popRange]
      rw [if_neg (by omega), if_neg (by omega)]
      simp [popPos, hl, Res.bind, hr]
    | [x, y], _ =>
      obtain ⟨l, hl⟩ := hc.intlag x
      obtain ⟨m, hm⟩ := hc.intlag y
      obtain ⟨r, hr⟩ := rangeFn_defined A h f hf' hd (orderRange m l).1 (orderRange m l).2
      refine ⟨r, ?_⟩
      simp only [List.length_cons, List.length_nil, popRange]
      rw [if_neg (by omega), if_pos (by rfl)]
      simp [popPos, hl, hm, Res.bind, hr]

theorem pushes_one {A : Arith F} {E : Env F} (hc : Casts A) {e : Expr} (hg : Good e) :
    WF e → Fun.fn .lcount ∉ funs e → Pushes A E (codeOf e) 1 := by
  induction hg with
  | cst k => intro _ _ t S; exact .inr ⟨[_], rfl, by rw [codeOf, exec_single, execI]; rfl⟩
  | val k => intro _ _ t S; exact .inr ⟨[_], rfl, by rw [codeOf, exec_single, execI]; rfl⟩
  | var x l p => intro _ _ t S; exact .inr ⟨[_], rfl, by rw [codeOf, exec_single, execI]; rfl⟩
  | coef x =>
    intro _ _ t S
    rw [codeOf, exec_single, execI]
    split
    · exact .inr ⟨[_], rfl, rfl⟩
    · exact .inl rfl
  | par _ ih =>
    intro hw hl
    cases hw with
    | par hw => rw [codeOf]; exact ih hw (by simpa [funs] using hl)
  | bin o _ _ iha ihb =>
    intro hw hl
    cases hw with
    | bin _ h1 h2 =>
      simp only [funs, List.mem_append, not_or] at hl
      rw [codeOf, ← List.append_assoc]
      refine ((iha h1 hl.1).append (ihb h2 hl.2)).then _ ?_
      intro t ws S hlen
      obtain ⟨w, hw⟩ := execOp_pushes A o ws S hlen
      exact ⟨w, by rw [execI, hw]; rfl⟩
  | @fn f args _ ih =>
    intro hw hl
    cases hw with
    | app _ h1 h2 h3 =>
      simp only [funs, List.mem_cons, not_or, funsL_mem, not_exists, not_and] at hl
      rw [codeOf]
      refine (Pushes.list fun a ha => ih a ha (h3 a ha) (hl.2 a ha)).then _ ?_
      intro t ws S hlen
      obtain ⟨w, hw⟩ := execFn_pushes hc f ws S (by rw [hlen]; exact h2) (fun h => hl.1 (by rw [h]))
      exact ⟨w, by rw [execI, ← hlen, hw]; rfl⟩
  | @tfn f opts body _ _ _ iho ihb =>
    intro hw hl
    cases hw with
    | app _ h1 h2 h3 =>
      simp only [funs, List.mem_cons, not_or, funsL_mem, not_exists, not_and] at hl
      rw [codeOf_tfn]
      have hb := ihb (h3 body (by simp)) (hl.2 body (by simp))
      refine (Pushes.list fun a ha => iho a ha (h3 a (by simp [ha])) (hl.2 a (by simp [ha]))).then _ ?_
      intro t ws S hlen
      have hrun : ∀ u, ∃ v, result A (exec A E true (codeOf body) u []) = .ok v := by
        intro u
        rcases hb u [] with h | ⟨ws, hl, h⟩
        · exact ⟨_, by rw [h]; rfl⟩
        · match ws, hl with
          | [w], _ => exact ⟨w, by rw [h]; rfl⟩
      obtain ⟨w, hw⟩ := execTfn_pushes hc (run := fun u => result A (exec A E true (codeOf body) u [])) hrun f ws S t
        (by rw [hlen]; simpa using h2)
      exact ⟨w, by rw [execI, ← hlen, hw]; rfl⟩

/-- The code of an accepted text never pops an empty stack and leaves exactly one value on any stack (or stops
with NA at a missing coefficient), for every state of the workspaces.  Excluded: `lcount`, and what `Good`
excludes.  Conversions of numbers to integers are taken to be defined. -/
theorem C25_one_value_partial (A : Arith F) (E : Env F) (hc : Casts A) {ts : List Tok} {as : List Atom}
    (h : compile [] ts = .ok as) : ∃ e, ReadsExt ts e ∧ as = atomsOf e ∧
      (Good e → Fun.fn .lcount ∉ funs e → build as = .ok (codeOf e) ∧ ∀ t S,
        exec A E true (codeOf e) t S = .ok none ∨ ∃ w, exec A E true (codeOf e) t S = .ok (some (w :: S))) := by
  obtain ⟨e, he, rfl⟩ := compile_inv h
  refine ⟨e, he, rfl, fun hg hl => ⟨hg.build, fun t S => ?_⟩⟩
  rcases pushes_one hc hg (he.wf e (by simp)) hl t S with h | ⟨ws, hl, h⟩
  · exact .inl h
  · match ws, hl with
    | [w], _ => exact .inr ⟨w, h⟩

/-! ## Counterexamples -/

/-- `A +` is rejected and leaves its operator behind; then `B` compiles to `B +` and its execution pops an
empty stack. -/
theorem C25_leftover_counterexample :
    compile [] [.var (nm 'A'), .op .plus] = .err [.op .plus] ∧
    compile [.op .plus] [.var (nm 'B')] = .ok [.var (nm 'B') 0 none, .op .plus] ∧
    evalText exArith exEnv [.op .plus] [.var (nm 'B')] 3 = .ub := by decide +kernel

/-- After `(` was rejected, `A)+(B` is accepted. -/
theorem C25_leftover_parenthesis_counterexample :
    compile [] [.openp] = .err [.openp] ∧
    depth 0 [.var (nm 'A'), .closep, .op .plus, .openp, .var (nm 'B')] = none ∧
    ∃ as, compile [.openp] [.var (nm 'A'), .closep, .op .plus, .openp, .var (nm 'B')] = .ok as :=
  ⟨by decide +kernel, by decide +kernel, _, by rfl⟩

/-- After `-(A` was rejected, the formula `B` has the value of `-B`. -/
theorem C25_leftover_wrong_value_counterexample :
    compile [] [.op .minus, .openp, .var (nm 'A')] = .err [.openp, .fun (.fn .uminus) 1] ∧
    evalText exArith exEnv [.openp, .fun (.fn .uminus) 1] [.var (nm 'B')] 3 = .ok (some (-6)) ∧
    evalText exArith exEnv [] [.var (nm 'B')] 3 = .ok (some 6) := by decide +kernel

/-- `()` and `(A,B)` read the last element of an empty vector. -/
theorem C25_undefined_counterexample :
    compile [] [.ocpar] = .ub ∧
    compile [] [.openp, .var (nm 'A'), .comma, .var (nm 'B'), .closep] = .ub := by decide +kernel

/-- What follows a semicolon is never looked at. -/
theorem C25_semicolon_counterexample :
    evalText exArith exEnv [] [.var (nm 'B'), .eoe, .closep, .op .plus, .closeb] 3 = .ok (some 6) := by
  decide +kernel

/-- `lcount(A,B)` leaves three values on the stack. -/
theorem C25_lcount_counterexample :
    ∃ as code, compile [] [.fun (.fn .lcount), .openp, .var (nm 'A'), .comma, .var (nm 'B'), .closep] = .ok as ∧
      build as = .ok code ∧ exec exArith exEnv true code 3 [] = .ok (some [some 2, some 6, some 13]) :=
  ⟨_, _, by rfl, by rfl, by decide +kernel⟩

/-! ## The hypotheses are met -/

example : Casts exArith → False := by
  intro h
  obtain ⟨n, hn⟩ := h.toInt none
  cases hn

/-- An arithmetic in which every cast is defined. -/
def exArithTotal : Arith (Option Int) := { exArith with toInt := fun x => some (x.getD 0) }

example : Casts exArithTotal := ⟨fun x => ⟨_, rfl⟩, fun x => ⟨_, rfl⟩⟩
example : ∃ as, compile [] (group exText) = .ok as := ⟨_, exText_reads.compile⟩
example : Good exTree ∧ Fun.fn .lcount ∉ funs exTree := ⟨exTree_simple.good, by decide⟩
example : shapes true [.var (nm 'A'), .var (nm 'B')] = none ∧ shapes true [.op .times] = none ∧
    shapes true [.var (nm 'A'), .op .plus] = some true := by decide +kernel
example : depth 0 [.openp, .var (nm 'A')] = some 1 := by decide +kernel

end Iode.Lec
