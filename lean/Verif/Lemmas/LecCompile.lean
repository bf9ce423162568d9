import Verif.Spec.Lec

/-!
# The compiler follows the grammar

Every text of the grammar compiles, and its elements are those of its tree in postfix order.
-/
namespace Iode.Lec

mutual
/-- The elements of a tree in postfix order. -/
def atomsOf : Expr → List Atom
  | .cst k => [.cst k]
  | .val v => [.val v]
  | .var x l p => [.var x l p]
  | .coef x => [.coef x]
  | .par e => .openp :: (atomsOf e ++ [.closep])
  | .bin o a b => atomsOf a ++ (atomsOf b ++ [.op o])
  | .app f args => atomsOfL args ++ [.fun f args.length]
/-- The same for a list of trees. -/
def atomsOfL : List Expr → List Atom
  | [] => []
  | e :: es => atomsOf e ++ atomsOfL es
end

theorem atomsOfL_append (as bs : List Expr) : atomsOfL (as ++ bs) = atomsOfL as ++ atomsOfL bs := by
  induction as with
  | nil => simp [atomsOfL]
  | cons a as ih => simp [atomsOfL, ih]

theorem atomsOfL_single (e : Expr) : atomsOfL [e] = atomsOf e := by simp [atomsOfL]

/-- The effect of a change of dating on one element. -/
def mapAtom (g : Int → Option Period → Int × Option Period) : Atom → Atom
  | .var x l p => .var x (g l p).1 (g l p).2
  | a => a

theorem lagAtom_eq (k : Int) : lagAtom k = mapAtom (Expr.lagV k) := by
  funext a
  cases a with
  | var x l p => cases p <;> rfl
  | _ => rfl

theorem dateAtom_eq (p : Period) : dateAtom p = mapAtom (Expr.dateV p) := by
  funext a
  cases a with
  | var x l p => cases p <;> rfl
  | _ => rfl

theorem mapVarL_eq (g) (es : List Expr) : Expr.mapVarL g es = es.map (Expr.mapVar g) := by
  induction es with
  | nil => simp [Expr.mapVarL]
  | cons e es ih => simp [Expr.mapVarL, ih]

theorem atomsOf_mapVar (g) : ∀ e : Expr, atomsOf (e.mapVar g) = (atomsOf e).map (mapAtom g) := by
  intro e
  induction e using Expr.ind with
  | hc k => simp [Expr.mapVar, atomsOf, mapAtom]
  | hv k => simp [Expr.mapVar, atomsOf, mapAtom]
  | hx x l p => simp [Expr.mapVar, atomsOf, mapAtom]
  | hs x => simp [Expr.mapVar, atomsOf, mapAtom]
  | hp e ih => simp [Expr.mapVar, atomsOf, mapAtom, ih]
  | hb o a b iha ihb => simp [Expr.mapVar, atomsOf, mapAtom, iha, ihb]
  | ha f args ih =>
    simp only [Expr.mapVar, atomsOf, mapVarL_eq, List.length_map, List.map_append, List.map_cons,
      List.map_nil, mapAtom]
    congr 1
    induction args with
    | nil => simp [atomsOfL]
    | cons a as iha =>
      simp only [List.map_cons, atomsOfL, List.map_append]
      rw [ih a (by simp), iha (fun x hx => ih x (by simp [hx]))]

/-! ## Sub-expressions -/

/-- Parentheses are balanced. -/
inductive Bal : List Atom → Prop where
  | nil : Bal []
  | one (a : Atom) : a ≠ .openp → a ≠ .closep → Bal [a]
  | append {l m} : Bal l → Bal m → Bal (l ++ m)
  | par {l} : Bal l → Bal (.openp :: (l ++ [.closep]))

/-- A value or a parenthesised expression. -/
inductive PrimL : List Atom → Prop where
  | one (a : Atom) : a ≠ .openp → a ≠ .closep → (∀ o, a ≠ .op o) → (∀ f n, a ≠ .fun f n) → PrimL [a]
  | par {l} : Bal l → PrimL (.openp :: (l ++ [.closep]))

theorem mapAtom_openp (g) (a : Atom) : mapAtom g a = .openp ↔ a = .openp := by
  cases a <;> simp [mapAtom]

theorem mapAtom_closep (g) (a : Atom) : mapAtom g a = .closep ↔ a = .closep := by
  cases a <;> simp [mapAtom]

theorem Bal.map (g) {l : List Atom} (h : Bal l) : Bal (l.map (mapAtom g)) := by
  induction h with
  | nil => exact .nil
  | one a h1 h2 => exact .one _ (by simpa [mapAtom_openp] using h1) (by simpa [mapAtom_closep] using h2)
  | append _ _ ih1 ih2 => rw [List.map_append]; exact .append ih1 ih2
  | par _ ih =>
    simp only [List.map_cons, List.map_append, List.map_nil, mapAtom]
    exact .par ih

theorem PrimL.map (g) {l : List Atom} (h : PrimL l) : PrimL (l.map (mapAtom g)) := by
  cases h with
  | one a h1 h2 h3 h4 =>
    refine .one _ (by simpa [mapAtom_openp] using h1) (by simpa [mapAtom_closep] using h2) ?_ ?_
    · intro o; cases a <;> simp [mapAtom] at * <;> exact h3 o
    · intro f n; cases a <;> simp [mapAtom] at * <;> exact h4 f n
  | par hb =>
    simp only [List.map_cons, List.map_append, List.map_nil, mapAtom]
    exact .par (hb.map g)

theorem PrimL.bal {l : List Atom} (h : PrimL l) : Bal l := by
  cases h with
  | one a h1 h2 _ _ => exact .one a h1 h2
  | par hb => exact .par hb

theorem bal_atomsOf : ∀ e : Expr, Bal (atomsOf e) := by
  intro e
  induction e using Expr.ind with
  | hc k => exact .one _ (by simp) (by simp)
  | hv k => exact .one _ (by simp) (by simp)
  | hx x l p => exact .one _ (by simp) (by simp)
  | hs x => exact .one _ (by simp) (by simp)
  | hp e ih => rw [atomsOf]; exact .par ih
  | hb o a b iha ihb => rw [atomsOf]; exact .append iha (.append ihb (.one _ (by simp) (by simp)))
  | ha f args ih =>
    rw [atomsOf]
    refine .append ?_ (.one _ (by simp) (by simp))
    induction args with
    | nil => simpa [atomsOfL] using Bal.nil
    | cons a as iha =>
      rw [atomsOfL]
      exact .append (ih a (by simp)) (iha (fun x hx => ih x (by simp [hx])))

theorem bal_atomsOfL (es : List Expr) : Bal (atomsOfL es) := by
  induction es with
  | nil => simpa [atomsOfL] using Bal.nil
  | cons a as ih => rw [atomsOfL]; exact .append (bal_atomsOf a) ih

theorem Res.bind_add (r : Res Nat) (a b : Nat) :
    ((r.bind fun k => .ok (k + a)).bind fun k => Res.ok (k + b)) = r.bind fun k => .ok (k + (a + b)) := by
  cases r <;> simp [Res.bind, Nat.add_assoc]

/-- Inside parentheses a balanced list is skipped. -/
theorem sub_bal {l : List Atom} (h : Bal l) : ∀ fuel r d,
    sub (l.length + fuel) (l.reverse ++ r) (d + 1)
      = (sub fuel r (d + 1)).bind fun k => .ok (k + l.length) := by
  induction h with
  | nil =>
    intro fuel r d
    simp only [List.length_nil, Nat.zero_add, List.reverse_nil, List.nil_append, Nat.add_zero]
    cases sub fuel r (d + 1) <;> rfl
  | one a h1 h2 =>
    intro fuel r d
    have : [a].length + fuel = fuel + 1 := by simp; omega
    rw [this]
    cases a with
    | openp => exact absurd rfl h1
    | closep => exact absurd rfl h2
    | _ => simp [sub]
  | @append l m _ _ ih1 ih2 =>
    intro fuel r d
    have h : (l ++ m).length + fuel = m.length + (l.length + fuel) := by simp; omega
    rw [h, List.reverse_append, List.append_assoc, ih2, ih1, Res.bind_add]
    simp
  | @par l _ ih =>
    intro fuel r d
    have h : (Atom.openp :: (l ++ [.closep])).length + fuel = (l.length + (fuel + 1)) + 1 := by simp; omega
    have h' : (Atom.openp :: (l ++ [.closep])).reverse ++ r = .closep :: (l.reverse ++ (.openp :: r)) := by
      simp
    rw [h, h', sub, ih, sub, Res.bind_add, Res.bind_add]
    · simp only [List.length_cons, List.length_append, List.length_nil]
      congr 1
      funext k
      congr 1
      omega

/-- The last sub-expression of a list that ends with a value or a parenthesised expression. -/
theorem sub_prim {l : List Atom} (h : PrimL l) (fuel : Nat) (r : List Atom) :
    sub (l.length + fuel) (l.reverse ++ r) 0 = .ok l.length := by
  cases h with
  | one a h1 h2 h3 h4 =>
    have : [a].length + fuel = fuel + 1 := by simp; omega
    rw [this]
    cases a with
    | openp => exact absurd rfl h1
    | closep => exact absurd rfl h2
    | op o => exact absurd rfl (h3 o)
    | «fun» f n => exact absurd rfl (h4 f n)
    | _ => simp [sub]
  | @par l hb =>
    have h : (Atom.openp :: (l ++ [.closep])).length + fuel = (l.length + (fuel + 1)) + 1 := by simp; omega
    have h' : (Atom.openp :: (l ++ [.closep])).reverse ++ r = .closep :: (l.reverse ++ (.openp :: r)) := by
      simp
    rw [h, h', sub, sub_bal hb, sub]
    simp [Res.bind]
    omega

theorem subLast_prim {l : List Atom} (h : PrimL l) (out : List Atom) :
    subLast (out ++ l) = .ok l.length := by
  unfold subLast
  have := sub_prim h out.length out.reverse
  rw [← this]
  simp [Nat.add_comm]

theorem PrimL.ne_nil {l : List Atom} (h : PrimL l) : l ≠ [] := by cases h <;> simp

/-- A bracket changes the operand in front of it. -/
theorem mapLast_prim (g : Atom → Atom) {l : List Atom} (h : PrimL l) (st : St) (out : List Atom)
    (ho : st.out = out ++ l) : mapLast g st = .ok { st with out := out ++ l.map g } := by
  unfold mapLast
  rw [if_neg (by rw [ho]; simp [h.ne_nil]), ho, subLast_prim h]
  simp

/-! ## The run -/

/-- Element for an entry of the stack of operators. -/
def entAtom : Entry → Atom
  | .op o => .op o
  | .fun f n => .fun f n
  | .openp => .openp

/-- Entries left by an expression of level `p`. -/
def PendOk (p : Nat) (e : Entry) : Prop :=
  (∃ f n, e = .fun f n ∧ f.arityOk n = true) ∨ (∃ o, e = .op o ∧ p ≤ o.prior)

theorem PendOk.mono {p q : Nat} {e : Entry} (h : PendOk p e) (hq : q ≤ p) : PendOk q e := by
  rcases h with ⟨f, n, h⟩ | ⟨o, h, hp⟩
  · exact .inl ⟨f, n, h⟩
  · exact .inr ⟨o, h, by omega⟩

theorem saveOp_ok {p : Nat} {e : Entry} (h : PendOk p e) (rest : List Entry) (out : List Atom) :
    saveOp e rest out = .ok (out ++ [entAtom e]) := by
  rcases h with ⟨f, n, rfl, h⟩ | ⟨o, rfl, _⟩
  · simp [saveOp, h, entAtom]
  · simp [saveOp, entAtom]

theorem popWhile_pend {o : Op} {ops : List Entry} (hops : ∀ e r, ops = e :: r → prioSup o e = false) :
    ∀ pend, (∀ e ∈ pend, PendOk o.prior e) → ∀ out,
      popWhile o (pend ++ ops) out = .ok (ops, out ++ pend.map entAtom)
  | [], _, out => by
    cases ops with
    | nil => simp [popWhile]
    | cons e r => simp [popWhile, hops e r rfl]
  | e :: pend, h, out => by
    have he := h e (by simp)
    have hp : prioSup o e = true := by
      rcases he with ⟨f, n, rfl, _⟩ | ⟨o', rfl, hle⟩
      · rfl
      · simp [prioSup, hle]
    rw [List.cons_append, popWhile, if_pos hp, saveOp_ok he, CRes.bind,
      popWhile_pend hops pend (fun x hx => h x (by simp [hx]))]
    simp

theorem closeLoop_pend {p : Nat} {rest : List Entry} : ∀ pend, (∀ e ∈ pend, PendOk p e) → ∀ out,
      closeLoop (pend ++ .openp :: rest) out = .ok (rest, out ++ pend.map entAtom ++ [.closep])
  | [], _, out => by simp [closeLoop]
  | e :: pend, h, out => by
    have he := h e (by simp)
    have hne : e ≠ .openp := by
      rcases he with ⟨f, n, rfl, _⟩ | ⟨o', rfl, hle⟩ <;> simp
    rw [List.cons_append, closeLoop, saveOp_ok he, CRes.bind,
      closeLoop_pend pend (fun x hx => h x (by simp [hx]))]
    · simp
    · exact hne

theorem flush_pend {p : Nat} : ∀ pend, (∀ e ∈ pend, PendOk p e) → ∀ out,
      flush pend out = .ok (out ++ pend.map entAtom)
  | [], _, out => by simp [flush]
  | e :: pend, h, out => by
    have he := h e (by simp)
    rw [flush, saveOp_ok he, CRes.bind, flush_pend pend (fun x hx => h x (by simp [hx]))]
    simp

/-- Entries below that an expression of level `p` does not touch. -/
def Block (p : Nat) (ops : List Entry) : Prop :=
  8 ≤ p ∨ ops = [] ∨ (∃ r, ops = .openp :: r) ∨ (∃ o r, ops = .op o :: r ∧ o.prior < p)

theorem Block.mono {p q : Nat} {ops : List Entry} (h : Block p ops) (hq : p ≤ q) : Block q ops := by
  rcases h with h | h | h | ⟨o, r, h, hp⟩
  · exact .inl (by omega)
  · exact .inr (.inl h)
  · exact .inr (.inr (.inl h))
  · exact .inr (.inr (.inr ⟨o, r, h, by omega⟩))

theorem Op.prior_bounds (o : Op) : 2 ≤ o.prior ∧ o.prior ≤ 7 := by cases o <;> simp [Op.prior]

theorem Block.prioSup {o : Op} {ops : List Entry} (h : Block o.prior ops) :
    ∀ e r, ops = e :: r → prioSup o e = false := by
  intro e r he
  rcases h with h | h | ⟨r', h⟩ | ⟨o', r', h, hp⟩
  · have := o.prior_bounds; omega
  · rw [h] at he; cases he
  · rw [h] at he; cases he; rfl
  · rw [h] at he; cases he; simp [Lec.prioSup]; omega

theorem run_append (ts us : List Tok) : ∀ st, run st (ts ++ us) = (run st ts).bind fun st => run st us := by
  induction ts with
  | nil => intro st; rfl
  | cons t ts ih =>
    intro st
    rw [List.cons_append, run, run]
    cases step st t with
    | ok a => simp [CRes.bind]; exact ih a
    | err o => rfl
    | ub => rfl

/-- What the run over a piece of text does. -/
def Does : Kind → List Tok → List Expr → Prop
  | .lev p, ts, es => ∃ e, es = [e] ∧ ∀ ops out par, Block p ops →
      ∃ pend o', run ⟨ops, out, true, par⟩ ts = .ok ⟨pend ++ ops, out ++ o', false, par⟩
        ∧ (∀ x ∈ pend, PendOk p x) ∧ o' ++ pend.map entAtom = atomsOf e
        ∧ (9 ≤ p → pend = [] ∧ PrimL o')
  | .args, ts, es => es ≠ [] ∧ (∃ es' e, es = es' ++ [.par e]) ∧ ∀ f n ops out par,
      ∃ pend o', run ⟨.fun f n :: ops, out, true, par⟩ ts
          = .ok ⟨pend ++ .openp :: .fun f (n + es.length - 1) :: ops, out ++ o', false, par + 1⟩
        ∧ (∀ x ∈ pend, PendOk 0 x) ∧ o' ++ pend.map entAtom ++ [.closep] = atomsOfL es
  | .call, ts, es => ∃ f es' e, es = [.app f (es' ++ [e])] ∧ f.arityOk (es'.length + 1) = true
      ∧ PrimL (atomsOf e) ∧ ∀ ops out par, run ⟨ops, out, true, par⟩ ts
          = .ok ⟨.fun f (es'.length + 1) :: ops, out ++ (atomsOfL es' ++ atomsOf e), false, par⟩

theorem does_value {p : Nat} (t : Tok) (a : Atom) (e : Expr) (hs : ∀ st, step st t = value a st)
    (ha : atomsOf e = [a]) (hp : PrimL [a]) : Does (.lev p) [t] [e] := by
  refine ⟨e, rfl, fun ops out par _ => ⟨[], [a], ?_, by simp, by simp [ha], fun _ => ⟨rfl, hp⟩⟩⟩
  simp [run, hs, value, CRes.bind]

theorem does_un {ts : List Tok} {e : Expr} (t : Tok) (f : Fun)
    (hs : ∀ st : St, st.beg = true → step st t = pushFun f st) (hf : f.arityOk 1 = true)
    (ih : Does (.lev 8) ts [e]) : Does (.lev 8) (t :: ts) [.app f [e]] := by
  obtain ⟨e', he, ih⟩ := ih
  cases he
  refine ⟨_, rfl, fun ops out par _ => ?_⟩
  obtain ⟨pend, o', hr, hpd, hat, _⟩ := ih (.fun f 1 :: ops) out par (.inl (by omega))
  refine ⟨pend ++ [.fun f 1], o', ?_, ?_, ?_, by omega⟩
  · rw [run, hs _ rfl]
    simp [pushFun, CRes.bind, hr]
  · intro x hx
    rcases List.mem_append.1 hx with hx | hx
    · exact hpd x hx
    · simp at hx; exact .inl ⟨f, 1, hx, hf⟩
  · simp [atomsOf, atomsOfL, ← hat, entAtom]

theorem G.does {ext : Bool} {k : Kind} {ts : List Tok} {es : List Expr} (h : G ext k ts es) :
    Does k ts es := by
  induction h with
  | cst k => exact does_value _ (.cst k) _ (fun _ => rfl) rfl (.one _ (by simp) (by simp) (by simp) (by simp))
  | val v => exact does_value _ (.val v) _ (fun _ => rfl) rfl (.one _ (by simp) (by simp) (by simp) (by simp))
  | var x => exact does_value _ (.var x 0 none) _ (fun _ => rfl) rfl (.one _ (by simp) (by simp) (by simp) (by simp))
  | coef x => exact does_value _ (.coef x) _ (fun _ => rfl) rfl (.one _ (by simp) (by simp) (by simp) (by simp))
  | @par ts e _ ih =>
    obtain ⟨e', he, ih⟩ := ih
    cases he
    refine ⟨_, rfl, fun ops out par _ => ?_⟩
    obtain ⟨pend, o', hr, hpd, hat, _⟩ :=
      ih (.openp :: ops) (out ++ [.openp]) (par + 1) (.inr (.inr (.inl ⟨ops, rfl⟩)))
    refine ⟨[], .openp :: (o' ++ pend.map entAtom ++ [.closep]), ?_, by simp, ?_, ?_⟩
    · rw [run]
      simp only [step, openPar, if_true, CRes.bind]
      rw [run_append, hr]
      simp only [CRes.bind, run, step, closePar]
      rw [if_neg (by simp), closeLoop_pend pend hpd]
      simp [CRes.bind]
    · simp [atomsOf, hat]
    · intro _
      refine ⟨rfl, ?_⟩
      rw [hat]; exact .par (bal_atomsOf _)
  | @lag ts e k _ ih =>
    obtain ⟨e', he, ih⟩ := ih
    cases he
    refine ⟨_, rfl, fun ops out par hb => ?_⟩
    obtain ⟨pend, o', hr, hpd, hat, hp⟩ := ih ops out par hb
    obtain ⟨rfl, hpr⟩ := hp (by omega)
    refine ⟨[], o'.map (lagAtom k), ?_, by simp, ?_, fun _ => ⟨rfl, by rw [lagAtom_eq]; exact hpr.map _⟩⟩
    · rw [run_append, hr]
      simp only [CRes.bind, run, step, bracket]
      rw [if_neg (by simp), mapLast_prim _ hpr _ out rfl]
    · rw [Expr.shift, atomsOf_mapVar, ← hat, lagAtom_eq]; simp
  | @date ts e p _ ih =>
    obtain ⟨e', he, ih⟩ := ih
    cases he
    refine ⟨_, rfl, fun ops out par hb => ?_⟩
    obtain ⟨pend, o', hr, hpd, hat, hp⟩ := ih ops out par hb
    obtain ⟨rfl, hpr⟩ := hp (by omega)
    refine ⟨[], o'.map (dateAtom p), ?_, by simp, ?_, fun _ => ⟨rfl, by rw [dateAtom_eq]; exact hpr.map _⟩⟩
    · rw [run_append, hr]
      simp only [CRes.bind, run, step, bracket]
      rw [if_neg (by simp), mapLast_prim _ hpr _ out rfl]
    · rw [Expr.dated, atomsOf_mapVar, ← hat, dateAtom_eq]; simp
  | @up n ts es _ ih =>
    obtain ⟨e, he, ih⟩ := ih
    refine ⟨e, he, fun ops out par hb => ?_⟩
    obtain ⟨pend, o', hr, hpd, hat, hp⟩ := ih ops out par (hb.mono (by omega))
    exact ⟨pend, o', hr, fun x hx => (hpd x hx).mono (by omega), hat, fun h => hp (by omega)⟩
  | @minus ts e _ ih =>
    exact does_un _ (.fn .uminus) (fun st h => by simp [step, operator, h]) (by rfl) ih
  | @plus ts e _ ih =>
    exact does_un _ (.fn .uplus) (fun st h => by simp [step, operator, h]) (by rfl) ih
  | @un ts e f hf _ ih =>
    exact does_un _ f (fun st h => rfl) hf ih
  | @bin ts us a b o _ _ ih1 ih2 =>
    obtain ⟨a', ha, ih1⟩ := ih1
    obtain ⟨b', hb', ih2⟩ := ih2
    cases ha; cases hb'
    refine ⟨_, rfl, fun ops out par hb => ?_⟩
    obtain ⟨pend, o', hr, hpd, hat, hp⟩ := ih1 ops out par hb
    obtain ⟨pend2, o2, hr2, hpd2, hat2, hp2⟩ := ih2 (.op o :: ops) (out ++ atomsOf a) par
      (.inr (.inr (.inr ⟨o, ops, rfl, by omega⟩)))
    have h7 := o.prior_bounds
    refine ⟨pend2 ++ [.op o], atomsOf a ++ o2, ?_, ?_, ?_, by omega⟩
    · rw [run_append, hr]
      simp only [CRes.bind, run, step, operator]
      rw [if_neg (by simp), popWhile_pend hb.prioSup pend hpd]
      simp only [CRes.bind]
      rw [List.append_assoc, hat, hr2]
      simp
    · intro x hx
      rcases List.mem_append.1 hx with hx | hx
      · exact (hpd2 x hx).mono (by omega)
      · simp at hx; exact .inr ⟨o, hx, by omega⟩
    · simp [atomsOf, ← hat2, entAtom]
  | @arg1 ts e _ ih =>
    obtain ⟨e', he, ih⟩ := ih
    cases he
    refine ⟨by simp, ⟨[], e, rfl⟩, fun f n ops out par => ?_⟩
    obtain ⟨pend, o', hr, hpd, hat, _⟩ :=
      ih (.openp :: .fun f n :: ops) (out ++ [.openp]) (par + 1) (.inr (.inr (.inl ⟨_, rfl⟩)))
    refine ⟨pend, .openp :: o', ?_, hpd, ?_⟩
    · rw [run]
      simp only [step, openPar, if_true, CRes.bind]
      rw [hr]
      simp
    · simp [atomsOfL, atomsOf, ← hat]
  | @argN ts us es e _ _ ih1 ih2 =>
    obtain ⟨hne, _, ih1⟩ := ih1
    obtain ⟨e', he, ih2⟩ := ih2
    cases he
    refine ⟨by simp, ⟨es, e, rfl⟩, fun f n ops out par => ?_⟩
    obtain ⟨pend, o', hr, hpd, hat⟩ := ih1 f n ops out par
    obtain ⟨pend2, o2, hr2, hpd2, hat2, _⟩ :=
      ih2 (.openp :: .fun f (n + es.length - 1 + 1) :: ops) (out ++ atomsOfL es ++ [.openp]) (par + 1)
        (.inr (.inr (.inl ⟨_, rfl⟩)))
    refine ⟨pend2, atomsOfL es ++ (.openp :: o2), ?_, hpd2, ?_⟩
    · rw [run_append, hr]
      simp only [CRes.bind, run, step, commaStep]
      rw [if_neg (by simp), closeLoop_pend pend hpd]
      simp only [CRes.bind]
      have h1 : out ++ o' ++ pend.map entAtom ++ [.closep] = out ++ atomsOfL es := by
        rw [← hat]; simp
      rw [h1, hr2]
      have hl : 0 < es.length := List.length_pos_iff.2 hne
      have h2 : n + es.length - 1 + 1 = n + (es ++ [Expr.par e]).length - 1 := by simp; omega
      rw [h2]
      simp
    · simp [atomsOfL_append, atomsOfL, atomsOf, ← hat2]
  | @call ts es f h2 hf _ ih =>
    obtain ⟨hne, ⟨es', e, rfl⟩, ih⟩ := ih
    refine ⟨f, es', .par e, rfl, by simpa using hf, ?_, fun ops out par => ?_⟩
    · rw [atomsOf]; exact .par (bal_atomsOf e)
    · obtain ⟨pend, o', hr, hpd, hat⟩ := ih f 1 ops out par
      rw [run]
      simp only [step, pushFun, if_true, CRes.bind]
      rw [run_append, hr]
      simp only [CRes.bind, run, step, closePar]
      rw [if_neg (by simp), closeLoop_pend pend hpd]
      have h1 : out ++ o' ++ pend.map entAtom ++ [.closep] = out ++ (atomsOfL es' ++ atomsOf (.par e)) := by
        rw [← atomsOfL_single (.par e), ← atomsOfL_append, ← hat]; simp
      simp only [CRes.bind, h1]
      simp
  | @ofCall ts es _ ih =>
    obtain ⟨f, es', e, rfl, hf, hpr, ih⟩ := ih
    refine ⟨_, rfl, fun ops out par _ => ⟨[.fun f (es'.length + 1)], atomsOfL es' ++ atomsOf e, ?_, ?_, ?_, by omega⟩⟩
    · rw [ih]; rfl
    · intro x hx
      simp at hx
      exact .inl ⟨f, _, hx, hf⟩
    · simp [atomsOf, atomsOfL_append, atomsOfL, entAtom]
  | @callLag ts f es e k _ _ ih =>
    obtain ⟨f', es', e', he, hf, hpr, ih⟩ := ih
    simp only [List.cons.injEq, Expr.app.injEq, and_true] at he
    obtain ⟨rfl, he⟩ := he
    obtain ⟨rfl, hee⟩ := List.append_inj' he rfl
    obtain rfl : e = e' := by simpa using hee
    refine ⟨f, es, e.shift k, rfl, hf, ?_, fun ops out par => ?_⟩
    · rw [Expr.shift, atomsOf_mapVar]; exact hpr.map _
    · rw [run_append, ih]
      simp only [CRes.bind, run, step, bracket]
      rw [if_neg (by simp), mapLast_prim _ hpr _ (out ++ atomsOfL es) (by simp)]
      simp [CRes.bind, Expr.shift, atomsOf_mapVar, lagAtom_eq]
  | @callDate ts f es e p _ _ ih =>
    obtain ⟨f', es', e', he, hf, hpr, ih⟩ := ih
    simp only [List.cons.injEq, Expr.app.injEq, and_true] at he
    obtain ⟨rfl, he⟩ := he
    obtain ⟨rfl, hee⟩ := List.append_inj' he rfl
    obtain rfl : e = e' := by simpa using hee
    refine ⟨f, es, e.dated p, rfl, hf, ?_, fun ops out par => ?_⟩
    · rw [Expr.dated, atomsOf_mapVar]; exact hpr.map _
    · rw [run_append, ih]
      simp only [CRes.bind, run, step, bracket]
      rw [if_neg (by simp), mapLast_prim _ hpr _ (out ++ atomsOfL es) (by simp)]
      simp [CRes.bind, Expr.dated, atomsOf_mapVar, dateAtom_eq]

theorem G.ne_nil {ext : Bool} {k : Kind} {ts : List Tok} {es : List Expr} (h : G ext k ts es) :
    ts ≠ [] := by
  induction h <;> simp_all

/-- A text of the grammar compiles to the postfix form of its tree, when the stack of operators is
empty at the start. -/
theorem G.compile {ext : Bool} {ts : List Tok} {e : Expr} (h : G ext (.lev 0) ts [e]) :
    compile [] ts = .ok (atomsOf e) := by
  obtain ⟨e', he, hd⟩ := h.does
  cases he
  obtain ⟨pend, o', hr, hpd, hat, _⟩ := hd [] [] 0 (.inr (.inl rfl))
  unfold Lec.compile
  rw [if_neg h.ne_nil, hr]
  simp only [CRes.bind, finish, List.append_nil, List.nil_append]
  rw [if_neg (by simp), if_neg (by simp), flush_pend pend hpd, hat]

end Iode.Lec
