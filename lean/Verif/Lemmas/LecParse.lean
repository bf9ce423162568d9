import Verif.Lemmas.LecCompile

/-!
# Everything that compiles is in the grammar

Invariant of the run of the compiler from an empty stack of operators.
-/
namespace Iode.Lec

/-- The token that puts a function on the stack. -/
inductive TokFor : Tok → Fun → Prop where
  | fn (f : Fun) : TokFor (.fun f) f
  | minus : TokFor (.op .minus) (.fn .uminus)
  | plus : TokFor (.op .plus) (.fn .uplus)

/-- States in which an operand is expected: the text read, the stack of operators and the elements. -/
inductive Ctx : List Tok → List Entry → List Atom → Prop where
  | nil : Ctx [] [] []
  | op {ts ops out us e} (o : Op) : Ctx ts ops out → Block o.prior ops → G true (.lev o.prior) us [e] →
      Ctx (ts ++ (us ++ [.op o])) (.op o :: ops) (out ++ atomsOf e)
  | fn {ts ops out t f} : Ctx ts ops out → TokFor t f → Ctx (ts ++ [t]) (.fun f 1 :: ops) out
  | opn {ts ops out} : Ctx ts ops out → Ctx (ts ++ [.openp]) (.openp :: ops) (out ++ [.openp])
  | comma {ts ops out us es t f} : Ctx ts ops out → TokFor t f → G true .args us es →
      Ctx (ts ++ (t :: us ++ [.comma])) (.openp :: .fun f (es.length + 1) :: ops)
        (out ++ (atomsOfL es ++ [.openp]))

/-- A call with several arguments whose number is not checked yet. -/
inductive PC (t : Tok) : List Tok → List Expr → Prop where
  | mk {us es} : G true .args us es → 2 ≤ es.length → PC t (t :: (us ++ [.closep])) es
  | lag {us es e} (k : Int) : PC t us (es ++ [e]) → PC t (us ++ [.lag k]) (es ++ [e.shift k])
  | date {us es e} (p : Period) : PC t us (es ++ [e]) → PC t (us ++ [.date p]) (es ++ [e.dated p])

theorem PC.len {t us es} (h : PC t us es) : 2 ≤ es.length := by
  induction h with
  | mk _ h => exact h
  | lag k _ ih => simpa using ih
  | date p _ ih => simpa using ih

theorem PC.last {t us es} (h : PC t us es) : ∃ es' e, es = es' ++ [e] ∧ PrimL (atomsOf e) := by
  induction h with
  | mk hg _ =>
    obtain ⟨_, ⟨es', e, rfl⟩, _⟩ := hg.does
    exact ⟨es', .par e, rfl, by rw [atomsOf]; exact .par (bal_atomsOf e)⟩
  | @lag us es e k _ ih =>
    obtain ⟨es', e', he, hp⟩ := ih
    obtain ⟨rfl, hee⟩ := List.append_inj' he rfl
    obtain rfl : e = e' := by simpa using hee
    exact ⟨es, _, rfl, by rw [Expr.shift, atomsOf_mapVar]; exact hp.map _⟩
  | @date us es e k _ ih =>
    obtain ⟨es', e', he, hp⟩ := ih
    obtain ⟨rfl, hee⟩ := List.append_inj' he rfl
    obtain rfl : e = e' := by simpa using hee
    exact ⟨es, _, rfl, by rw [Expr.dated, atomsOf_mapVar]; exact hp.map _⟩

theorem TokFor.of_two {t : Tok} {f : Fun} (h : TokFor t f) {n : Nat} (hn : 2 ≤ n)
    (ha : f.arityOk n = true) : t = .fun f := by
  cases h with
  | fn => rfl
  | minus =>
    have : n ≤ 1 := by
      have h1 : (decide ((1 : Nat) ≤ n) && decide (n ≤ 1)) = true := ha
      simp at h1; omega
    omega
  | plus =>
    have : n ≤ 1 := by
      have h1 : (decide ((1 : Nat) ≤ n) && decide (n ≤ 1)) = true := ha
      simp at h1; omega
    omega

theorem PC.call {f us es} (h : PC (.fun f) us es) (ha : f.arityOk es.length = true) :
    G true .call us [.app f es] := by
  induction h with
  | mk hg h2 => exact .call f h2 ha hg
  | @lag us es e k _ ih => exact .callLag k rfl (ih (by simpa using ha))
  | @date us es e k _ ih => exact .callDate k rfl (ih (by simpa using ha))

theorem G.prim {us e} (h : G true (.lev 9) us [e]) : PrimL (atomsOf e) := by
  obtain ⟨e', he, hd⟩ := h.does
  cases he
  obtain ⟨pend, o', _, _, hat, hp⟩ := hd [] [] 0 (.inl (by omega))
  obtain ⟨rfl, hp⟩ := hp (by omega)
  rw [← hat]
  simpa using hp

theorem G.down {ext us es} : ∀ {n m}, m ≤ n → G ext (.lev n) us es → G ext (.lev m) us es := by
  intro n
  induction n with
  | zero => intro m hm h; obtain rfl : m = 0 := by omega
            exact h
  | succ n ih =>
    intro m hm h
    rcases Nat.lt_or_ge m (n + 1) with hlt | hge
    · exact ih (by omega) (.up h)
    · obtain rfl : m = n + 1 := by omega
      exact h

/-- The text so far ends with an expression of level `q` that may be the operand of what is on top of
the stack. -/
def Fit (q : Nat) : List Entry → Prop
  | .op o :: _ => o.prior < q
  | .fun _ _ :: _ => 8 ≤ q
  | _ => True

theorem Fit.of_block {o : Op} {ops : List Entry} (h : Block o.prior ops) : Fit o.prior ops := by
  have := o.prior_bounds
  rcases h with h | h | ⟨r, h⟩ | ⟨o', r, h, hp⟩
  · omega
  · rw [h]; trivial
  · rw [h]; trivial
  · rw [h]; exact hp

theorem Fit.of_eight (ops : List Entry) {q : Nat} (hq : 8 ≤ q) : Fit q ops := by
  cases ops with
  | nil => trivial
  | cons e r =>
    cases e with
    | op o => have := o.prior_bounds; show o.prior < q; omega
    | «fun» f n => exact hq
    | openp => trivial

theorem TokFor.un {t f us e} (h : TokFor t f) (ha : f.arityOk 1 = true) (hg : G true (.lev 8) us [e]) :
    G true (.lev 8) (t :: us) [.app f [e]] := by
  cases h with
  | fn => exact .un f ha hg
  | minus => exact .minus hg
  | plus => exact .plus hg

theorem saveOp_fun {f n rest out r} (h : saveOp (.fun f n) rest out = .ok r) :
    f.arityOk n = true ∧ r = out ++ [.fun f n] := by
  unfold saveOp at h
  dsimp only at h
  split at h
  · rename_i ha; cases h; exact ⟨ha, rfl⟩
  · cases h

theorem CRes.bind_eq_ok {α β : Type} {x : CRes α} {f : α → CRes β} {b : β} (h : x.bind f = .ok b) :
    ∃ a, x = .ok a ∧ f a = .ok b := by
  cases x with
  | ok a => exact ⟨a, rfl, h⟩
  | err o => cases h
  | ub => cases h

theorem popWhile_inv {ts0 ops out0} (hc : Ctx ts0 ops out0) (o : Op) : ∀ {q us e ops' out'},
    G true (.lev q) us [e] → Fit q ops → o.prior ≤ q →
    popWhile o ops (out0 ++ atomsOf e) = .ok (ops', out') →
    ∃ ts1 us' e' out1, Ctx ts1 ops' out1 ∧ G true (.lev o.prior) us' [e'] ∧ Block o.prior ops'
      ∧ ts1 ++ us' = ts0 ++ us ∧ out' = out1 ++ atomsOf e' := by
  induction hc with
  | nil =>
    intro q us e ops' out' hg _ hq h
    cases h
    exact ⟨[], us, e, [], .nil, hg.down hq, .inr (.inl rfl), by simp, by simp⟩
  | @op ts ops out us' e' o' hc hb hg' ih =>
    intro q us e ops' out' hg hf hq h
    rw [popWhile] at h
    split at h
    · rename_i hs
      have hs' : o.prior ≤ o'.prior := by simpa [prioSup] using hs
      have hg2 : G true (.lev o'.prior) (us' ++ .op o' :: us) [.bin o' e' e] :=
        .bin o' hg' (hg.down (by have h0 := hf; simp only [Fit] at h0; omega))
      have h' : popWhile o ops (out ++ atomsOf (.bin o' e' e)) = .ok (ops', out') := by
        rw [← h]
        simp [saveOp, CRes.bind, atomsOf]
      obtain ⟨ts1, us1, e1, out1, h1, h2, h3, h4, h5⟩ := ih hg2 (Fit.of_block hb) hs' h'
      exact ⟨ts1, us1, e1, out1, h1, h2, h3, by rw [h4]; simp, h5⟩
    · rename_i hs
      cases h
      have hs' : o'.prior < o.prior := by simpa [prioSup] using hs
      exact ⟨_, us, e, _, .op o' hc hb hg', hg.down hq, .inr (.inr (.inr ⟨o', ops, rfl, hs'⟩)), rfl, rfl⟩
  | @fn ts ops out t f hc ht ih =>
    intro q us e ops' out' hg hf hq h
    rw [popWhile, if_pos (by rfl)] at h
    obtain ⟨r, hr, h⟩ := CRes.bind_eq_ok h
    obtain ⟨ha, rfl⟩ := saveOp_fun hr
    have hg2 : G true (.lev 8) (t :: us) [.app f [e]] := ht.un ha (hg.down (by have h0 := hf; simp only [Fit] at h0; omega))
    have hp := o.prior_bounds
    obtain ⟨ts1, us1, e1, out1, h1, h2, h3, h4, h5⟩ := ih hg2 (Fit.of_eight _ (by omega)) (by omega)
      (ops' := ops') (out' := out') (by rw [← h]; simp [atomsOf, atomsOfL])
    exact ⟨ts1, us1, e1, out1, h1, h2, h3, by rw [h4]; simp, h5⟩
  | @opn ts ops out hc ih =>
    intro q us e ops' out' hg _ hq h
    rw [popWhile, if_neg (by simp [prioSup])] at h
    cases h
    exact ⟨_, us, e, _, .opn hc, hg.down hq, .inr (.inr (.inl ⟨ops, rfl⟩)), rfl, rfl⟩
  | @comma ts ops out us' es t f hc ht hg' ih =>
    intro q us e ops' out' hg _ hq h
    rw [popWhile, if_neg (by simp [prioSup])] at h
    cases h
    exact ⟨_, us, e, _, .comma hc ht hg', hg.down hq, .inr (.inr (.inl ⟨_, rfl⟩)), rfl, rfl⟩

/-- What a closing parenthesis or a comma closes: a group, or one more argument of a call. -/
def Closed (ts : List Tok) (ops : List Entry) (out : List Atom) : Prop :=
  ∃ ts1 us e out1, G true (.lev 0) us [e] ∧
    ((Ctx ts1 ops out1 ∧ ts = ts1 ++ .openp :: us ∧ out = out1 ++ atomsOf (.par e)) ∨
     (∃ t f es vs ops0, Ctx ts1 ops0 out1 ∧ TokFor t f ∧ G true .args vs es ∧
        ops = .fun f (es.length + 1) :: ops0 ∧ ts = ts1 ++ (t :: vs ++ .comma :: us) ∧
        out = out1 ++ (atomsOfL es ++ atomsOf (.par e))))

theorem closeLoop_inv {ts0 ops out0} (hc : Ctx ts0 ops out0) : ∀ {q us e ops' out'},
    G true (.lev q) us [e] → Fit q ops →
    closeLoop ops (out0 ++ atomsOf e) = .ok (ops', out') → Closed (ts0 ++ us) ops' out' := by
  induction hc with
  | nil => intro q us e ops' out' _ _ h; cases h
  | @op ts ops out us' e' o' hc hb hg' ih =>
    intro q us e ops' out' hg hf h
    rw [closeLoop] at h
    · have hg2 : G true (.lev o'.prior) (us' ++ .op o' :: us) [.bin o' e' e] :=
        .bin o' hg' (hg.down (by have h0 := hf; simp only [Fit] at h0; omega))
      have := ih hg2 (Fit.of_block hb) (ops' := ops') (out' := out') (by
        rw [← h]; simp [saveOp, CRes.bind, atomsOf])
      simpa using this
    · simp
  | @fn ts ops out t f hc ht ih =>
    intro q us e ops' out' hg hf h
    rw [closeLoop] at h
    · obtain ⟨r, hr, h⟩ := CRes.bind_eq_ok h
      obtain ⟨ha, rfl⟩ := saveOp_fun hr
      have hg2 : G true (.lev 8) (t :: us) [.app f [e]] := ht.un ha (hg.down (by have h0 := hf; simp only [Fit] at h0; omega))
      have := ih hg2 (Fit.of_eight _ (by omega)) (ops' := ops') (out' := out') (by
        rw [← h]; simp [atomsOf, atomsOfL])
      simpa using this
    · simp
  | @opn ts ops out hc ih =>
    intro q us e ops' out' hg _ h
    rw [closeLoop] at h
    cases h
    exact ⟨ts, us, e, out, hg.down (by omega), .inl ⟨hc, by simp, by simp [atomsOf]⟩⟩
  | @comma ts ops out us' es t f hc ht hg' ih =>
    intro q us e ops' out' hg _ h
    rw [closeLoop] at h
    cases h
    exact ⟨ts, us, e, out, hg.down (by omega), .inr ⟨t, f, es, us', ops, hc, ht, hg', rfl, by simp,
      by simp [atomsOf]⟩⟩

theorem flush_inv {ts0 ops out0} (hc : Ctx ts0 ops out0) : ∀ {q us e out'},
    G true (.lev q) us [e] → Fit q ops → Entry.openp ∉ ops →
    flush ops (out0 ++ atomsOf e) = .ok out' →
    ∃ e', G true (.lev 0) (ts0 ++ us) [e'] ∧ out' = atomsOf e' := by
  induction hc with
  | nil =>
    intro q us e out' hg _ _ h
    cases h
    exact ⟨e, hg.down (by omega), by simp⟩
  | @op ts ops out us' e' o' hc hb hg' ih =>
    intro q us e out' hg hf hn h
    rw [flush] at h
    have hg2 : G true (.lev o'.prior) (us' ++ .op o' :: us) [.bin o' e' e] :=
      .bin o' hg' (hg.down (by have h0 := hf; simp only [Fit] at h0; omega))
    have := ih hg2 (Fit.of_block hb) (fun hm => hn (by simp [hm])) (out' := out') (by
      rw [← h]; simp [saveOp, CRes.bind, atomsOf])
    simpa using this
  | @fn ts ops out t f hc ht ih =>
    intro q us e out' hg hf hn h
    rw [flush] at h
    obtain ⟨r, hr, h⟩ := CRes.bind_eq_ok h
    obtain ⟨ha, rfl⟩ := saveOp_fun hr
    have hg2 : G true (.lev 8) (t :: us) [.app f [e]] := ht.un ha (hg.down (by have h0 := hf; simp only [Fit] at h0; omega))
    have := ih hg2 (Fit.of_eight _ (by omega)) (fun hm => hn (by simp [hm])) (out' := out') (by
      rw [← h]; simp [atomsOf, atomsOfL])
    simpa using this
  | opn hc ih => intro q us e out' _ _ hn _; exact absurd (by simp) hn
  | comma hc ht hg' ih => intro q us e out' _ _ hn _; exact absurd (by simp) hn

/-- States behind an operand. -/
def After (ts : List Tok) (ops : List Entry) (out : List Atom) : Prop :=
  (∃ ts0 us e out0, Ctx ts0 ops out0 ∧ G true (.lev 9) us [e] ∧ ts = ts0 ++ us ∧ out = out0 ++ atomsOf e)
  ∨ (∃ ts0 us es out0 t f ops0, Ctx ts0 ops0 out0 ∧ TokFor t f ∧ PC t us es ∧
      ops = .fun f es.length :: ops0 ∧ ts = ts0 ++ us ∧ out = out0 ++ atomsOfL es)
  ∨ (∃ f ops0, ops = .fun (.fn f) 0 :: ops0)

theorem Fn.arity_zero (f : Fn) : (Fun.fn f).arityOk 0 = false := by
  cases f <;> rfl

/-- The invariant. -/
def Inv (st : St) (ts : List Tok) : Prop :=
  st.par = (st.ops.count .openp : Int) ∧
    if st.beg then Ctx ts st.ops st.out else After ts st.ops st.out

theorem popWhile_count {o : Op} : ∀ {ops out ops' out'}, popWhile o ops out = .ok (ops', out') →
    ops'.count .openp = ops.count .openp
  | [], out, ops', out', h => by cases h; rfl
  | e :: r, out, ops', out', h => by
    rw [popWhile] at h
    split at h
    · rename_i hs
      obtain ⟨x, _, h⟩ := CRes.bind_eq_ok h
      rw [popWhile_count h]
      cases e with
      | openp => simp [prioSup] at hs
      | _ => simp
    · cases h; rfl

theorem closeLoop_count : ∀ {ops out ops' out'}, closeLoop ops out = .ok (ops', out') →
    ops.count .openp = ops'.count .openp + 1
  | [], out, ops', out', h => by cases h
  | e :: r, out, ops', out', h => by
    cases e with
    | openp => rw [closeLoop] at h; cases h; simp
    | op o =>
      rw [closeLoop] at h
      · obtain ⟨x, _, h⟩ := CRes.bind_eq_ok h
        have := closeLoop_count h
        simpa using this
      · simp
    | «fun» f n =>
      rw [closeLoop] at h
      · obtain ⟨x, _, h⟩ := CRes.bind_eq_ok h
        have := closeLoop_count h
        simpa using this
      · simp

/-- Both kinds of operands, after the check on the number of arguments, as an operand of level 8 in a
context without the call on the stack. -/
theorem After.closeLoop {ts ops out ops' out'} (h : After ts ops out)
    (hc : closeLoop ops out = .ok (ops', out')) : Closed ts ops' out' := by
  rcases h with ⟨ts0, us, e, out0, hctx, hg, rfl, rfl⟩ |
    ⟨ts0, us, es, out0, t, f, ops0, hctx, ht, hpc, rfl, rfl, rfl⟩ | ⟨f, ops0, rfl⟩
  · exact closeLoop_inv hctx hg (Fit.of_eight _ (by omega)) hc
  · rw [Lec.closeLoop] at hc
    · obtain ⟨r, hr, hc⟩ := CRes.bind_eq_ok hc
      obtain ⟨ha, rfl⟩ := saveOp_fun hr
      obtain rfl := ht.of_two hpc.len ha
      exact closeLoop_inv hctx (.ofCall (hpc.call ha)) (Fit.of_eight _ (by omega)) (by
        rw [← hc]; simp [atomsOf])
    · simp
  · rw [Lec.closeLoop] at hc
    · simp [saveOp, Fn.arity_zero, CRes.bind] at hc
    · simp

theorem inv_value {st st' : St} {ts : List Tok} {t : Tok} {a : Atom} {e : Expr} (hi : Inv st ts)
    (ha : atomsOf e = [a]) (hg : G true (.lev 9) [t] [e]) (h : value a st = .ok st') :
    Inv st' (ts ++ [t]) := by
  unfold value at h
  split at h
  · rename_i hb
    cases h
    refine ⟨hi.1, ?_⟩
    have h2 := hi.2
    rw [if_pos hb] at h2
    exact .inl ⟨ts, [t], e, st.out, h2, hg, rfl, by rw [ha]⟩
  · cases h

theorem inv_pushFun {st st' : St} {ts : List Tok} {t : Tok} {f : Fun} (hi : Inv st ts)
    (ht : TokFor t f) (h : pushFun f st = .ok st') : Inv st' (ts ++ [t]) := by
  unfold pushFun at h
  split at h
  · rename_i hb
    cases h
    refine ⟨by simpa using hi.1, ?_⟩
    have h2 := hi.2
    rw [if_pos hb] at h2
    simp only [hb, if_true]
    exact .fn h2 ht
  · cases h

theorem inv_operator {st st' : St} {ts : List Tok} (o : Op) (hi : Inv st ts)
    (h : operator o st = .ok st') : Inv st' (ts ++ [.op o]) := by
  unfold operator at h
  split at h
  · cases o with
    | minus => exact inv_pushFun hi .minus h
    | plus => exact inv_pushFun hi .plus h
    | _ => cases h
  · rename_i hb
    obtain ⟨⟨ops', out'⟩, hr, h⟩ := CRes.bind_eq_ok h
    cases h
    have h2 := hi.2
    rw [if_neg hb] at h2
    have key : ∃ ts1 us' e' out1, Ctx ts1 ops' out1 ∧ G true (.lev o.prior) us' [e'] ∧ Block o.prior ops'
      ∧ ts1 ++ us' = ts ∧ out' = out1 ++ atomsOf e' := by
      have hp := o.prior_bounds
      rcases h2 with ⟨ts0, us, e, out0, hctx, hg, rfl, ho⟩ |
        ⟨ts0, us, es, out0, t, f, ops0, hctx, ht, hpc, hops, rfl, ho⟩ | ⟨f, ops0, hops⟩
      · rw [ho] at hr
        exact popWhile_inv hctx o hg (Fit.of_eight _ (by omega)) (by omega) hr
      · rw [hops, popWhile, if_pos (by rfl)] at hr
        obtain ⟨r, hr', hr⟩ := CRes.bind_eq_ok hr
        obtain ⟨ha, rfl⟩ := saveOp_fun hr'
        obtain rfl := ht.of_two hpc.len ha
        exact popWhile_inv hctx o (.ofCall (hpc.call ha)) (Fit.of_eight _ (by omega)) (by omega) (by
          rw [← hr, ho]; simp [atomsOf])
      · rw [hops, popWhile, if_pos (by rfl)] at hr
        simp [saveOp, Fn.arity_zero, CRes.bind] at hr
    obtain ⟨ts1, us', e', out1, h1, h3, h4, h5, h6⟩ := key
    refine ⟨?_, ?_⟩
    · simp only [List.count_cons, hi.1, popWhile_count hr]
      simp
    · simp only [if_true]
      have := Ctx.op o h1 h4 h3
      rw [← h5, h6]
      simpa using this

theorem inv_openPar {st st' : St} {ts : List Tok} (hi : Inv st ts)
    (h : openPar st = .ok st') : Inv st' (ts ++ [.openp]) := by
  unfold openPar at h
  split at h
  · rename_i hb
    cases h
    refine ⟨by simp [hi.1], ?_⟩
    have h2 := hi.2
    rw [if_pos hb] at h2
    simp only [hb, if_true]
    exact .opn h2
  · cases h

theorem inv_openClose {st st' : St} {ts : List Tok} (hi : Inv st ts)
    (h : openClose st = .ok st') : Inv st' (ts ++ [.ocpar]) := by
  unfold openClose at h
  split at h
  · split at h
    · cases h
    · rename_i f n rest hops
      cases h
      refine ⟨?_, ?_⟩
      · have := hi.1
        rw [hops] at this
        simpa using this
      · simp only [Bool.false_eq_true, if_false]
        exact .inr (.inr ⟨f, rest, rfl⟩)
    · cases h
  · cases h

theorem Closed.after {ts ops out} (h : Closed ts ops out) : After (ts ++ [.closep]) ops out := by
  obtain ⟨ts1, us, e, out1, hg, h⟩ := h
  rcases h with ⟨hc, rfl, rfl⟩ | ⟨t, f, es, vs, ops0, hc, ht, hga, rfl, rfl, rfl⟩
  · exact .inl ⟨ts1, .openp :: (us ++ [.closep]), .par e, out1, hc, .par hg, by simp, rfl⟩
  · refine .inr (.inl ⟨ts1, t :: ((vs ++ .comma :: us) ++ [.closep]), es ++ [.par e], out1, t, f, ops0, hc, ht,
      .mk (.argN hga hg) ?_, by simp, by simp, by simp [atomsOfL_append, atomsOfL]⟩)
    have := hga.does.1
    have := List.length_pos_iff.2 this
    simp; omega

theorem inv_closePar {st st' : St} {ts : List Tok} (hi : Inv st ts)
    (h : closePar st = .ok st') : Inv st' (ts ++ [.closep]) := by
  unfold closePar at h
  split at h
  · cases h
  · rename_i hb
    obtain ⟨⟨ops', out'⟩, hr, h⟩ := CRes.bind_eq_ok h
    cases h
    have h2 := hi.2
    rw [if_neg hb] at h2
    refine ⟨?_, ?_⟩
    · have := closeLoop_count hr
      have := hi.1
      simp only
      omega
    · simp only [hb]
      exact (h2.closeLoop hr).after

theorem inv_comma {st st' : St} {ts : List Tok} (hi : Inv st ts)
    (h : commaStep st = .ok st') : Inv st' (ts ++ [.comma]) := by
  unfold commaStep at h
  split at h
  · cases h
  · rename_i hb
    obtain ⟨⟨ops', out'⟩, hr, h⟩ := CRes.bind_eq_ok h
    have h2 := hi.2
    rw [if_neg hb] at h2
    have hcl := h2.closeLoop hr
    have hcount := closeLoop_count hr
    dsimp only at h
    split at h
    · cases h
    · rename_i f n rest
      cases h
      refine ⟨?_, ?_⟩
      · have := hi.1
        simp at hcount ⊢
        omega
      · simp only [if_true]
        obtain ⟨ts1, us, e, out1, hg, hcl⟩ := hcl
        rcases hcl with ⟨hc, rfl, rfl⟩ | ⟨t, f', es, vs, ops0, hc, ht, hga, hops, rfl, rfl⟩
        · cases hc with
          | @fn ts2 _ _ t _ hc2 ht2 =>
            have := Ctx.comma hc2 ht2 (.arg1 hg)
            simpa [atomsOfL] using this
        · simp only [List.cons.injEq, Entry.fun.injEq] at hops
          obtain ⟨⟨rfl, rfl⟩, rfl⟩ := hops
          have := Ctx.comma hc ht (.argN hga hg)
          simpa [atomsOfL_append, atomsOfL] using this
    · cases h

theorem mapLast_fields {g : Atom → Atom} {st st' : St} (h : mapLast g st = .ok st') :
    st'.ops = st.ops ∧ st'.beg = st.beg ∧ st'.par = st.par := by
  unfold mapLast at h
  split at h
  · cases h; exact ⟨rfl, rfl, rfl⟩
  · split at h
    · cases h; exact ⟨rfl, rfl, rfl⟩
    · cases h
    · cases h

theorem inv_bracket {st st' : St} {ts : List Tok} (g) (t : Tok) (ge : Expr → Expr)
    (hge : ∀ e, atomsOf (ge e) = (atomsOf e).map (mapAtom g))
    (hG : ∀ {us e}, G true (.lev 9) us [e] → G true (.lev 9) (us ++ [t]) [ge e])
    (hP : ∀ {s us es e}, PC s us (es ++ [e]) → PC s (us ++ [t]) (es ++ [ge e]))
    (hi : Inv st ts) (h : bracket (mapAtom g) st = .ok st') : Inv st' (ts ++ [t]) := by
  unfold bracket at h
  split at h
  · cases h
  · rename_i hb
    obtain ⟨h1, h3, h4⟩ := mapLast_fields h
    have h2 := hi.2
    rw [if_neg hb] at h2
    refine ⟨by rw [h4, h1]; exact hi.1, ?_⟩
    rw [h3, if_neg hb, h1]
    rcases h2 with ⟨ts0, us, e, out0, hctx, hg, rfl, ho⟩ |
        ⟨ts0, us, es, out0, t', f, ops0, hctx, ht, hpc, hops, rfl, ho⟩ | ⟨f, ops0, hops⟩
    · rw [mapLast_prim _ hg.prim st out0 ho] at h
      cases h
      exact .inl ⟨ts0, us ++ [t], ge e, out0, hctx, hG hg, by simp, by rw [hge]⟩
    · obtain ⟨es', e, rfl, hp⟩ := hpc.last
      rw [mapLast_prim _ hp st (out0 ++ atomsOfL es') (by rw [ho]; simp [atomsOfL_append, atomsOfL])] at h
      cases h
      exact .inr (.inl ⟨ts0, us ++ [t], es' ++ [ge e], out0, t', f, ops0, hctx, ht, hP hpc, by simpa using hops,
        by simp, by simp [atomsOfL_append, atomsOfL, hge]⟩)
    · exact .inr (.inr ⟨f, ops0, hops⟩)

theorem inv_step {st st' : St} {ts : List Tok} (t : Tok) (hi : Inv st ts) (h : step st t = .ok st') :
    Inv st' (ts ++ [t]) := by
  cases t with
  | cst k => exact inv_value hi rfl (.cst k) h
  | val v => exact inv_value hi rfl (.val v) h
  | var x => exact inv_value hi rfl (.var x) h
  | coef x => exact inv_value hi rfl (.coef x) h
  | op o => exact inv_operator o hi h
  | «fun» f => exact inv_pushFun hi (.fn f) h
  | openp => exact inv_openPar hi h
  | closep => exact inv_closePar hi h
  | ocpar => exact inv_openClose hi h
  | comma => exact inv_comma hi h
  | lag k =>
    rw [step, lagAtom_eq] at h
    exact inv_bracket _ _ (Expr.shift k) (fun e => atomsOf_mapVar _ e) (fun hg => .lag k hg)
      (fun hp => .lag k hp) hi h
  | date p =>
    rw [step, dateAtom_eq] at h
    exact inv_bracket _ _ (Expr.dated p) (fun e => atomsOf_mapVar _ e) (fun hg => .date p hg)
      (fun hp => .date p hp) hi h
  | bad => cases h

theorem inv_run : ∀ {us : List Tok} {st st' : St} {ts : List Tok}, Inv st ts → run st us = .ok st' →
    Inv st' (ts ++ us)
  | [], st, st', ts, hi, h => by cases h; simpa using hi
  | t :: us, st, st', ts, hi, h => by
    obtain ⟨st1, h1, h2⟩ := CRes.bind_eq_ok h
    have := inv_run (inv_step t hi h1) h2
    simpa using this

/-- Whatever compiles from an empty stack of operators is in the grammar, and what comes out is the
postfix form of its tree. -/
theorem compile_inv {ts : List Tok} {as : List Atom} (h : compile [] ts = .ok as) :
    ∃ e, G true (.lev 0) ts [e] ∧ as = atomsOf e := by
  unfold compile at h
  split at h
  · cases h
  · obtain ⟨st, hr, hf⟩ := CRes.bind_eq_ok h
    have hi : Inv ⟨[], [], true, 0⟩ [] := ⟨by simp, .nil⟩
    have hi := inv_run hi hr
    rw [List.nil_append] at hi
    unfold finish at hf
    split at hf
    · cases hf
    · rename_i hb
      split at hf
      · cases hf
      · rename_i hp
        have h1 := hi.1
        have h2 := hi.2
        rw [if_neg hb] at h2
        have hno : Entry.openp ∉ st.ops := by
          have : st.ops.count .openp = 0 := by omega
          exact List.count_eq_zero.1 this
        rcases h2 with ⟨ts0, us, e, out0, hctx, hg, rfl, ho⟩ |
          ⟨ts0, us, es, out0, t, f, ops0, hctx, ht, hpc, hops, rfl, ho⟩ | ⟨f, ops0, hops⟩
        · rw [ho] at hf
          exact flush_inv hctx hg (Fit.of_eight _ (by omega)) hno hf
        · rw [hops, flush] at hf
          obtain ⟨r, hr', hf⟩ := CRes.bind_eq_ok hf
          obtain ⟨ha, rfl⟩ := saveOp_fun hr'
          obtain rfl := ht.of_two hpc.len ha
          exact flush_inv hctx (.ofCall (hpc.call ha)) (Fit.of_eight _ (by omega))
            (fun hm => hno (by rw [hops]; simp [hm])) (by rw [← hf, ho]; simp [atomsOf])
        · rw [hops, flush] at hf
          simp [saveOp, Fn.arity_zero, CRes.bind] at hf

end Iode.Lec
