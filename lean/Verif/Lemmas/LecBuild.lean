import Verif.Lemmas.LecCompile

/-!
# From postfix elements to executable code

`CLEC::initialize` on the elements of a tree gives the code of the tree, provided the expression
argument of every time function is found by `L_sub_expr`.
-/
namespace Iode.Lec

mutual
/-- Executable code of a tree. -/
def codeOf : Expr → List Instr
  | .cst k => [.cst k]
  | .val v => [.val v]
  | .var x l p => [.var x l p]
  | .coef x => [.coef x]
  | .par e => codeOf e
  | .bin o a b => codeOf a ++ (codeOf b ++ [.op o])
  | .app (.fn f) args => codeL args ++ [.fn f args.length]
  | .app (.tfn f) args => codeInit args ++ [.tfn f args.length (codeLast args)]
  | .app (.mtfn _) _ => []
/-- Code of all the arguments. -/
def codeL : List Expr → List Instr
  | [] => []
  | e :: es => codeOf e ++ codeL es
/-- Code of the arguments but the last. -/
def codeInit : List Expr → List Instr
  | [] => []
  | e :: es => match es with
    | [] => []
    | _ :: _ => codeOf e ++ codeInit es
/-- Code of the last argument. -/
def codeLast : List Expr → List Instr
  | [] => []
  | e :: es => match es with
    | [] => codeOf e
    | _ :: _ => codeLast es
end

theorem codeInit_append (es : List Expr) (e : Expr) : codeInit (es ++ [e]) = codeL es := by
  induction es with
  | nil => simp [codeInit, codeL]
  | cons a as ih =>
    cases as with
    | nil => simp [codeInit, codeL]
    | cons b bs =>
      simp only [List.cons_append] at ih ⊢
      rw [codeInit, ih]
      simp only [codeL]

theorem codeLast_append (es : List Expr) (e : Expr) : codeLast (es ++ [e]) = codeOf e := by
  induction es with
  | nil => simp [codeLast]
  | cons a as ih =>
    cases as with
    | nil => simp [codeLast]
    | cons b bs =>
      simp only [List.cons_append] at ih ⊢
      rw [codeLast, ih]

theorem codeOf_tfn (f : TFn) (opts : List Expr) (body : Expr) :
    codeOf (.app (.tfn f) (opts ++ [body])) = codeL opts ++ [.tfn f (opts.length + 1) (codeOf body)] := by
  rw [codeOf, codeInit_append, codeLast_append]
  simp

/-- Expressions whose beginning `L_sub_expr` finds: operands and functions of one argument applied to
such expressions. -/
inductive Tight : Expr → Prop where
  | cst (k) : Tight (.cst k)
  | val (v) : Tight (.val v)
  | var (x l p) : Tight (.var x l p)
  | coef (x) : Tight (.coef x)
  | par (e) : Tight (.par e)
  | un (f) {e} : Tight e → Tight (.app f [e])

/-- Trees in which every time function is applied to an expression whose beginning is found; no
functions of several expressions. -/
inductive Good : Expr → Prop where
  | cst (k) : Good (.cst k)
  | val (v) : Good (.val v)
  | var (x l p) : Good (.var x l p)
  | coef (x) : Good (.coef x)
  | par {e} : Good e → Good (.par e)
  | bin (o) {a b} : Good a → Good b → Good (.bin o a b)
  | fn (f) {args} : (∀ a ∈ args, Good a) → Good (.app (.fn f) args)
  | tfn (f) {opts body} : (∀ a ∈ opts, Good a) → Good body → Tight body →
      Good (.app (.tfn f) (opts ++ [body]))

theorem sub_tight {e : Expr} (h : Tight e) : ∀ (fuel : Nat) (r : List Atom),
    sub ((atomsOf e).length + fuel) ((atomsOf e).reverse ++ r) 0 = .ok (atomsOf e).length := by
  induction h with
  | cst k => exact fun fuel r => sub_prim (.one _ (by simp) (by simp) (by simp) (by simp)) fuel r
  | val k => exact fun fuel r => sub_prim (.one _ (by simp) (by simp) (by simp) (by simp)) fuel r
  | var x l p => exact fun fuel r => sub_prim (.one _ (by simp) (by simp) (by simp) (by simp)) fuel r
  | coef k => exact fun fuel r => sub_prim (.one _ (by simp) (by simp) (by simp) (by simp)) fuel r
  | par e => exact fun fuel r => by rw [atomsOf]; exact sub_prim (.par (bal_atomsOf e)) fuel r
  | @un f e _ ih =>
    intro fuel r
    have h1 : atomsOf (.app f [e]) = atomsOf e ++ [.fun f 1] := by simp [atomsOf, atomsOfL]
    rw [h1]
    simp only [List.length_append, List.length_singleton, List.reverse_append, List.reverse_singleton,
      List.singleton_append, List.cons_append]
    rw [show (atomsOf e).length + 1 + fuel = ((atomsOf e).length + fuel) + 1 by omega, sub, List.nil_append, ih]
    · rfl

theorem codeLen_append (a b : List Instr) : codeLen (a ++ b) = codeLen a + codeLen b := by
  induction a with
  | nil => simp [codeLen]
  | cons i a ih => simp [codeLen, ih]; omega

theorem codeLen_reverse (a : List Instr) : codeLen a.reverse = codeLen a := by
  induction a with
  | nil => rfl
  | cons i a ih => simp [codeLen, codeLen_append, ih]; omega

theorem instrLen_pos (i : Instr) : 0 < instrLen i := by
  cases i with
  | cst k => cases k <;> simp [instrLen, periodSize]
  | _ => simp [instrLen] <;> omega

theorem takeBack_code (a buf acc : List Instr) :
    takeBack (codeLen a) (a.reverse ++ buf) acc = some (a ++ acc, buf) := by
  generalize hr : a.reverse = r
  have ha : a = r.reverse := by rw [← hr]; simp
  rw [ha]
  clear hr ha
  induction r generalizing acc with
  | nil => simp [codeLen, takeBack]
  | cons i r ih =>
    have hp := instrLen_pos i
    have hl : codeLen (i :: r).reverse = codeLen r.reverse + instrLen i := by
      simp [codeLen_append, codeLen]
    rw [hl]
    obtain ⟨m, hm⟩ : ∃ m, codeLen r.reverse + instrLen i = m + 1 :=
      ⟨codeLen r.reverse + instrLen i - 1, by omega⟩
    rw [hm, List.cons_append, takeBack, ← hm, if_pos (by omega), Nat.add_sub_cancel, ih]
    simp

theorem atomsLen_append (a b : List Atom) : atomsLen (a ++ b) = atomsLen a + atomsLen b := by
  simp [atomsLen]

theorem atomsLen_reverse (a : List Atom) : atomsLen a.reverse = atomsLen a := by
  induction a with
  | nil => rfl
  | cons i a ih =>
    rw [List.reverse_cons, atomsLen_append, ih]
    simp [atomsLen]; omega

theorem atomsLen_L {args : List Expr} (h : ∀ a ∈ args, atomsLen (atomsOf a) = codeLen (codeOf a)) :
    atomsLen (atomsOfL args) = codeLen (codeL args) := by
  induction args with
  | nil => rfl
  | cons a as ih =>
    rw [atomsOfL, codeL, atomsLen_append, codeLen_append, h a (by simp), ih (fun x hx => h x (by simp [hx]))]

theorem atomsLen_code {e : Expr} (h : Good e) : atomsLen (atomsOf e) = codeLen (codeOf e) := by
  induction h with
  | cst k => cases k <;> simp [atomsOf, codeOf, atomsLen, codeLen, atomLen, instrLen]
  | val v => simp [atomsOf, codeOf, atomsLen, codeLen, atomLen, instrLen]
  | var x l p => simp [atomsOf, codeOf, atomsLen, codeLen, atomLen, instrLen]
  | coef v => simp [atomsOf, codeOf, atomsLen, codeLen, atomLen, instrLen]
  | @par e _ ih => simpa [atomsOf, codeOf, atomsLen, atomLen] using ih
  | bin o _ _ iha ihb =>
    rw [atomsOf, codeOf, atomsLen_append, atomsLen_append, codeLen_append, codeLen_append, iha, ihb]
    simp [atomsLen, codeLen, atomLen, instrLen]
  | fn f _ ih =>
    rw [atomsOf, codeOf, atomsLen_append, codeLen_append, atomsLen_L ih]
    simp [atomsLen, codeLen, atomLen, instrLen]
  | tfn f _ _ _ iho ihb =>
    rw [atomsOf, codeOf_tfn, atomsLen_append, codeLen_append, atomsOfL_append, atomsLen_append,
      atomsLen_L iho, atomsOfL_single, ihb]
    simp [atomsLen, codeLen, atomLen, instrLen]
    omega

/-- The loop of `CLEC::initialize` over the elements of `e` appends the code of `e`. -/
def Builds (as : List Atom) (code : List Instr) : Prop :=
  ∀ seen buf rest, buildLoop seen buf (as ++ rest) = buildLoop (as.reverse ++ seen) (code.reverse ++ buf) rest

theorem Builds.nil : Builds [] [] := by intro seen buf rest; simp

theorem Builds.append {as bs : List Atom} {c d : List Instr} (h1 : Builds as c) (h2 : Builds bs d) :
    Builds (as ++ bs) (c ++ d) := by
  intro seen buf rest
  rw [List.append_assoc, h1, h2]
  simp

theorem Builds.list {args : List Expr} (h : ∀ a ∈ args, Builds (atomsOf a) (codeOf a)) :
    Builds (atomsOfL args) (codeL args) := by
  induction args with
  | nil => exact .nil
  | cons a as ih =>
    rw [atomsOfL, codeL]
    exact (h a (by simp)).append (ih fun x hx => h x (by simp [hx]))

theorem Good.builds {e : Expr} (h : Good e) : Builds (atomsOf e) (codeOf e) := by
  induction h with
  | cst k => intro seen buf rest; simp [atomsOf, codeOf, buildLoop, buildStep, Res.bind]
  | val v => intro seen buf rest; simp [atomsOf, codeOf, buildLoop, buildStep, Res.bind]
  | var x l p => intro seen buf rest; simp [atomsOf, codeOf, buildLoop, buildStep, Res.bind]
  | coef v => intro seen buf rest; simp [atomsOf, codeOf, buildLoop, buildStep, Res.bind]
  | @par e _ ih =>
    intro seen buf rest
    rw [atomsOf, codeOf]
    simp only [List.cons_append, List.append_assoc]
    rw [buildLoop, buildStep, Res.bind]
    rw [ih, buildLoop, buildStep, Res.bind]
    simp
  | bin o _ _ iha ihb =>
    rw [atomsOf, codeOf]
    exact iha.append (ihb.append (fun seen buf rest => by simp [buildLoop, buildStep, Res.bind]))
  | fn f _ ih =>
    rw [atomsOf, codeOf]
    exact (Builds.list ih).append (fun seen buf rest => by simp [buildLoop, buildStep, Res.bind])
  | @tfn f opts body _ hb ht iho ihb =>
    rw [atomsOf, codeOf_tfn, atomsOfL_append, atomsOfL_single, List.append_assoc]
    refine (Builds.list iho).append ?_
    intro seen buf rest
    rw [List.append_assoc, ihb, List.singleton_append, buildLoop, buildStep]
    have h1 : sub ((atomsOf body).reverse ++ seen).length ((atomsOf body).reverse ++ seen) 0
        = .ok (atomsOf body).length := by
      have := sub_tight ht seen.length seen
      simpa using this
    have h2 : ((atomsOf body).reverse ++ seen).take (atomsOf body).length = (atomsOf body).reverse := by
      rw [List.take_append_of_le_length (by simp), List.take_of_length_le (by simp)]
    have h3 : atomsLen (atomsOf body).reverse = codeLen (codeOf body) := by
      rw [atomsLen_reverse, atomsLen_code hb]
    rw [h1]
    dsimp only
    rw [h2, h3, if_pos (by rw [codeLen_append, codeLen_reverse]; omega), takeBack_code]
    simp [Res.bind]

/-- The code of the elements of a tree. -/
theorem Good.build {e : Expr} (h : Good e) : build (atomsOf e) = .ok (codeOf e) := by
  have := h.builds [] [] []
  simp only [List.append_nil] at this
  rw [Lec.build, this]
  simp [buildLoop]

end Iode.Lec
